import Verif.Rt.QuadObjLemmas
import Verif.NumRat
import Verif.Rt.Dec
/-
C62: quadrature objects behave as values.
-/
namespace VM.Props
open Spec
variable {K R : Type} [Num K]

/-- C62.  Any program that declares its objects before it uses them and hands each rule to at most one object:
it is free of undefined behaviour exactly if the same program on independent values is, and then the results of
all calls are the same. -/
theorem C62_values (o : Order K) (c : RuleClass K R) (ops : List (QOp K R)) (h : QProgram o c .empty ops) :
    (QMem.empty.exec o c ops).map (·.2) = (QVals.empty.exec o c ops).map (·.2) := by
  rcases QInv.exec o c ops QInv.empty h with ⟨h1, h2⟩ | ⟨m, v, rs, h1, h2, _⟩ <;> simp [h1, h2]

/-- C62.  At the end of any such program (hence after each of its steps) no two objects share a rule, and each rule
in memory belongs to an object or was not handed over yet. -/
theorem C62_owners (o : Order K) (c : RuleClass K R) (ops : List (QOp K R)) (h : QProgram o c .empty ops)
    {m : QMem R} {v : QVals R} {rs rs' : List (Res K)} (hm : QMem.empty.exec o c ops = some (m, rs))
    (hv : QVals.empty.exec o c ops = some (v, rs')) :
    (∀ q q' a, m.objs q = some (some a) → m.objs q' = some (some a) → q = q') ∧
    (∀ a, m.heap a ≠ none → (∃ q, m.objs q = some (some a)) ∨ ∃ p, v.kept p ≠ none ∧ m.ptrs p = a) ∧
    ∀ q a, m.objs q = some (some a) → m.heap a ≠ none := by
  rcases QInv.exec o c ops QInv.empty h with ⟨h1, h2⟩ | ⟨m', v', rs, h1, h2, hi⟩
  · rw [h1] at hm; cases hm
  rw [hm] at h1; cases h1
  rw [hv] at h2; cases h2
  have own : ∀ q a, m.objs q = some (some a) ↔ m.owner v (.inl q) = some a := by
    intro q a
    simp only [QMem.owner]
    cases m.objs q <;> simp
  refine ⟨fun q q' a h1 h2 => ?_, fun a ha => ?_, fun q a hq => ?_⟩
  · have := hi.owned.one _ _ _ ((own q a).1 h1) ((own q' a).1 h2)
    exact Sum.inl.inj this
  · obtain ⟨w, hw⟩ := hi.owned.live a ha
    cases w with
    | inl q => exact .inl ⟨q, (own q a).2 hw⟩
    | inr p =>
      refine .inr ⟨p, ?_⟩
      simp only [QMem.owner] at hw
      split at hw
      · cases hw; exact ⟨Option.isSome_iff_ne_none.1 ‹_›, rfl⟩
      · cases hw
  · have := hi.owned.held _ _ ((own q a).1 hq)
    rw [this.1]; exact this.2

/-- C62.  A program that hands over every rule it makes and ends the life of every object leaves nothing behind. -/
theorem C62_no_leak (o : Order K) (c : RuleClass K R) (ops : List (QOp K R)) (h : QProgram o c .empty ops)
    {m : QMem R} {v : QVals R} {rs rs' : List (Res K)} (hm : QMem.empty.exec o c ops = some (m, rs))
    (hv : QVals.empty.exec o c ops = some (v, rs')) (hk : ∀ p, v.kept p = none) (ho : ∀ q, m.objs q = none) :
    ∀ a, m.heap a = none := by
  intro a
  cases ha : m.heap a with
  | none => rfl
  | some r =>
    rcases (C62_owners o c ops h hm hv).2.1 a (by simp [ha]) with ⟨q, hq⟩ | ⟨p, hp, _⟩
    · rw [ho] at hq; cases hq
    · exact absurd (hk p) hp

/-- C62.  If clones of rules integrate as the rules do: a copy of an object that has a rule integrates as the object
did, and so does the object afterwards. -/
theorem C62_copy (o : Order K) (c : RuleClass K R) (hc : ∀ r, c.run (c.clone r) = c.run r) (ops : List (QOp K R))
    (h : QProgram o c .empty ops) {m : QMem R} {rs : List (Res K)} (hm : QMem.empty.exec o c ops = some (m, rs))
    (q q' a : Nat) (hq : m.objs q = none) (hq' : m.objs q' = some (some a)) :
    ∃ m', m.step o c (.copy q q') = some (m', none) ∧ ∀ e,
      (m'.step o c (.call q e)).map (·.2) = (m.step o c (.call q' e)).map (·.2) ∧
      (m'.step o c (.call q' e)).map (·.2) = (m.step o c (.call q' e)).map (·.2) := by
  rcases QInv.exec o c ops QInv.empty h with ⟨h1, _⟩ | ⟨m', v, rs, h1, _, hi⟩
  · rw [h1] at hm; cases hm
  rw [hm] at h1; cases h1
  rcases hi.object hq' with ⟨h2, _⟩ | ⟨b, r, h2, _, hr⟩
  · cases h2
  cases h2
  have hne : a ≠ m.next := by
    rintro rfl
    rw [hi.owned.fresh _ (Nat.le_refl _)] at hr; cases hr
  have hqq : q' ≠ q := by rintro rfl; rw [hq] at hq'; cases hq'
  refine ⟨{ m with heap := setAt m.heap m.next (some (c.clone r)), next := m.next + 1,
                   objs := setAt m.objs q (some (some m.next)) },
    by simp only [QMem.step, hq, hq', QMem.cloneOf, hr, Option.map_some], fun e => ?_⟩
  simp [QMem.step, setAt, hqq, hq', QMem.ruleOf, hr, hne, hc, Function.comp_def]

/-- C62, default constructed objects: they can be assigned to and destroyed; copying them and integrating with
them is undefined. -/
theorem C62_default (o : Order K) (c : RuleClass K R) (m : QMem R) (q q' : Nat) (hq : m.objs q = some none)
    (lo hi e : Expr K) (x : Nat) :
    m.step o c (.copy q' q) = none ∧ m.step o c (.assign q' q) = none ∧
    m.step o c (.call q (.integ lo hi x e)) = none ∧ m.step o c (.callOver q lo hi x e) = none ∧
    m.step o c (.destroy q) = some ({ m with objs := setAt m.objs q none }, none) := by
  refine ⟨?_, ?_, ?_, ?_, ?_⟩
  · cases h : m.objs q' <;> simp [QMem.step, hq, h, QMem.cloneOf]
  · cases h : m.objs q' <;> simp [QMem.step, hq, h, QMem.cloneOf]
  · simp [QMem.step, hq, QMem.ruleOf, quadOf, defined]
  · simp [QMem.step, hq, QMem.ruleOf, quadOver, defined]
  · simp [QMem.step, hq, QMem.delete]

/-- C62, why each rule may be handed over only once: two objects made from one pointer cannot both be destroyed,
and after the end of one of them the other cannot integrate. -/
theorem C62_handed_twice (o : Order K) (c : RuleClass K R) (r : R) (lo hi e : Expr K) (x : Nat) :
    QMem.empty.exec o c [.new r, .ctorPtr 0 0, .ctorPtr 1 0, .destroy 0] ≠ none ∧
    QMem.empty.exec o c [.new r, .ctorPtr 0 0, .ctorPtr 1 0, .destroy 0, .destroy 1] = none ∧
    QMem.empty.exec o c [.new r, .ctorPtr 0 0, .ctorPtr 1 0, .destroy 0, .callOver 1 lo hi x e] = none := by
  refine ⟨?_, ?_, ?_⟩ <;>
    simp [QMem.exec, QMem.step, QMem.empty, setAt, QMem.delete, QMem.ruleOf, quadOver, defined]

/-- The rule of the library, `rt_gauss_quad_1` (numerical_quadrature.hpp 53-84). -/
def gauss (o : Order K) : RuleClass K Unit := ⟨fun _ => gaussQuad1 o, id⟩

/-- The integral of `2*x1 + 5` over `[1, 3]`. -/
def integral18 : Expr XRat := .integ (.const (some 1)) (.const (some 3)) 1
  (.bin .plus (.bin .mult (.const (some 2)) (.var 1)) (.const (some 5)))

/-- A program of an owner, a copy, a default object that is assigned to, assignments of an object to itself,
and calls after the owner is gone: legal, without undefined behaviour, nothing left at its end. -/
def lives : List (QOp XRat Unit) :=
  [.new (), .ctorPtr 0 0, .copy 1 0, .ctor 2, .assign 2 1, .assign 2 2, .call 0 integral18, .destroy 0,
   .call 2 integral18, .destroy 2, .call 1 (.bin .plus integral18 integral18), .destroy 1]

example : QProgram leftFirst (gauss leftFirst) .empty lives ∧
    (QVals.empty.exec leftFirst (gauss leftFirst) lives).map (·.2) =
      some [.ok (some 18), .ok (some 18), .ok (some 36)] := by
  have h18 : quadOf leftFirst (gaussQuad1 leftFirst) integral18 = .ok (some 18) := by decide +kernel
  have h36 : quadOf leftFirst (gaussQuad1 leftFirst) (.bin .plus integral18 integral18) = .ok (some 36) := by
    decide +kernel
  constructor
  · simp [lives, QProgram, QLegal, QVals.step, QVals.empty, setAt, gauss, QVals.rule, h18, h36, defined]
  · simp [lives, QVals.exec, QVals.step, QVals.empty, setAt, gauss, QVals.rule, h18, h36, defined]

end VM.Props
