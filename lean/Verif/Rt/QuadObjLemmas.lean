import Verif.Spec.QuadObj
import Mathlib.Tactic.Convert
/-
Lemmas about quadrature objects: each live rule has one owner.
-/
namespace VM
open Spec
variable {K R W : Type}

/-- `setAt` for other index types. -/
def put {α : Type} [DecidableEq W] (f : W → α) (i : W) (a : α) : W → α := fun j => if j = i then a else f j

/-- The rules on the heap, who owns them, and what the owners are to hold. -/
structure Owned (heap : Nat → Option R) (next : Nat) (own : W → Option Nat) (val : W → Option R) : Prop where
  held : ∀ w a, own w = some a → heap a = val w ∧ val w ≠ none
  empty : ∀ w, own w = none → val w = none
  one : ∀ w w' a, own w = some a → own w' = some a → w = w'
  live : ∀ a, heap a ≠ none → ∃ w, own w = some a
  fresh : ∀ a, next ≤ a → heap a = none

variable {heap : Nat → Option R} {next : Nat} {own : W → Option Nat} {val : W → Option R} [DecidableEq W]

theorem Owned.acquire (h : Owned heap next own val) {w : W} (hw : own w = none) (r : R) :
    Owned (setAt heap next (some r)) (next + 1) (put own w (some next)) (put val w (some r)) where
  held w' a hw' := by
    simp only [put] at hw' ⊢
    split at hw'
    · cases hw'; simp_all [setAt]
    · have h1 := h.held w' a hw'
      have : a ≠ next := by
        rintro rfl
        exact h1.2 (h1.1 ▸ h.fresh _ (Nat.le_refl _))
      simp_all [setAt]
  empty w' hw' := by
    simp only [put] at hw' ⊢
    split at hw'
    · cases hw'
    · simp_all [h.empty w' hw']
  one w1 w2 a h1 h2 := by
    have key : ∀ w, own w ≠ some next := by
      intro w hw
      have := h.held w next hw
      exact this.2 (this.1 ▸ h.fresh _ (Nat.le_refl _))
    simp only [put] at h1 h2
    split at h1 <;> split at h2
    · simp_all
    · cases h1; exact absurd h2 (key _)
    · cases h2; exact absurd h1 (key _)
    · exact h.one _ _ _ h1 h2
  live a ha := by
    by_cases hn : a = next
    · exact ⟨w, by simp [put, hn]⟩
    · obtain ⟨w', hw'⟩ := h.live a (by simpa [setAt, hn] using ha)
      refine ⟨w', ?_⟩
      have : w' ≠ w := by rintro rfl; rw [hw] at hw'; cases hw'
      simp [put, this, hw']
  fresh a ha := by
    have : a ≠ next := by omega
    simp [setAt, this, h.fresh a (by omega)]

theorem Owned.release (h : Owned heap next own val) {w : W} {a : Nat} (hw : own w = some a) :
    Owned (setAt heap a none) next (put own w none) (put val w none) where
  held w' b hw' := by
    simp only [put] at hw' ⊢
    split at hw'
    · cases hw'
    · rename_i hne
      have : b ≠ a := by rintro rfl; exact hne (h.one _ _ _ hw' hw)
      have := h.held w' b hw'
      simp_all [setAt]
  empty w' hw' := by
    simp only [put] at hw' ⊢
    split at hw'
    · simp_all
    · simp_all [h.empty w' hw']
  one w1 w2 b h1 h2 := by
    simp only [put] at h1 h2
    split at h1
    · cases h1
    · split at h2
      · cases h2
      · exact h.one _ _ _ h1 h2
  live b hb := by
    by_cases hn : b = a
    · simp [setAt, hn] at hb
    · obtain ⟨w', hw'⟩ := h.live b (by simpa [setAt, hn] using hb)
      have : w' ≠ w := by rintro rfl; rw [hw] at hw'; cases hw'; exact hn rfl
      exact ⟨w', by simp [put, this, hw']⟩
  fresh b hb := by
    unfold setAt; split
    · rfl
    · exact h.fresh b hb

theorem Owned.move (h : Owned heap next own val) {w w' : W} {a : Nat} (hw : own w = some a) (hw' : own w' = none) :
    Owned heap next (put (put own w none) w' (some a)) (put (put val w none) w' (val w)) where
  held v b hv := by
    simp only [put] at hv ⊢
    split at hv
    · cases hv; simp_all [h.held w a hw]
    · split at hv
      · cases hv
      · simp_all [h.held v b hv]
  empty v hv := by
    simp only [put] at hv ⊢
    split at hv
    · cases hv
    · split at hv
      · simp_all
      · simp_all [h.empty v hv]
  one w1 w2 b h1 h2 := by
    have key : ∀ u, u ≠ w → own u ≠ some a := fun u hu h1 => hu (h.one _ _ _ h1 hw)
    simp only [put] at h1 h2
    split at h1 <;> split at h2
    · simp_all
    · split at h2
      · cases h2
      · cases h1; exact absurd h2 (key _ ‹_›)
    · split at h1
      · cases h1
      · cases h2; exact absurd h1 (key _ ‹_›)
    · split at h1
      · cases h1
      · split at h2
        · cases h2
        · exact h.one _ _ _ h1 h2
  live b hb := by
    obtain ⟨u, hu⟩ := h.live b hb
    by_cases h1 : u = w
    · subst h1; rw [hw] at hu; cases hu
      exact ⟨w', by simp [put]⟩
    · have : u ≠ w' := by rintro rfl; rw [hw'] at hu; cases hu
      exact ⟨u, by simp [put, this, h1, hu]⟩
  fresh := h.fresh

/-- The address an owner holds: objects, and pointers of the program that were not handed over. -/
def QMem.owner (m : QMem R) (v : QVals R) : Nat ⊕ Nat → Option Nat
  | .inl q => (m.objs q).join
  | .inr p => if (v.kept p).isSome then some (m.ptrs p) else none

/-- The rule an owner is to hold. -/
def Spec.QVals.value (v : QVals R) : Nat ⊕ Nat → Option R
  | .inl q => (v.objs q).join
  | .inr p => v.kept p

/-- The memory holds the values. -/
structure QInv (m : QMem R) (v : QVals R) : Prop where
  owned : Owned m.heap m.next (m.owner v) v.value
  made : m.made = v.made
  kept : ∀ p, v.kept p ≠ none → p < v.made
  decl : ∀ q, m.objs q = none ↔ v.objs q = none

theorem QInv.empty : QInv (.empty : QMem R) .empty where
  owned := by
    have h1 : (QMem.empty : QMem R).owner .empty = fun _ => none := by
      funext w; cases w <;> simp [QMem.owner, QMem.empty, QVals.empty]
    have h2 : (QVals.empty : QVals R).value = fun _ => none := by
      funext w; cases w <;> simp [QVals.value, QVals.empty]
    rw [h1, h2]
    constructor <;> simp [QMem.empty]
  made := rfl
  kept := by simp [QVals.empty]
  decl := by simp [QMem.empty, QVals.empty]

/-- The states of an object. -/
theorem QInv.object {m : QMem R} {v : QVals R} (h : QInv m v) {q : Nat} {t : Option Nat} (hq : m.objs q = some t) :
    (t = none ∧ v.objs q = some none) ∨ ∃ a r, t = some a ∧ v.objs q = some (some r) ∧ m.heap a = some r := by
  have hd : v.objs q ≠ none := fun h' => by rw [← h.decl, hq] at h'; cases h'
  cases t with
  | none =>
    have := h.owned.empty (.inl q) (by simp [QMem.owner, hq])
    cases hv : v.objs q with
    | none => exact absurd hv hd
    | some s => cases s with
      | none => exact .inl ⟨rfl, rfl⟩
      | some r => simp [QVals.value, hv] at this
  | some a =>
    have := h.owned.held (.inl q) a (by simp [QMem.owner, hq])
    cases hv : v.objs q with
    | none => exact absurd hv hd
    | some s => cases s with
      | none => simp [QVals.value, hv] at this
      | some r => exact .inr ⟨a, r, rfl, rfl, by simpa [QVals.value, hv] using this.1⟩

theorem QInv.rule {m : QMem R} {v : QVals R} (h : QInv m v) (c : RuleClass K R) {q : Nat} {t : Option Nat}
    {s : Option R} (hq : m.objs q = some t) (hs : v.objs q = some s) : m.ruleOf c t = QVals.rule c s := by
  rcases h.object hq with ⟨rfl, h1⟩ | ⟨a, r, rfl, h1, h2⟩
  · rw [h1] at hs; cases hs; rfl
  · rw [h1] at hs; cases hs; simp [QMem.ruleOf, h2, QVals.rule]

theorem owner_obj (m : QMem R) (v : QVals R) (q : Nat) (t : Option Nat) (hp : Nat → Option R) (n : Nat) :
    ({ m with heap := hp, next := n, objs := setAt m.objs q (some t) } : QMem R).owner v = put (m.owner v) (.inl q) t := by
  funext w
  cases w with
  | inl q' => by_cases h : q' = q <;> simp [QMem.owner, put, setAt, h]
  | inr p => simp [QMem.owner, put]

theorem owner_gone (m : QMem R) (v : QVals R) (q : Nat) (hp : Nat → Option R) :
    ({ m with heap := hp, objs := setAt m.objs q none } : QMem R).owner v = put (m.owner v) (.inl q) none := by
  funext w
  cases w with
  | inl q' => by_cases h : q' = q <;> simp [QMem.owner, put, setAt, h]
  | inr p => simp [QMem.owner, put]

theorem value_obj (v : QVals R) (q : Nat) (s : Option R) :
    ({ v with objs := setAt v.objs q (some s) } : QVals R).value = put v.value (.inl q) s := by
  funext w
  cases w with
  | inl q' => by_cases h : q' = q <;> simp [QVals.value, put, setAt, h]
  | inr p => simp [QVals.value, put]

theorem value_gone (v : QVals R) (q : Nat) :
    ({ v with objs := setAt v.objs q none } : QVals R).value = put v.value (.inl q) none := by
  funext w
  cases w with
  | inl q' => by_cases h : q' = q <;> simp [QVals.value, put, setAt, h]
  | inr p => simp [QVals.value, put]

theorem put_same {α : Type} (f : W → α) (w : W) {a : α} (h : f w = a) : put f w a = f := by
  funext w'
  unfold put
  split
  · rename_i h'; rw [h', h]
  · rfl

theorem put_put {α : Type} (f : W → α) (w : W) (a b : α) : put (put f w a) w b = put f w b := by
  funext w'
  unfold put
  split <;> rfl

theorem setAt_comm {α : Type} (f : Nat → α) {i j : Nat} (h : i ≠ j) (a b : α) :
    setAt (setAt f i a) j b = setAt (setAt f j b) i a := by
  funext k
  unfold setAt
  split <;> split <;> simp_all

theorem decl_set {α β : Type} {f : Nat → Option α} {g : Nat → Option β} (h : ∀ q, f q = none ↔ g q = none) (q : Nat)
    (a : Option α) (b : Option β) (hab : a = none ↔ b = none) :
    ∀ q', setAt f q a q' = none ↔ setAt g q b q' = none := by
  intro q'
  unfold setAt
  split
  · exact hab
  · exact h q'

variable [Num K]

/-- A step of the program does the same to the memory and to the values. -/
theorem QInv.step {m : QMem R} {v : QVals R} (h : QInv m v) (o : Order K) (c : RuleClass K R) (op : QOp K R)
    (hl : QLegal v op) :
    (m.step o c op = none ∧ v.step o c op = none) ∨
      ∃ m' v' r, m.step o c op = some (m', r) ∧ v.step o c op = some (v', r) ∧ QInv m' v' := by
  cases op with
  | new r =>
    refine .inr ⟨_, _, _, rfl, rfl, ?_, by simp [h.made], ?_, h.decl⟩
    · have hk : v.kept v.made = none := by
        cases hk : v.kept v.made with
        | none => rfl
        | some r => exact absurd (h.kept v.made (by simp [hk])) (Nat.lt_irrefl _)
      have := h.owned.acquire (w := .inr v.made) (by simp [QMem.owner, hk]) r
      convert this using 1
      · funext w
        cases w with
        | inl q => simp [QMem.owner, put]
        | inr p => by_cases hp : p = v.made <;> simp [QMem.owner, put, setAt, hp, h.made]
      · funext w
        cases w with
        | inl q => simp [QVals.value, put]
        | inr p => by_cases hp : p = v.made <;> simp [QVals.value, put, setAt, hp]
    · intro p hp
      simp only [setAt] at hp
      show p < v.made + 1
      split at hp
      · omega
      · have := h.kept p hp; omega
  | ctor q =>
    have hm := (h.decl q).2 hl
    refine .inr ⟨{ m with objs := setAt m.objs q (some none) }, _, _, by simp only [QMem.step, hm], rfl, ?_, h.made, h.kept,
      decl_set h.decl q _ _ (by simp)⟩
    show Owned m.heap m.next _ _
    have h1 := owner_obj m v q none m.heap m.next
    rw [put_same _ _ (by simp [QMem.owner, hm])] at h1
    rw [value_obj, put_same _ _ (by simp [QVals.value, show v.objs q = none from hl])]
    exact h1 ▸ h.owned
  | ctorPtr q p =>
    obtain ⟨hq, hp⟩ := hl
    have hm := (h.decl q).2 hq
    have hlt : p < m.made := h.made ▸ h.kept p hp
    refine .inr ⟨{ m with objs := setAt m.objs q (some (some (m.ptrs p))) }, _, _,
      by simp only [QMem.step, hm, hlt, if_true], rfl, ?_, h.made, ?_,
      decl_set h.decl q _ _ (by simp)⟩
    · have hs : (v.kept p).isSome := Option.isSome_iff_ne_none.2 hp
      have := h.owned.move (w := .inr p) (w' := .inl q) (a := m.ptrs p) (by simp [QMem.owner, hs])
        (by simp [QMem.owner, hm])
      convert this using 1
      · funext w
        cases w with
        | inl q' => by_cases hq' : q' = q <;> simp [QMem.owner, put, setAt, hq']
        | inr p' => by_cases hp' : p' = p <;> simp [QMem.owner, put, setAt, hp']
      · funext w
        cases w with
        | inl q' => by_cases hq' : q' = q <;> simp [QVals.value, put, setAt, hq']
        | inr p' => by_cases hp' : p' = p <;> simp [QVals.value, put, setAt, hp']
    · intro p' hp'
      simp only [setAt] at hp'
      split at hp'
      · exact absurd rfl hp'
      · exact h.kept p' hp'
  | copy q q' =>
    obtain ⟨hq, hq'⟩ := hl
    have hm := (h.decl q).2 hq
    cases ht : m.objs q' with
    | none => exact absurd ((h.decl q').1 ht) hq'
    | some t =>
      rcases h.object ht with ⟨rfl, h1⟩ | ⟨a, r, rfl, h1, h2⟩
      · exact .inl ⟨by simp [QMem.step, hm, ht, QMem.cloneOf], by simp [QVals.step, h1]⟩
      · refine .inr ⟨{ m with heap := setAt m.heap m.next (some (c.clone r)), next := m.next + 1,
                                objs := setAt m.objs q (some (some m.next)) },
          { v with objs := setAt v.objs q (some (some (c.clone r))) }, none,
          by simp only [QMem.step, hm, ht, QMem.cloneOf, h2, Option.map_some],
          by simp only [QVals.step, h1, Option.bind_some, Option.map_some], ?_, h.made, h.kept,
          decl_set h.decl q _ _ (by simp)⟩
        have := h.owned.acquire (w := .inl q) (by simp [QMem.owner, hm]) (c.clone r)
        rw [value_obj]
        exact owner_obj m v q (some m.next) _ _ ▸ this
  | assign q q' =>
    obtain ⟨hq, hq'⟩ := hl
    cases ht : m.objs q' with
    | none => exact absurd ((h.decl q').1 ht) hq'
    | some t =>
    cases hu : m.objs q with
    | none => exact absurd ((h.decl q).1 hu) hq
    | some u =>
      rcases h.object ht with ⟨rfl, h1⟩ | ⟨a, r, rfl, h1, h2⟩
      · exact .inl ⟨by simp [QMem.step, hu, ht, QMem.cloneOf], by simp [QVals.step, h1]⟩
      · have hstep : v.step o c (.assign q q') =
            some ({ v with objs := setAt v.objs q (some (some (c.clone r))) }, none) := by
          simp [QVals.step, h1]
        rcases h.object hu with ⟨rfl, h3⟩ | ⟨b, r', rfl, h3, h4⟩
        · refine .inr ⟨{ m with heap := setAt m.heap m.next (some (c.clone r)), next := m.next + 1,
                                  objs := setAt m.objs q (some (some m.next)) }, _, _, by
            simp only [QMem.step, hu, ht, QMem.cloneOf, h2, Option.map_some, Option.bind_some, QMem.delete],
            hstep, ?_, h.made, h.kept, decl_set h.decl q _ _ (by simp)⟩
          have := h.owned.acquire (w := .inl q) (by simp [QMem.owner, hu]) (c.clone r)
          rw [value_obj]
          exact owner_obj m v q (some m.next) _ _ ▸ this
        · have hne : b ≠ m.next := by
            rintro rfl
            rw [h.owned.fresh _ (Nat.le_refl _)] at h4; cases h4
          refine .inr ⟨{ m with heap := setAt (setAt m.heap m.next (some (c.clone r))) b none, next := m.next + 1,
                                  objs := setAt m.objs q (some (some m.next)) }, _, _, by
            have : setAt m.heap m.next (some (c.clone r)) b = some r' := by simp [setAt, hne, h4]
            simp only [QMem.step, hu, ht, QMem.cloneOf, h2, Option.map_some, Option.bind_some, QMem.delete, this],
            hstep, ?_, h.made, h.kept, decl_set h.decl q _ _ (by simp)⟩
          have := (h.owned.release (w := .inl q) (a := b) (by simp [QMem.owner, hu])).acquire (w := .inl q)
            (by simp [put]) (c.clone r)
          rw [put_put, put_put] at this
          rw [value_obj]
          have h5 := owner_obj m v q (some m.next) (setAt (setAt m.heap m.next (some (c.clone r))) b none) (m.next + 1)
          rw [← setAt_comm _ hne] at h5
          rw [← h5] at this
          exact (setAt_comm m.heap hne _ _) ▸ this
  | destroy q =>
    cases ht : m.objs q with
    | none => exact absurd ((h.decl q).1 ht) hl
    | some t =>
      rcases h.object ht with ⟨rfl, h1⟩ | ⟨a, r, rfl, h1, h2⟩
      · refine .inr ⟨{ m with objs := setAt m.objs q none }, _, _,
          by simp only [QMem.step, ht, QMem.delete, Option.map_some], rfl, ?_, h.made, h.kept,
          decl_set h.decl q _ _ (by simp)⟩
        rw [value_gone, put_same _ _ (by simp [QVals.value, h1])]
        have h3 := owner_gone m v q m.heap
        rw [put_same _ _ (by simp [QMem.owner, ht])] at h3
        exact h3 ▸ h.owned
      · refine .inr ⟨{ m with heap := setAt m.heap a none, objs := setAt m.objs q none }, _, _,
          by simp only [QMem.step, ht, QMem.delete, h2, Option.map_some], rfl, ?_, h.made,
          h.kept, decl_set h.decl q _ _ (by simp)⟩
        rw [value_gone]
        exact owner_gone m v q _ ▸ h.owned.release (w := .inl q) (by simp [QMem.owner, ht])
  | call q e =>
    cases ht : m.objs q with
    | none => exact absurd ((h.decl q).1 ht) hl
    | some t =>
    cases hs : v.objs q with
    | none => exact absurd hs hl
    | some s =>
      simp only [QMem.step, QVals.step, ht, hs, Option.bind_some, h.rule c ht hs]
      cases defined (quadOf o (QVals.rule c s) e) with
      | none => exact .inl ⟨rfl, rfl⟩
      | some r => exact .inr ⟨_, _, _, rfl, rfl, h⟩
  | callOver q lo hi x e =>
    cases ht : m.objs q with
    | none => exact absurd ((h.decl q).1 ht) hl
    | some t =>
    cases hs : v.objs q with
    | none => exact absurd hs hl
    | some s =>
      simp only [QMem.step, QVals.step, ht, hs, Option.bind_some, h.rule c ht hs]
      cases defined (quadOver (QVals.rule c s) lo hi x e) with
      | none => exact .inl ⟨rfl, rfl⟩
      | some r => exact .inr ⟨_, _, _, rfl, rfl, h⟩

/-- Programs. -/
theorem QInv.exec (o : Order K) (c : RuleClass K R) : ∀ (ops : List (QOp K R)) {m : QMem R} {v : QVals R}, QInv m v →
    QProgram o c v ops →
    (m.exec o c ops = none ∧ v.exec o c ops = none) ∨
      ∃ m' v' rs, m.exec o c ops = some (m', rs) ∧ v.exec o c ops = some (v', rs) ∧ QInv m' v'
  | [], m, v, h, _ => .inr ⟨m, v, [], rfl, rfl, h⟩
  | op :: ops, m, v, h, hp => by
    rcases h.step o c op hp.1 with ⟨h1, h2⟩ | ⟨m', v', r, h1, h2, h'⟩
    · exact .inl ⟨by simp [QMem.exec, h1], by simp [QVals.exec, h2]⟩
    · rcases QInv.exec o c ops h' (hp.2 _ h2) with ⟨h3, h4⟩ | ⟨m'', v'', rs, h3, h4, h''⟩
      · exact .inl ⟨by simp [QMem.exec, h1, h3], by simp [QVals.exec, h2, h4]⟩
      · exact .inr ⟨m'', v'', r.toList ++ rs, by simp [QMem.exec, h1, h3], by simp [QVals.exec, h2, h4], h''⟩

end VM
