import Verif.Spec.Overload
import Verif.Ct.ConvertLemmas
import Verif.Rt.CoordsLemmas
import Verif.Rt.Dec
import Mathlib.Data.Fintype.Prod
/-
Lemmas about overload resolution and about compile-time versus run-time algorithms.
-/
namespace VM.Ct
open VM.Spec
variable {K : Type}

instance : Fintype Cls where
  elems := {.int, .num, .rtConst, .rtVar, .fsym, .un, .bin, .vec, .expr, .ctConst, .ctVar, .ctFsym, .ctBin}
  complete := fun c => by cases c <;> decide

/-- What is selected for `simplify`. -/
def simplifyPick : Cls → Option Nat
  | .expr => some 1
  | .un => some 2
  | .bin => some 3
  | c => if c.isCt then none else some 4

theorem pick_simplify (c : Cls) : pick simplifySigs [c] = simplifyPick c := by
  revert c; decide +kernel

def inplacePick : Cls → Option Nat
  | .expr => some 0
  | .un => some 1
  | .bin => some 2
  | _ => some 3

theorem pick_inplace (c : Cls) : pick inplaceSigs [c] = inplacePick c := by
  revert c; decide +kernel

def diffPick : Cls → Cls → Option Nat
  | .bin, .rtVar => some 0
  | .un, .rtVar => some 1
  | .expr, .rtVar => some 2
  | .bin, .ctVar => some 3
  | .un, .ctVar => some 4
  | .expr, .ctVar => some 5
  | .fsym, .rtVar => some 6
  | .fsym, .ctVar => some 7
  | .fsym, .fsym => some 8
  | .un, .fsym => some 9
  | .bin, .fsym => some 10
  | .expr, .fsym => some 11
  | .rtConst, .rtVar => some 13
  | .int, .rtVar => some 12
  | .num, .rtVar => some 12
  | .ctConst, .rtVar => some 12
  | .ctConst, .ctVar => some 15
  | .ctVar, .ctVar => some 15
  | .ctBin, .ctVar => some 15
  | _, _ => none

theorem pick_diff (a v : Cls) : pick diffSigs [a, v] = diffPick a v := by
  revert a v; decide +kernel

theorem diffPick_none (a v : Cls) : diffPick a v = none ↔ a ∉ differentiable v := by
  revert a v; decide +kernel

def substPick (s r e : Cls) : Option Nat :=
  match s, e with
  | .rtVar, .expr => if r = .num then some 3 else some 2
  | .rtVar, _ => some 1
  | .fsym, .expr => if r = .expr then some 5 else if r ∈ [.num, .int, .rtConst, .ctConst] then some 4 else none
  | .un, .expr => if r = .expr then some 7 else some 6
  | .bin, .expr => some 8
  | .expr, .expr => if r = .expr then some 9 else none
  | _, e => if e.isCt then some 0 else none

theorem pick_subst (s r e : Cls) : pick substSigs [s, r, e] = substPick s r e := by
  revert s r e; decide +kernel

/-! ### The compile-time algorithms build the trees the run-time ones build -/

variable [Num K]

theorem diffE_image (i : Nat) {e d : CtExpr} (h : ctDiff i e = some d) :
    diffE (.var i) (image (K := K) e) = .ok (image d) := by
  induction e generalizing d with
  | const n => cases h; rfl
  | var j =>
    simp only [ctDiff] at h
    simp only [image, diffE, DVar.var.injEq]
    by_cases hj : j = i
    · rw [if_pos hj] at h; cases h; rw [if_pos hj.symm]; rfl
    · rw [if_neg hj] at h; cases h; rw [if_neg (Ne.symm hj)]; rfl
  | fsym t => cases h
  | bin l op r ihl ihr =>
    cases op <;> simp only [ctDiff, Option.bind_eq_some_iff, Option.some.injEq] at h <;>
      obtain ⟨u, hu, w, hw, rfl⟩ := h <;>
      simp [image, diffE, ihl hu, ihr hw, diffBin, COp.toRt]

theorem ctDiff_isSome (i : Nat) (e : CtExpr) : (∃ d, ctDiff i e = some d) ↔ NoSym e := by
  induction e with
  | const n => simp [ctDiff, NoSym]
  | var j => simp only [ctDiff, NoSym, iff_true]; split <;> exact ⟨_, rfl⟩
  | fsym t => simp [ctDiff, NoSym]
  | bin l op r ihl ihr =>
    rw [NoSym, ← ihl, ← ihr]
    cases op <;> simp only [ctDiff, Option.bind_eq_some_iff, Option.some.injEq] <;>
      exact ⟨fun ⟨_, u, hu, w, hw, _⟩ => ⟨⟨u, hu⟩, w, hw⟩, fun ⟨⟨u, hu⟩, w, hw⟩ => ⟨_, u, hu, w, hw, rfl⟩⟩

theorem ctDiff_noSym {i : Nat} {e d : CtExpr} (h : ctDiff i e = some d) : NoSym d := by
  induction e generalizing d with
  | const n => cases h; trivial
  | var j => simp only [ctDiff] at h; split at h <;> cases h <;> trivial
  | fsym t => cases h
  | bin l op r ihl ihr =>
    have hn : NoSym (.bin l op r) := (ctDiff_isSome i _).1 ⟨d, h⟩
    cases op <;> simp only [ctDiff, Option.bind_eq_some_iff, Option.some.injEq] at h <;>
      obtain ⟨u, hu, w, hw, rfl⟩ := h <;> simp [NoSym, ihl hu, ihr hw, hn.1, hn.2]

theorem deepEq_image (hK : LitsDistinct K) (a b : CtExpr) (ha : NoSym a) :
    deepEq (image (K := K) a) (image b) = .ok (decide (a = b)) := by
  induction a generalizing b with
  | const n => cases b <;> simp [image, deepEq, hK _ _, eq_comm]
  | var i => cases b <;> simp [image, deepEq, eq_comm]
  | fsym t => exact ha.elim
  | bin l op r ihl ihr =>
    cases b with
    | bin l' op' r' =>
      have ht : op.toRt = op'.toRt ↔ op = op' := by cases op <;> cases op' <;> simp [COp.toRt]
      simp only [image, deepEq, ihl l' ha.1, Res.bind_ok, CtExpr.bin.injEq, ht]
      by_cases hl : l = l' <;> by_cases ho : op = op' <;> simp [hl, ho, ihr r' ha.2]
    | _ => simp [image, deepEq]

theorem substE_image (hK : LitsDistinct K) (s r e : CtExpr) (he : NoSym e) :
    substE (image (K := K) s) (image r) (image e) = .ok (image (ctSubst s r e)) := by
  induction e with
  | const n =>
    have := deepEq_image hK (.const n) s he
    rw [image] at this ⊢
    rw [substE, this, ctSubst]
    by_cases h : CtExpr.const n = s <;> simp [h, image]
  | var i =>
    have := deepEq_image hK (.var i) s he
    rw [image] at this ⊢
    rw [substE, this, ctSubst]
    by_cases h : CtExpr.var i = s <;> simp [h, image]
  | fsym t => exact he.elim
  | bin a op b iha ihb =>
    have := deepEq_image hK (.bin a op b) s he
    rw [image] at this ⊢
    rw [substE, this, ctSubst]
    by_cases h : CtExpr.bin a op b = s
    · simp [h]
    · simp [h, iha he.1, ihb he.2, image]

theorem ctSubst_noSym {s r e : CtExpr} (hr : NoSym r) (he : NoSym e) : NoSym (ctSubst s r e) := by
  induction e with
  | bin a op b iha ihb =>
    rw [ctSubst]; split
    · exact hr
    · exact ⟨iha he.1, ihb he.2⟩
  | fsym t => exact he.elim
  | _ => rw [ctSubst]; split <;> first | exact hr | trivial

theorem occursIn_iff {s e : CtExpr} : occursIn s e = true ↔ Inside s e := by
  induction e with
  | bin a op b iha ihb =>
    simp only [occursIn, Bool.or_eq_true, iha, ihb, beq_iff_eq]
    constructor
    · rintro (h | h | h)
      · exact h ▸ .here
      · exact .left h
      · exact .right h
    · intro h
      cases h with
      | here => exact .inl rfl
      | left h => exact .inr (.inl h)
      | right h => exact .inr (.inr h)
  | _ =>
    simp only [occursIn, Bool.or_false, beq_iff_eq]
    exact ⟨fun h => h ▸ .here, fun h => by cases h; rfl⟩

theorem toRt_noSym {e : CtExpr} (h : NoSym e) : toRt (K := K) e = some (image e) := by
  rw [toRt_eq, if_pos (callable_iff.2 h)]

theorem simplified_leaf {e : Expr K} (h : canSimplify e = .ok false) : simplified e = .ok e := by
  rw [simplified_eq, h]; rfl

theorem callDiff_eq (a v : Arg K) : callDiff a v = (diffPick a.cls v.cls).bind fun k => diffBody k a v := by
  rw [callDiff, pick_diff]

/-- Only the classes of the table remain. -/
theorem callDiff_some {a v : Arg K} {r} (h : callDiff a v = some r) : a.cls ∈ differentiable v.cls := by
  by_contra hn
  rw [callDiff_eq, (diffPick_none _ _).2 hn] at h
  cases h

theorem exactly_map {r : Res (Expr K)} : Exactly (r.map fun e => Out.obj (.expr e)) r := by
  cases r with
  | ok e => exact ⟨_, rfl, rfl⟩
  | throw x => exact rfl
  | ub => exact rfl

theorem Arg.toExpr_isSome {a : Arg K} (h : a.cls.isCt = false) : ∃ e, a.toExpr = some e := by
  cases a <;> simp_all [Arg.toExpr, Arg.cls]
  rename_i e; cases e <;> simp [CtExpr.cls, Cls.isCt] at h

theorem callSubst_eq (s r e : Arg K) :
    callSubst s r e = (substPick s.cls r.cls e.cls).bind fun k => substBody k s r e := by
  rw [callSubst, pick_subst]

theorem ct_isCt (e : CtExpr) : e.cls.isCt = true := by cases e <;> rfl

omit [Num K] in
theorem cls_isCt {a : Arg K} : a.cls.isCt = true ↔ CompileTime a := by
  cases a with
  | ct e => simp [Arg.cls, ct_isCt, CompileTime]
  | _ => simp [Arg.cls, Cls.isCt, CompileTime]

theorem substPick_ct (s r e : Cls) (h : e.isCt = true) :
    substPick s r e = if s = .rtVar then some 1 else some 0 := by
  revert s r e; decide +kernel

/-- The way the replacement is passed on. -/
def replBy : Nat → Arg K → Option (Expr K)
  | 3, r => r.number.map .const
  | 4, r => r.number.map .const
  | 5, r => r.toExpr
  | 7, r => r.toExpr
  | 9, r => r.toExpr
  | _, r => r.node

theorem node_isSome (a : Arg K) : a.node.isSome = a.cls.isNode := by
  cases a with
  | ct e => cases e <;> rfl
  | _ => rfl

theorem number_isSome (a : Arg K) : a.number.isSome = decide (a.cls ∈ [.num, .int, .rtConst, .ctConst]) := by
  cases a with
  | ct e => cases e <;> rfl
  | _ => rfl

theorem isNode_iff (c : Cls) : c.isNode = true ↔ c ∈ addressable := by revert c; decide +kernel

theorem node_toExpr {a : Arg K} {e : Expr K} (h : a.node = some e) : a.toExpr = some e := by
  rw [Arg.node] at h; split at h
  · exact h
  · cases h

theorem number_toExpr {a : Arg K} {c : K} (h : a.number = some c) : a.toExpr = some (.const c) := by
  cases a with
  | ct e => cases e <;> cases h; rfl
  | num | int | rtConst => cases h; rfl
  | _ => cases h

theorem replBy_toExpr {k : Nat} {a : Arg K} {e : Expr K} (h : replBy k a = some e) : a.toExpr = some e := by
  unfold replBy at h
  split at h
  · obtain ⟨c, hc, rfl⟩ := Option.map_eq_some_iff.1 h; exact number_toExpr hc
  · obtain ⟨c, hc, rfl⟩ := Option.map_eq_some_iff.1 h; exact number_toExpr hc
  · exact h
  · exact h
  · exact h
  · exact node_toExpr h

/-- The bodies other than the generic one. -/
theorem substBody_rt {k : Nat} (hk : 0 < k) (hk' : k < 10) (s r e : Arg K) : substBody k s r e =
    substRt s.toExpr (replBy k r) (if k = 1 then e.node else e.toExpr) := by
  match k, hk, hk' with
  | 1, _, _ => rfl
  | 2, _, _ => rfl
  | 3, _, _ => rfl
  | 4, _, _ => rfl
  | 5, _, _ => rfl
  | 6, _, _ => rfl
  | 7, _, _ => rfl
  | 8, _, _ => rfl
  | 9, _, _ => rfl

theorem substPick_rt (s r e : Cls) (h : e.isCt = false) (k : Nat) (hk : substPick s r e = some k) :
    0 < k ∧ k < 10 ∧ s.isCt = false ∧ (k ≠ 1 → e = .expr) ∧ (k = 5 ∨ k = 7 ∨ k = 9 → r.isCt = false) := by
  have : ∀ s r e, e.isCt = false → ∀ k, substPick s r e = some k →
      0 < k ∧ k < 10 ∧ s.isCt = false ∧ (k ≠ 1 → e = .expr) ∧ (k = 5 ∨ k = 7 ∨ k = 9 → r.isCt = false) := by
    intro s r e h k hk
    have key : ∀ s r e, e.isCt = false → ∀ k ∈ substPick s r e,
      0 < k ∧ k < 10 ∧ s.isCt = false ∧ (k ≠ 1 → e = .expr) ∧ (k = 5 ∨ k = 7 ∨ k = 9 → r.isCt = false) := by
      decide +kernel
    exact key s r e h k hk
  exact this s r e h k hk

theorem substRt_isSome {s r e : Option (Expr K)} :
    (substRt s r e).isSome = (s.isSome && r.isSome && e.isSome) := by
  cases s <;> cases r <;> cases e <;> rfl

theorem toExpr_isSome' {a : Arg K} (h : a.cls.isCt = false) : a.toExpr.isSome = true := by
  obtain ⟨e, he⟩ := Arg.toExpr_isSome h
  rw [he]; rfl

/-- Whether the body compiles, by the class of the replacement. -/
def replOk : Nat → Cls → Bool
  | 3, r => r ∈ [.num, .int, .rtConst, .ctConst]
  | 4, r => r ∈ [.num, .int, .rtConst, .ctConst]
  | 5, _ => true
  | 7, _ => true
  | 9, _ => true
  | _, r => r.isNode

theorem replBy_isSome {k : Nat} {r : Arg K} (h : k = 5 ∨ k = 7 ∨ k = 9 → r.cls.isCt = false) :
    (replBy k r).isSome = replOk k r.cls := by
  unfold replBy replOk
  split <;> simp only [Option.isSome_map, number_isSome, node_isSome]
  · exact toExpr_isSome' (h (.inl rfl))
  · exact toExpr_isSome' (h (.inr (.inl rfl)))
  · exact toExpr_isSome' (h (.inr (.inr rfl)))

theorem subst_accepts (s r e : Cls) (h : e.isCt = false) :
    (∃ k ∈ substPick s r e, replOk k r = true ∧ (k = 1 → e.isNode = true)) ↔
    (e = .expr ∧ r ∈ replacements s) ∨ (e ∈ addressable ∧ s = .rtVar ∧ r ∈ addressable) := by
  revert s r e; decide +kernel

end VM.Ct
