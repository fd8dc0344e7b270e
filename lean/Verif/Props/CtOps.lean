import Verif.Ct.OpsLemmas
import Mathlib.Tactic.NormNum
/-
C43: the operators on constants, variables and compile-time expressions.

`Computes op a b r` (Spec/CtOps.lean): wherever `a op b` is defined, `r` has its value.
-/
namespace VM.Props
open VM.Ct VM.Spec

section
variable {F : Type*} [Field F]

/-- **C43 (addition)**: whatever overload is taken, the result has the value of the sum. -/
theorem C43_add (folds : Bool) (a b : MixExpr F) (r : Built F) (h : opAdd folds a b = some r) :
    Computes .plus a b r := by
  unfold opAdd at h
  split at h
  case h_15 =>
    split at h
    · rename_i i j hij
      subst hij; cases h
      intro v φ x y z ha hb hz
      cases ha; cases hb; cases hz
      exact .ct (.bin (.const 2) (.var _) (by simp [PlainOp]; ring))
    · exact generic_computes h
  case h_16 => exact generic_computes h
  all_goals
    intro v φ x y z ha hb hz
    first
      | cases h
      | obtain rfl := withConst_some h
      | obtain rfl := withMixed_some h
    simp only [bval_ct, mval_bin, mval_const, mval_rc, PlainOp, exists_eq_left] at ha hb hz ⊢
  case h_11 => subst ha hb hz; push_cast; rfl
  all_goals
    first
      | (obtain ⟨w, hw, h⟩ := ha; exact ⟨w, hw, by subst_vars; push_cast; ring⟩)
      | (obtain ⟨w, hw, h⟩ := hb; exact ⟨w, hw, by subst_vars; push_cast; ring⟩)

/-- **C43 (subtraction)**: whatever overload is taken, the result has the value of the difference. -/
theorem C43_sub (folds : Bool) (a b : MixExpr F) (r : Built F) (h : opSub folds a b = some r) :
    Computes .minus a b r := by
  unfold opSub at h
  split at h
  case h_10 =>
    split at h
    · rename_i i _ j hij
      subst hij; cases h
      intro v φ x y z ha hb hz
      simp only [bval_ct, mval_bin, mval_var, PlainOp, exists_eq_left] at ha hb hz ⊢
      obtain ⟨w, hw, rfl⟩ := ha
      rw [hz, hb, add_sub_cancel_left]
      exact hw
    · exact generic_computes h
  case h_15 =>
    split at h
    · rename_i i j hij
      subst hij; cases h
      intro v φ x y z ha hb hz
      cases ha; cases hb; cases hz
      rw [sub_self]
      exact .ct (by simpa using MVal.const (v := v) (φ := φ) 0)
    · exact generic_computes h
  case h_16 => exact generic_computes h
  all_goals
    intro v φ x y z ha hb hz
    first
      | cases h
      | obtain rfl := withConst_some h
      | obtain rfl := withMixed_some h
    simp only [bval_ct, mval_bin, mval_const, mval_rc, PlainOp, exists_eq_left] at ha hb hz ⊢
  case h_9 => subst ha hb hz; push_cast; rfl
  all_goals
    first
      | (obtain ⟨w, hw, h⟩ := ha; exact ⟨w, hw, by subst_vars; push_cast; ring⟩)
      | (obtain ⟨w, hw, h⟩ := hb; exact ⟨w, hw, by subst_vars; push_cast; ring⟩)

/-- **C43 (multiplication)**. -/
theorem C43_mul (a b : MixExpr F) (r : Built F) (h : opMul a b = some r) : Computes .mult a b r := by
  unfold opMul at h
  split at h
  · obtain rfl := withConst_some h
    intro v φ x y z ha hb hz
    simp only [bval_ct, mval_const, PlainOp] at ha hb hz ⊢
    subst ha hb hz; push_cast; rfl
  · exact generic_computes h

/-- **C43 (division, partial)**: the result has the value of the quotient if one of the operands contains no
run-time constant.  (Missing: operands that both contain run-time constants, see
`C43_div_run_time_constants`.) -/
theorem C43_div_partial (a b : MixExpr F) (hab : NoRtConst a ∨ NoRtConst b) (r : Built F)
    (h : opDiv a b = some r) : Computes .div a b r := by
  have key : ∀ e : MixExpr F, Computes .div e e (.ct (.const 1)) := by
    intro e v φ x y z ha hb hz
    obtain rfl := mval_unique ha hb
    obtain ⟨h0, rfl⟩ := hz
    rw [div_self h0]
    exact .ct (by simpa using MVal.const (v := v) (φ := φ) 1)
  unfold opDiv at h
  split at h
  · split at h
    · rename_i i j hij; subst hij; cases h; exact key _
    · exact generic_computes h
  · split at h
    · rename_i hs
      cases h
      obtain h' | h' := hab
      · rw [sameType_noRt hs h']; exact key _
      · rw [sameType_noRt (sameType_symm hs) h']; exact key _
    · exact generic_computes h
  · exact generic_computes h

/-- **C43 (division, equal operands)**: `E / E` has the value of the quotient for any `E`, run-time constants
or not. -/
theorem C43_div_self (a : MixExpr F) (r : Built F) (h : opDiv a a = some r) : Computes .div a a r := by
  have key : Computes .div a a (.ct (.const 1)) := by
    intro v φ x y z ha hb hz
    obtain rfl := mval_unique ha hb
    obtain ⟨h0, rfl⟩ := hz
    rw [div_self h0]
    exact .ct (by simpa using MVal.const (v := v) (φ := φ) 1)
  unfold opDiv at h
  split at h
  · split at h
    · cases h; exact key
    · exact generic_computes h
  · split at h
    · cases h; exact key
    · exact generic_computes h
  · exact generic_computes h

/-- What is built without run-time constants contains none, so that `C43_div_partial` applies to whole
programs that only use compile-time constants, variables and function symbols. -/
theorem C43_no_constants (folds : Bool) (a b e : MixExpr F) (ha : NoRtConst a) (hb : NoRtConst b)
    (h : opAdd folds a b = some (.ct e) ∨ opSub folds a b = some (.ct e) ∨ opMul a b = some (.ct e) ∨
      opDiv a b = some (.ct e)) : NoRtConst e := by
  have gen : ∀ op, opGeneric a op b = some (.ct e) → NoRtConst e := by
    intro op h
    unfold opGeneric at h
    split at h <;> split at h <;> cases h
    exact ⟨ha, hb⟩
  obtain h | h | h | h := h
  · unfold opAdd at h
    split at h
    case h_15 => split at h; · cases h; exact ⟨trivial, trivial⟩
                 · exact gen _ h
    case h_16 => exact gen _ h
    all_goals
      first
        | exact ha.elim
        | exact hb.elim
        | exact hb.1.elim
        | exact ha.1.elim
        | skip
    all_goals
      cases withConst_some h
      first
        | exact trivial
        | exact ⟨trivial, ha.2⟩
        | exact ⟨trivial, hb.2⟩
  · unfold opSub at h
    split at h
    case h_10 => split at h; · cases h; exact ha.2
                 · exact gen _ h
    case h_15 => split at h; · cases h; exact trivial
                 · exact gen _ h
    case h_16 => exact gen _ h
    all_goals
      first
        | exact ha.elim
        | exact hb.elim
        | exact hb.1.elim
        | exact ha.1.elim
        | skip
    all_goals
      cases withConst_some h
      first
        | exact trivial
        | exact ⟨trivial, ha.2⟩
        | exact ⟨trivial, hb.2⟩
  · unfold opMul at h
    split at h
    · cases withConst_some h; exact trivial
    · exact gen _ h
  · unfold opDiv at h
    split at h
    · split at h
      · cases h; exact trivial
      · exact gen _ h
    · split at h
      · cases h; exact trivial
      · exact gen _ h
    · exact gen _ h

end

private theorem plainLeaves_iff (e : MixExpr F) : e.plainLeaves = true ↔ PlainTree e := by
  induction e with
  | bin l op r hl hr =>
    rw [MixExpr.plainLeaves, Bool.and_eq_true, hl, hr]
    exact ⟨fun h => .bin h.1 h.2, fun h => by cases h with | bin h1 h2 => exact ⟨h1, h2⟩⟩
  | const n => exact ⟨fun _ => .const n, fun _ => rfl⟩
  | var i => exact ⟨fun _ => .var i, fun _ => rfl⟩
  | rc c => exact ⟨fun h => by simp [MixExpr.plainLeaves] at h, fun h => nomatch h⟩
  | fsym t => exact ⟨fun h => by simp [MixExpr.plainLeaves] at h, fun h => nomatch h⟩

private theorem cloneable_iff (e : MixExpr F) : e.cloneable = true ↔ IsRtConst e ∨ PlainTree e := by
  cases e with
  | rc c => simp [MixExpr.cloneable, IsRtConst]
  | _ => simp only [MixExpr.cloneable, plainLeaves_iff, IsRtConst, reduceCtorEq, exists_false, false_or]

private theorem defaultable_iff (e : MixExpr F) : e.defaultable = true ↔ NoRtConst e := by
  induction e with
  | bin l op r hl hr => simp [MixExpr.defaultable, NoRtConst, hl, hr]
  | _ => simp [MixExpr.defaultable, NoRtConst]

private theorem isCompiletime_iff (e : MixExpr F) : e.isCompiletime = true ↔ ¬ IsRtConst e := by
  cases e <;> simp [MixExpr.isCompiletime, IsRtConst]

private theorem opGeneric_iff (a b : MixExpr F) (op : COp) : (opGeneric a op b).isSome ↔
    (¬ IsRtConst a ∧ ¬ IsRtConst b ∧ NoRtConst a ∧ NoRtConst b) ∨
    ((IsRtConst a ∨ IsRtConst b) ∧ (IsRtConst a ∨ PlainTree a) ∧ (IsRtConst b ∨ PlainTree b)) := by
  rw [← defaultable_iff, ← defaultable_iff, ← cloneable_iff, ← cloneable_iff, ← isCompiletime_iff, ← isCompiletime_iff]
  have h1 := isCompiletime_iff a
  have h2 := isCompiletime_iff b
  unfold opGeneric
  cases ha : a.isCompiletime <;> cases hb : b.isCompiletime <;> cases a.defaultable <;> cases b.defaultable <;>
    cases a.cloneable <;> cases b.cloneable <;> simp_all

/-- **C43 (which products compile)**: two compile-time constants if the product is a `long`; other compile-time operands if no
run-time constant is inside; and with a run-time constant as an operand exactly the other ones that are run-time constants or
made of compile-time constants and variables, so neither function symbols nor run-time constants inside. -/
theorem C43_mul_accepts (a b : MixExpr F) : (opMul a b).isSome ↔
    (∀ n m, a = .const n → b = .const m → InLong (n * m)) ∧
    ((¬ IsRtConst a ∧ ¬ IsRtConst b ∧ NoRtConst a ∧ NoRtConst b) ∨
      ((IsRtConst a ∨ IsRtConst b) ∧ (IsRtConst a ∨ PlainTree a) ∧ (IsRtConst b ∨ PlainTree b))) := by
  unfold opMul
  split
  · rename_i n m
    by_cases h : InLong (n * m) <;> simp [withConst, IsRtConst, NoRtConst, fit, h]
  · rename_i h
    rw [opGeneric_iff]
    exact ⟨fun h' => ⟨fun n m ha hb => absurd hb (h n m ha), h'⟩, fun h' => h'.2⟩

/-- **C43 (which quotients with a run-time constant compile)**. -/
theorem C43_div_accepts (c : F) (e : MixExpr F) :
    ((opDiv (.rc c) e).isSome ↔ IsRtConst e ∨ PlainTree e) ∧ ((opDiv e (.rc c)).isSome ↔ IsRtConst e ∨ PlainTree e) := by
  have h1 : opDiv (.rc c) e = opGeneric (.rc c) .div e := rfl
  have h2 : opDiv e (.rc c) = opGeneric e .div (.rc c) := by cases e <;> rfl
  have h3 : IsRtConst (.rc c) := ⟨c, rfl⟩
  rw [h1, h2, opGeneric_iff, opGeneric_iff]
  simp [h3]

theorem leads_iff (e : MixExpr F) (n : Int) : Leads e n ↔
    e = .const n ∨ (∃ x, e = .bin (.const n) .plus x) ∨ ∃ x, e = .bin (.const n) .minus x := by
  constructor
  · rintro (_ | ⟨_, x⟩ | ⟨_, x⟩)
    exacts [.inl rfl, .inr (.inl ⟨x, rfl⟩), .inr (.inr ⟨x, rfl⟩)]
  · rintro (rfl | ⟨x, rfl⟩ | ⟨x, rfl⟩)
    exacts [.const n, .plus n x, .minus n x]

theorem opGeneric_noRtConst {a b : MixExpr F} (op : COp) (ha : NoRtConst a) (hb : NoRtConst b) :
    (opGeneric a op b).isSome := by
  rw [opGeneric_iff]
  refine .inl ⟨?_, ?_, ha, hb⟩
  · rintro ⟨c, rfl⟩; exact ha
  · rintro ⟨c, rfl⟩; exact hb

theorem withConst_isSome (k : Int) (f : MixExpr F → MixExpr F) : (withConst (fit k) f).isSome ↔ InLong k := by
  by_cases h : InLong k <;> simp [withConst, fit, h]

/-- **C43 (which sums compile)**: a sum of operands without run-time constants compiles unless one operand is a constant,
the other begins with a constant, and the sum of both constants is not a `long`. -/
theorem C43_add_accepts [Field F] (folds : Bool) (a b : MixExpr F) (ha : NoRtConst a) (hb : NoRtConst b) :
    (opAdd folds a b).isSome ↔
      ∀ n m, Leads a n → Leads b m → (a = .const n ∨ b = .const m) → InLong (n + m) := by
  unfold opAdd
  split <;> first
    | (simp [NoRtConst] at ha hb; done)
    | (rw [withConst_isSome]; simp [leads_iff])
    | skip
  · simp only [leads_iff]
    split
    · simp
    · simp [opGeneric_noRtConst .plus ha hb]
  · simp only [opGeneric_noRtConst .plus ha hb, true_iff]
    intro n m h1 h2 h
    rcases h with rfl | rfl
    · cases h2 <;> simp_all
    · cases h1 <;> simp_all

/-- **C43 (which differences compile)**: the same with the difference of the constants. -/
theorem C43_sub_accepts [Field F] (folds : Bool) (a b : MixExpr F) (ha : NoRtConst a) (hb : NoRtConst b) :
    (opSub folds a b).isSome ↔
      ∀ n m, Leads a n → Leads b m → (a = .const n ∨ b = .const m) → InLong (n - m) := by
  unfold opSub
  split <;> first
    | (simp [NoRtConst] at ha hb; done)
    | (rw [withConst_isSome]; simp [leads_iff])
    | skip
  · simp only [leads_iff]
    split
    · simp
    · simp [opGeneric_noRtConst .minus ha hb]
  · simp only [leads_iff]
    split
    · simp
    · simp [opGeneric_noRtConst .minus ha hb]
  · simp only [opGeneric_noRtConst .minus ha hb, true_iff]
    intro n m h1 h2 h
    rcases h with rfl | rfl
    · cases h2 <;> simp_all
    · cases h1 <;> simp_all

/-- **C43 (quotients)**: a quotient of operands without run-time constants always compiles, even by a zero. -/
theorem C43_div_compiles (a b : MixExpr F) (ha : NoRtConst a) (hb : NoRtConst b) : (opDiv a b).isSome := by
  unfold opDiv
  split
  · split
    · rfl
    · exact opGeneric_noRtConst .div ha hb
  · split
    · rfl
    · exact opGeneric_noRtConst .div ha hb
  · exact opGeneric_noRtConst .div ha hb

/-- `(x + 1) / 0` compiles. -/
example : (opDiv (.bin (.var 0) .plus (.const 1) : MixExpr Rat) (.const 0)).isSome :=
  C43_div_compiles _ _ ⟨trivial, trivial⟩ trivial

/-- `(2^62 + x) + 2^62` does not compile, although neither number is too large. -/
example (folds : Bool) : opAdd folds (.bin (.const (2 ^ 62)) .plus (.var 0) : MixExpr Rat) (.const (2 ^ 62)) = none := by
  have h := C43_add_accepts folds (.bin (.const (2 ^ 62)) .plus (.var 0) : MixExpr Rat) (.const (2 ^ 62))
    ⟨trivial, trivial⟩ trivial
  rw [← Option.not_isSome_iff_eq_none, h]
  intro h
  have := h _ _ (.plus _ _) (.const _) (.inr rfl)
  simp [InLong] at this

/-- `2.0 * (x + v)` does not compile for a function symbol `v`, `2.0 * (x + 3)` does. -/
example : ¬ PlainTree (.bin (.var 0) .plus (.fsym 1) : MixExpr Rat) ∧ PlainTree (.bin (.var 0) .plus (.const 3) : MixExpr Rat) :=
  ⟨fun h => (match h with | .bin _ h => nomatch h), .bin (.var 0) (.const 3)⟩

/-- **C43 (division, what is wrong)**: `((1 + x) + 2.0) / ((1 + x) + 3.0)` compiles and is the constant 1,
although at `x = 0` the quotient is 3/4: the overload for `E / E` compares types, and the values of run-time
constants are not part of the type. -/
theorem C43_div_run_time_constants (folds : Bool) :
    ∃ s a b : MixExpr Rat,
      opAdd folds (.const 1) (.var 0) = some (.ct s) ∧
      opAdd folds s (.rc 2) = some (.ct a) ∧ opAdd folds s (.rc 3) = some (.ct b) ∧
      opDiv a b = some (.ct (.const 1)) ∧ ¬ Computes .div a b (.ct (.const 1)) := by
  refine ⟨.bin (.const 1) .plus (.var 0), .bin (.rc 3) .plus (.var 0), .bin (.rc 4) .plus (.var 0),
    rfl, ?_, ?_, rfl, ?_⟩
  · simp only [opAdd]; norm_num
  · simp only [opAdd]; norm_num
  · intro h
    have := h (fun _ => 0) (fun _ => 0) 3 4 (3 / 4)
      (mval_bin.2 ⟨3, .rc 3, 0, .var 0, by norm_num [PlainOp]⟩)
      (mval_bin.2 ⟨4, .rc 4, 0, .var 0, by norm_num [PlainOp]⟩) (by norm_num [PlainOp])
    rw [bval_ct, mval_const] at this
    norm_num at this

/-- The value is only claimed where the plain operation has one: `x / x` is 1 also at `x = 0`. -/
theorem C43_div_at_zero : opDiv (F := Rat) (.var 0) (.var 0) = some (.ct (.const 1)) ∧
    BVal (F := Rat) (fun _ => 0) (fun _ => 0) (.ct (.const 1)) 1 ∧
    ¬ ∃ z : Rat, PlainOp .div 0 0 z :=
  ⟨rfl, .ct (by simpa using MVal.const 1), by simp [PlainOp]⟩

/-! Concrete cases -/

-- 2.0 - (3 - x) = -1.0 + x
example : opSub (F := Rat) false (.rc 2) (.bin (.const 3) .minus (.var 0)) =
    some (.ct (.bin (.rc (-1)) .plus (.var 0))) := by simp only [opSub]; norm_num
example : Computes (F := Rat) .minus (.rc 2) (.bin (.const 3) .minus (.var 0))
    (.ct (.bin (.rc (-1)) .plus (.var 0))) :=
  C43_sub false _ _ _ (by simp only [opSub]; norm_num)
-- (x + (y * z)) - x = y * z, also with run-time constants
example : opSub (F := Rat) false (.bin (.var 0) .plus (.bin (.var 1) .mult (.var 2))) (.var 0) =
    some (.ct (.bin (.var 1) .mult (.var 2))) := rfl
-- x * y / (x * y)
example : opDiv (F := Rat) (.bin (.var 0) .mult (.var 1)) (.bin (.var 0) .mult (.var 1)) =
    some (.ct (.const 1)) := rfl
-- a folded constant that leaves the range of long does not compile
example : opAdd (F := Rat) false (.const (2 ^ 63 - 1)) (.const 1) = none := by decide +kernel
-- a compile-time expression holding a run-time constant combines with constants only
example : opAdd (F := Rat) false (.bin (.rc 3) .plus (.var 0)) (.var 1) = none := rfl
example : opAdd (F := Rat) false (.var 0) (.rc 3) = some (.rt (.var 0) .plus (.rc 3)) := rfl

end VM.Props
