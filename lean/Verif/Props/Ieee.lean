import Verif.Rt.IeeeLemmas
import Verif.Rt.IeeeValueLemmas
/-
Property C77: simplification, substitution and comparison with IEEE numbers.
-/
namespace VM.Props
open Spec
variable {R : Rounding}

/-- C77.  With IEEE numbers (two zeros, infinities, NaN, overflow, underflow; any format): if the evaluation of an
expression divides nothing by zero and does not end with NaN, the simplified expression evaluates, in any order, to
the same number up to the sign of zero, and divides nothing by zero either.  Infinite intermediate results and
infinite values of variables are admitted. -/
theorem C77_simplify_partial (e e' : Expr (Ieee R)) (h : Simplifies e (.ok e')) (o o' : Order (Ieee R))
    (v : List (Ieee R)) (a : Ieee R) (he : eval o v e = .ok a) (hz : NoZeroDiv o v e) (hn : a ≠ .nan) :
    ∃ b, eval o' v e' = .ok b ∧ SameNum a b ∧ NoZeroDiv o' v e' := by
  obtain ⟨b, hb, hs⟩ := simplified_run (Simplifies_iff.1 h) (.of_eval he hz) hn
  exact ⟨b, hb.eval o', hs, hb.noZeroDiv o'⟩

/-- C77.  So a result other than zero and NaN does not change at all. -/
theorem C77_simplify_exact_partial (e e' : Expr (Ieee R)) (h : Simplifies e (.ok e')) (o o' : Order (Ieee R))
    (v : List (Ieee R)) (a : Ieee R) (he : eval o v e = .ok a) (hz : NoZeroDiv o v e) (hn : a ≠ .nan)
    (h0 : ∀ s, a ≠ .zero s) : eval o' v e' = .ok a := by
  obtain ⟨b, hb, hs | ⟨⟨s, hs⟩, _⟩, _⟩ := C77_simplify_partial e e' h o o' v a he hz hn
  · rw [hb, hs]
  · exact absurd hs (h0 s)

/-- C77, substitution: as C15, up to the sign of zero. -/
theorem C77_substitute_partial (o o' : Order (Ieee R)) (v w : List (Ieee R)) (i : Nat) (r e : Expr (Ieee R)) (a : Ieee R)
    (hw : ∀ j, j ≠ i → w[j]? = v[j]?)
    (hr : Occurs i e → ∃ b, eval o v r = .ok b ∧ NoZeroDiv o v r ∧ w[i]? = some b)
    (he : eval o w e = .ok a) (hz : NoZeroDiv o w e) (hn : a ≠ .nan) :
    ∃ t b, substitute (.var i) r e = .ok t ∧ eval o' v t = .ok b ∧ SameNum a b := by
  obtain ⟨t, ht, hrun⟩ := substE_run (v := v) (.of_eval he hz) hw fun hoc => by
    obtain ⟨b, hb, hzb, hwb⟩ := hr hoc
    exact ⟨b, .of_eval hb hzb, hwb⟩
  obtain ⟨t', ht'⟩ := simplified_ok_arith hrun.arith
  obtain ⟨b, hb, hs⟩ := simplified_run ht' hrun hn
  exact ⟨t', b, by simp [substitute, ht, ht'], hb.eval o', hs⟩

/-- C77, structural equality: expressions that are structurally equal evaluate to the same number up to the sign of
zero. -/
theorem C77_equal_partial (o o' : Order (Ieee R)) (v : List (Ieee R)) (e f : Expr (Ieee R)) (a : Ieee R)
    (h : deepEq e f = .ok true) (he : eval o v e = .ok a) (hz : NoZeroDiv o v e) :
    ∃ b, eval o' v f = .ok b ∧ SameNum a b := by
  obtain ⟨b, hb, hs⟩ := deepEq_run (.of_eval he hz) h
  exact ⟨b, hb.eval o', hs⟩

/-- C77, C68: wherever evaluation in the arithmetic of C68, in which infinities, NaN and division by zero are all
one undefined value and zero has no sign, ends with a number, evaluation with IEEE numbers ends with the same number
and divides nothing by zero.  So the bounds of C68 hold for IEEE numbers. -/
theorem C77_finite (e : Expr (Ieee R)) (d : Expr (Fl R)) (hed : SameExpr e d) (o : Order (Fl R)) (o' : Order (Ieee R))
    (v : List (Ieee R)) (w : List (Fl R)) (hv : List.Forall₂ SameFinite v w) (y : Fl R) (z : ℝ)
    (hd : eval o w d = .ok y) (hy : y.val = some z) :
    ∃ x, eval o' v e = .ok x ∧ SameFinite x y ∧ NoZeroDiv o' v e := by
  obtain ⟨x, hx, hs⟩ := run_finite hed hv hd hy
  exact ⟨x, hx.eval o', hs, hx.noZeroDiv o'⟩

/-- C77, the arithmetic: sums, differences, products and quotients of numbers other than NaN are the rounded ones of
extended real numbers, too large results being infinite, or NaN where there is no such result; a number other than zero
divided by zero is infinite.  A product or quotient that is zero or infinite has a minus sign if exactly one operand
has; a sum that is zero because the operands cancel has one if both operands do.  Two numbers compare equal if they are
the same extended real number. -/
theorem C77_arithmetic (a b : Ieee R) (x y : EReal) (ha : extended a = some x) (hb : extended b = some y) :
    extended (Num.add a b) = (if x = ⊤ ∧ y = ⊥ ∨ x = ⊥ ∧ y = ⊤ then none else some (roundedTo R (x + y))) ∧
    extended (Num.sub a b) = (if x = ⊤ ∧ y = ⊤ ∨ x = ⊥ ∧ y = ⊥ then none else some (roundedTo R (x - y))) ∧
    extended (Num.mul a b) = (if x = 0 ∧ (y = ⊤ ∨ y = ⊥) ∨ (x = ⊤ ∨ x = ⊥) ∧ y = 0 then none
      else some (roundedTo R (x * y))) ∧
    (y ≠ 0 → extended (Num.div a b) = (if (x = ⊤ ∨ x = ⊥) ∧ (y = ⊤ ∨ y = ⊥) then none
      else some (roundedTo R (x / y)))) ∧
    (y = 0 → x = 0 → Num.div a b = .nan) ∧ (y = 0 → x ≠ 0 → ∃ s, Num.div a b = .inf s) ∧
    (Extreme (Num.mul a b) → (Minus (Num.mul a b) ↔ (Minus a ↔ ¬ Minus b))) ∧
    (Extreme (Num.div a b) → (Minus (Num.div a b) ↔ (Minus a ↔ ¬ Minus b))) ∧
    (x + y = 0 → (∃ s, Num.add a b = .zero s) → (Minus (Num.add a b) ↔ Minus a ∧ Minus b)) ∧
    (Num.eqb a b = true ↔ x = y) := by
  refine ⟨extended_add a b x y ha hb, ?_, extended_mul a b x y ha hb, extended_div a b x y ha hb, ?_, ?_,
    minus_mul a b x y ha hb, minus_div a b x y ha hb, minus_add a b x y ha hb, extended_eqb a b x y ha hb⟩
  · have := extended_add a b.neg x (-y) ha (by rw [extended_neg, hb]; rfl)
    simp only [EReal.neg_eq_bot_iff, EReal.neg_eq_top_iff] at this
    exact this
  · rintro rfl rfl
    cases a with
    | nan => cases ha
    | inf s => cases s <;> simp [extended] at ha
    | num _ _ h0 => simp [extended, h0] at ha
    | zero s =>
      cases b with
      | nan => cases hb
      | inf s => cases s <;> simp [extended] at hb
      | num _ _ h0 => simp [extended, h0] at hb
      | zero t => rfl
  · rintro rfl h
    cases b with
    | nan => cases hb
    | inf s => cases s <;> simp [extended] at hb
    | num _ _ h0 => simp [extended, h0] at hb
    | zero t =>
      cases a with
      | nan => cases ha
      | inf s => exact ⟨_, rfl⟩
      | num _ _ h0 => exact ⟨_, rfl⟩
      | zero s => simp [extended] at ha; exact absurd ha.symm h

/-- C77, the functions: at an infinite argument the value is the limit of the mathematical function, or NaN if it has
none; likewise at zero if the function is not defined there; at other arguments it is what the library computes,
rounded, or NaN where the function is not defined (for the tangent at a pole it is what the library computes). -/
theorem C77_functions (f : Fn) :
    (∀ L, LimitOf f Filter.atTop L → extended (Num.fn f (.inf false : Ieee R)) = some L) ∧
    (∀ L, LimitOf f Filter.atBot L → extended (Num.fn f (.inf true : Ieee R)) = some L) ∧
    ((¬ ∃ L, LimitOf f Filter.atTop L) → Num.fn f (.inf false : Ieee R) = .nan) ∧
    ((¬ ∃ L, LimitOf f Filter.atBot L) → Num.fn f (.inf true : Ieee R) = .nan) ∧
    (∀ s L, XReal.fn f (some 0) = none → LimitOf f (nhdsWithin 0 (Set.Ioi 0)) L →
      extended (Num.fn f (.zero s : Ieee R)) = some L) ∧
    (∀ (a : Ieee R) (x y : ℝ), extended a = some (x : EReal) → XReal.fn f (some x) = some y →
      extended (Num.fn f a) = some (if f = .id then (x : EReal) else roundedTo R (R.lib f x : ℝ))) ∧
    (∀ (a : Ieee R) (x : ℝ), extended a = some (x : EReal) → x ≠ 0 → f ≠ .tan → XReal.fn f (some x) = none →
      Num.fn f a = .nan) :=
  ⟨fn_top f, fn_bot f, fn_top_none f, fn_bot_none f, fun s L => fn_pole f s L, fun a x y => fn_number f x y a,
    fun a x => fn_undefined f x a⟩

/-- The number one. -/
noncomputable def ieeeOne : Ieee R := .num 1 R.one one_ne_zero

/-- `1 / (1 + exp(1 / x))`. -/
noncomputable def exStep (x : Expr (Ieee R)) : Expr (Ieee R) :=
  .bin .div (.const ieeeOne) (.bin .plus (.const ieeeOne) (.un (.fn .exp) (.bin .div (.const ieeeOne) x)))

theorem one_ne : Num.eqb (ieeeOne : Ieee R) (Num.lit 0) = false := by rw [Ieee.lit_zero]; rfl
theorem zero_eq (s : Bool) : Num.eqb (Ieee.zero s : Ieee R) (Num.lit 0) = true := by rw [Ieee.lit_zero]; rfl

theorem step_simplifies : Simplifies (exStep (.bin .plus (.var 0) (.const (.zero false))) : Expr (Ieee R))
    (.ok (exStep (.var 0))) := by
  refine ⟨2, ?_⟩
  simp [simplifyLoop, simplify, simpBin, canSimplify, canBin, constCheck, exStep, isConst, unwrap, one_ne, zero_eq]

/-- C77 is false of the code without the condition: the sign of a zero can decide the result.  Simplification
turns `1 / (1 + exp(1 / (x0 + 0)))` into `1 / (1 + exp(1 / x0))`; at `x0 = -0` the former is 0, the latter 1. -/
theorem C77_sign_of_zero : ∃ (e e' : Expr (Ieee R)) (v : List (Ieee R)), Simplifies e (.ok e') ∧
    eval leftFirst v e = .ok (.zero false) ∧ eval leftFirst v e' = .ok ieeeOne := by
  refine ⟨_, _, [.zero true], step_simplifies, ?_, ?_⟩
  · simp [exStep, eval, Res.both, leftFirst, applyB, applyU, applyFn, Num.add, Num.div, Num.fn, Ieee.add, Ieee.div,
      Ieee.fn, Ieee.sign, ieeeOne, zero_le_one.not_gt]
  · simp only [exStep, eval, Res.both, leftFirst, applyB, applyU, applyFn, Num.add, Num.div, Num.fn, Ieee.add, Ieee.div,
      Ieee.fn, Ieee.sign, ieeeOne, List.getElem?_cons_zero, Res.bind_ok, if_true, zero_le_one.not_gt, decide_false,
      Bool.false_xor]
    rw [_root_.div_one, Ieee.of_mem R.one one_ne_zero]

/-- C77 is false of the code without the condition: `1 / 0` and `1 / -0` are structurally equal. -/
theorem C77_equal_zeros : ∃ e f : Expr (Ieee R), deepEq e f = .ok true ∧
    eval leftFirst [] e = .ok (.inf false) ∧ eval leftFirst [] f = .ok (.inf true) :=
  ⟨.bin .div (.const ieeeOne) (.const (.zero false)), .bin .div (.const ieeeOne) (.const (.zero true)),
    by simp [deepEq, Num.eqb, Ieee.eqb, ieeeOne],
    by simp [eval, Res.both, leftFirst, applyB, Num.div, Ieee.div, Ieee.sign, ieeeOne, zero_le_one.not_gt],
    by simp [eval, Res.both, leftFirst, applyB, Num.div, Ieee.div, Ieee.sign, ieeeOne, zero_le_one.not_gt]⟩

/-- C77, limit as in C06: a result NaN may become a number; here at an infinite value of the variable. -/
theorem C77_nan_may_vanish : ∃ (e e' : Expr (Ieee R)) (v : List (Ieee R)), Simplifies e (.ok e') ∧
    eval leftFirst v e = .ok .nan ∧ eval leftFirst v e' = .ok (.zero false) := by
  refine ⟨.bin .mult (.const (.zero false)) (.var 0), .const (.zero false), [.inf false], ⟨2, ?_⟩, rfl, rfl⟩
  simp [simplifyLoop, simplify, simpBin, canSimplify, canBin, constCheck, isConst, unwrap, zero_eq]
  exact Ieee.lit_zero

/-- `(x0 + 0) / x1`. -/
noncomputable def exQuotient : Expr (Ieee R) := .bin .div (.bin .plus (.var 0) (.const (.zero false))) (.var 1)

/-- At `x0 = -0` and the infinite `x1` the value is 0, and nothing is divided by zero; the simplified expression has
the value `-0`. -/
example : eval leftFirst [.zero true, .inf false] (exQuotient : Expr (Ieee R)) = .ok (.zero false) ∧
    NoZeroDiv leftFirst [.zero true, .inf false] (exQuotient : Expr (Ieee R)) ∧
    Simplifies (exQuotient : Expr (Ieee R)) (.ok (.bin .div (.var 0) (.var 1))) ∧
    eval leftFirst [.zero true, .inf false] (.bin .div (.var 0) (.var 1) : Expr (Ieee R)) = .ok (.zero true) := by
  refine ⟨rfl, ?_, ⟨2, ?_⟩, rfl⟩
  · intro l r h s
    cases h with
    | refl => simp [eval]
    | binL h => cases h with
      | binL h => cases h
      | binR h => cases h
    | binR h => cases h
  · simp [simplifyLoop, simplify, simpBin, canSimplify, canBin, constCheck, exQuotient, isConst, unwrap, zero_eq]

/-- A value that is not zero: `x0 - 1 * x1` at `x1 = -∞`. -/
example : eval leftFirst [ieeeOne, .inf true]
      (.bin .minus (.var 0) (.bin .mult (.const ieeeOne) (.var 1)) : Expr (Ieee R)) = .ok (.inf false) ∧
    NoZeroDiv leftFirst [ieeeOne, .inf true] (.bin .minus (.var 0) (.bin .mult (.const ieeeOne) (.var 1)) : Expr (Ieee R)) := by
  constructor
  · simp [eval, Res.both, leftFirst, applyB, Num.sub, Num.mul, Ieee.mul, Ieee.add, Ieee.neg, Ieee.sign, ieeeOne,
      zero_le_one.not_gt]
  · intro l r h
    cases h with
    | binL h => cases h
    | binR h => cases h with
      | binL h => cases h
      | binR h => cases h

/-- The same expression for both kinds of numbers. -/
example : SameExpr (.bin .plus (.var 0) (.const (.zero true)) : Expr (Ieee R))
      (.bin .plus (.var 0) (.const (Fl.of R 0))) ∧
    List.Forall₂ SameFinite [ieeeOne] [Fl.of R 1] ∧
    eval leftFirst [Fl.of R 1] (.bin .plus (.var 0) (.const (Fl.of R 0))) =
      .ok (Num.add (Fl.of R 1) (Fl.of R 0)) ∧ (Num.add (Fl.of R 1) (Fl.of R 0)).val = some 1 := by
  refine ⟨.bin (.inl rfl) (.var 0) (.const finite_zeros), .cons finite_num .nil, rfl, ?_⟩
  change (Fl.lift R (Num.add (Fl.of R 1).val (Fl.of R 0).val)).val = some 1
  rw [Fl.of_self R.one, Fl.of_self R.zero]
  change (Fl.of R (1 + 0)).val = _
  rw [add_zero, Fl.of_self R.one]

/-- Infinity minus infinity is not a number, infinity minus one is infinite. -/
example : extended (.inf false : Ieee R) = some ⊤ ∧ extended (ieeeOne : Ieee R) = some 1 ∧
    extended (Num.sub (.inf false : Ieee R) (.inf false)) = none ∧
    extended (Num.sub (.inf false : Ieee R) ieeeOne) = some ⊤ := by
  have h1 : extended (.inf false : Ieee R) = some ⊤ := rfl
  have h2 : extended (ieeeOne : Ieee R) = some 1 := by simp [extended, ieeeOne]
  refine ⟨h1, h2, ?_, ?_⟩
  · rw [(C77_arithmetic _ _ _ _ h1 h1).2.1]; simp
  · rw [(C77_arithmetic _ _ _ _ h1 h2).2.1]
    have : (⊤ : EReal) - 1 = ⊤ := by simpa using EReal.top_sub_coe 1
    have h3 : ¬ (1 : EReal) = ⊤ := fun h => EReal.coe_ne_top 1 h
    simp [this, h3]

/-- The logarithm is minus infinity at both zeros. -/
example : extended (Num.fn .log (.zero true : Ieee R)) = some ⊥ := by
  refine (C77_functions .log).2.2.2.2.1 true ⊥ (by simp [XReal.fn]) ⟨Real.log, ?_, ?_⟩
  · filter_upwards [self_mem_nhdsWithin] with x hx
    simp [XReal.fn, not_le.2 (Set.mem_Ioi.1 hx)]
  · exact EReal.tendsto_coe_nhds_bot_iff.2 Real.tendsto_log_nhdsGT_zero

end VM.Props
