import Verif.Rt.RoundedPoly
import Verif.Rt.Chop
/-
C68: evaluation, simplification and differentiation with floating point numbers.
-/
namespace VM.Props
open Spec

/-- C68.  Evaluation with floating point numbers.  An expression of real numbers that has a value `a` at a point, and
no square root of zero in it, is evaluated with floating point constants and values near the real ones.  The result is
a floating point number whose distance from `a` is at most a constant times the accuracy of the arithmetic, provided
the arithmetic is fine enough and its range large enough.  The constants depend only on the expression, the point and
`D`: neither on the arithmetic nor on the order in which operands are evaluated. -/
theorem C68_evaluation (e : Expr XReal) (o : Order XReal) (v : List XReal) (a D : ℝ) (he : eval o v e = .ok (some a))
    (hq : ∀ s, Sub (.un (.fn .sqrt) s) e → eval o v s ≠ .ok (some 0)) :
    ∃ C δ T : ℝ, 0 < δ ∧ ∀ R, Fine δ T R → ∀ d w, NearExpr D R e d → NearVals D R v w →
      ∀ o', ∃ x y, eval o' w d = .ok x ∧ x.val = some y ∧ |y - a| ≤ C * R.eps := by
  obtain ⟨C, δ, T, _, hδ, H⟩ := accurate D (.of_eval he) he hq
  exact ⟨C, δ, T, hδ, H⟩

/-- C68.  Simplification changes no result of floating point evaluation: whatever the arithmetic, the simplified
expression evaluates to the same finite number (not only to one near it). -/
theorem C68_simplify (R : Rounding) (d d' : Expr (Fl R)) (h : Simplifies d (.ok d')) (o : Order (Fl R))
    (w : List (Fl R)) (x : Fl R) (y : ℝ) (hx : eval o w d = .ok x) (hy : x.val = some y) : eval o w d' = .ok x :=
  simplified_value (Simplifies_iff.1 h) o w hx (by
    intro hb
    have hb : x.val = none := hb
    rw [hy] at hb; cases hb)

/-- C68.  Differentiation with floating point numbers.  `diff` of an expression with floating point constants near
the real ones, evaluated with floating point numbers near a point where the expression is smooth, gives the partial
derivative of the exact function up to a constant times the accuracy of the arithmetic.  (`diff` simplifies with the
rounded arithmetic, and compares rounded constants with 0 and 1.) -/
theorem C68_derivative {n : Nat} (e : Expr XReal) (i : Fin n) (p : Fin n → ℝ) (D : ℝ) (hs : Smooth e)
    (hr : RegularAt leftFirst p e) :
    ∃ C δ T : ℝ, 0 < δ ∧ ∀ R, Fine δ T R → ∀ d w, NearExpr D R e d → NearVals D R (realPoint p) w →
      ∃ d', diff (.var i) d = .ok d' ∧
        ∀ o, ∃ x y, eval o w d' = .ok x ∧ x.val = some y ∧ |y - partialDeriv i (denotes e) p| ≤ C * R.eps := by
  have hreg := (regularAt_iff hs leftFirst).1 hr
  obtain ⟨e', h1, h2⟩ := C11_derivative e i hs
  obtain ⟨r, h3, h4⟩ := Res.bind_eq_ok.1 h1
  have hrr := hreg.diffE h3
  have hval : partialDeriv i (denotes e) p = rv p r := by
    have hd := hreg.hasDerivAt h1
    rw [(hrr.simplified h4).2] at hd
    have hc : ContinuousAt (fun t => Function.update p i t) (p i) := by fun_prop
    have heq : (fun t => denotes e (Function.update p i t)) =ᶠ[nhds (p i)] fun t => rv (Function.update p i t) e := by
      have := denotes_eventually hreg
      have hp : Function.update p i (p i) = p := Function.update_eq_self i p
      rw [← hp] at this
      exact hc.eventually this
    exact (hd.congr_of_eventuallyEq heq).deriv
  obtain ⟨E, δ, T, hδ, H⟩ := diffE_near i.1 D
  obtain ⟨C, δ', T', _, hδ', H'⟩ := accurate (max E D) (.of_eval (hrr.eval leftFirst)) (hrr.eval leftFirst) fun s => hrr.sqrt_ne leftFirst
  refine ⟨C, min δ δ', max T T', by positivity, fun R hF d w hd hw => ?_⟩
  obtain ⟨d1, g1, g2⟩ := H R (hF.mono (min_le_left _ _) (le_max_left _ _)) e d hd hs h3
  obtain ⟨d', g3⟩ := simplified_ok_arith g2.arith.2
  refine ⟨d', by rw [diff, g1]; exact g3, fun o => ?_⟩
  obtain ⟨x, y, k1, k2, k3⟩ := H' R (hF.mono (min_le_right _ _) (le_max_right _ _)) d1 w
    (g2.mono hF.pos (le_max_left _ _)) (hw.imp fun _ _ h => h.mono hF.pos (le_max_right _ _)) o
  exact ⟨x, y, C68_simplify R d1 d' (Simplifies_iff.2 g3) o w x y k1 k2, k2, hval ▸ k3⟩

/-- C68.  An explicit bound: a polynomial expression whose constants and values are floating point numbers, evaluated
without overflow, differs from its exact value by no more than the error bound that is computed along with it. -/
theorem C68_polynomial_running (R : Rounding) (hR : 0 ≤ R.eps) (e : Expr XReal) (d : Expr (Fl R)) (hp : Poly e)
    (hn : NearExpr 0 R e d) (v : List XReal) (w : List (Fl R)) (hv : NearVals 0 R v w) (o : Order XReal)
    (o' : Order (Fl R)) (a y : ℝ) (x : Fl R) (he : eval o v e = .ok (some a)) (hx : eval o' w d = .ok x)
    (hy : x.val = some y) : |y - a| ≤ errorBound R.eps R.eta v e :=
  (poly_error hR hn hp hv o o' he hx hy).1

/-- C68.  The same in closed form, if there is no underflow: the error is at most `(1 + ε)ᵏ - 1` times the value of
the expression with all numbers and operations made positive, where `k` counts the roundings that can add up. -/
theorem C68_polynomial (R : Rounding) (hR : 0 ≤ R.eps) (h0 : R.eta = 0) (e : Expr XReal) (d : Expr (Fl R)) (hp : Poly e)
    (hn : NearExpr 0 R e d) (v : List XReal) (w : List (Fl R)) (hv : NearVals 0 R v w) (o : Order XReal)
    (o' : Order (Fl R)) (a y : ℝ) (x : Fl R) (he : eval o v e = .ok (some a)) (hx : eval o' w d = .ok x)
    (hy : x.val = some y) : |y - a| ≤ ((1 + R.eps) ^ rounds e - 1) * magnitude v e := by
  have h1 := (poly_error hR hn hp hv o o' he hx hy).1
  rw [h0] at h1
  exact h1.trans (errorBound_le hR v hp)

/-- C68.  Sums and products of numbers that are not negative have a small error compared with the result. -/
theorem C68_positive (R : Rounding) (hR : 0 ≤ R.eps) (h0 : R.eta = 0) (e : Expr XReal) (d : Expr (Fl R))
    (v : List XReal) (hp : Positive v e) (hn : NearExpr 0 R e d) (w : List (Fl R)) (hv : NearVals 0 R v w)
    (o : Order XReal) (o' : Order (Fl R)) (a y : ℝ) (x : Fl R) (he : eval o v e = .ok (some a))
    (hx : eval o' w d = .ok x) (hy : x.val = some y) : |y - a| ≤ ((1 + R.eps) ^ rounds e - 1) * a := by
  have := C68_polynomial R hR h0 e d hp.poly hn v w hv o o' a y x he hx hy
  rwa [hp.magnitude o he] at this

/-! Arithmetic with these properties, of any accuracy: -/

theorem chop_fine (δ T : ℝ) (h : 0 < δ) : ∃ k, Fine δ T (chop k T) := by
  obtain ⟨k, hk⟩ := exists_pow_lt_of_lt_one h (show (2 : ℝ)⁻¹ < 1 by norm_num)
  refine ⟨k, ⟨?_, ?_, ?_, le_rfl⟩⟩
  · simp [chop]
  · simp only [chop]; rw [← inv_pow]; exact hk.le
  · simp [chop]

/-- The value of `2 ^ j` in the arithmetic of `k + 1` digits. -/
noncomputable def two (k : Nat) (T : ℝ) (j : ℤ) : Fl (chop k T) := some ⟨2 ^ j, Chop.mem_pow j⟩

/-- `sqrt(x0) * exp(x1) + 2` -/
noncomputable def exRounded : Expr XReal :=
  .bin .plus (.bin .mult (.un (.fn .sqrt) (.var 0)) (.un (.fn .exp) (.var 1))) (.const (some 2))

theorem exRounded_smooth : Smooth exRounded :=
  .bin (.inl rfl) (.bin (.inr (.inr (.inl rfl))) (.fn (by decide) (.var 0)) (.fn (by decide) (.var 1))) (.const _)

theorem exRounded_regular : RegularAt leftFirst ![4, 1] exRounded := by
  have h4 : ¬ ((4 : ℝ) < 0) := by norm_num
  refine ⟨⟨Real.sqrt 4 * Real.exp 1 + 2, ?_⟩, ?_⟩
  · simp [exRounded, eval, realPoint, applyU, applyFn, applyB, Num.fn, XReal.fn, Num.mul, Num.add, XReal.lift2, Res.both, leftFirst, h4]
  · intro s hs
    have : s = .var 0 := by
      cases hs with
      | binL hs => cases hs with
        | binL hs => cases hs with
          | refl => rfl
          | un hs => cases hs
        | binR hs => cases hs with
          | un hs => cases hs
      | binR hs => cases hs
    subst this
    simp [eval, realPoint]

/-- The hypotheses are met: there is an arithmetic, an expression and a point near the exact ones. -/
example : ∃ C δ T : ℝ, 0 < δ ∧ ∃ k, Fine δ T (chop k T) ∧ ∃ d w d', NearExpr 0 (chop k T) exRounded d ∧
    NearVals 0 (chop k T) (realPoint ![4, 1]) w ∧ diff (.var 0) d = .ok d' ∧
    ∀ o, ∃ x y, eval o w d' = .ok x ∧ x.val = some y ∧
      |y - partialDeriv 0 (denotes exRounded) ![4, 1]| ≤ C * (chop k T).eps := by
  obtain ⟨C, δ, T, hδ, H⟩ := C68_derivative exRounded 0 ![4, 1] 0 exRounded_smooth exRounded_regular
  obtain ⟨k, hk⟩ := chop_fine δ T hδ
  have near : ∀ j : ℤ, ∀ c : ℝ, 2 ^ j = c → NearNum 0 (chop k T) (some c) (two k T j) := by
    rintro j _ rfl
    exact ⟨_, _, rfl, rfl, by simp⟩
  have hd : NearExpr 0 (chop k T) exRounded
      (.bin .plus (.bin .mult (.un (.fn .sqrt) (.var 0)) (.un (.fn .exp) (.var 1))) (.const (two k T 1))) :=
    .bin (.inl rfl) (.bin (.inr (.inr (.inl rfl))) (.fn (.var 0)) (.fn (.var 1))) (.const (near 1 2 (by norm_num)))
  have hw : NearVals 0 (chop k T) (realPoint ![4, 1]) [two k T 2, two k T 0] :=
    .cons (near 2 4 (by norm_num)) (.cons (near 0 1 (by norm_num)) .nil)
  obtain ⟨d', h1, h2⟩ := H _ hk _ _ hd hw
  exact ⟨C, δ, T, hδ, k, hk, _, _, d', hd, hw, h1, h2⟩

/-- `(x0 + 1) - 1` -/
noncomputable def exCancel {K : Type} [Num K] (one : K) : Expr K :=
  .bin .minus (.bin .plus (.var 0) (.const one)) (.const one)

/-- The hypotheses of the bounds for polynomial expressions are met: `x0 * x0 + 2` at 4. -/
example (k : Nat) (T : ℝ) : ∃ (d : Expr (Fl (chop k T))) (w : List (Fl (chop k T))) (x : Fl (chop k T)) (y : ℝ),
    NearExpr 0 (chop k T) (.bin .plus (.bin .mult (.var 0) (.var 0)) (.const (some 2))) d ∧
    NearVals 0 (chop k T) [some 4] w ∧ eval leftFirst w d = .ok x ∧ x.val = some y ∧
    |y - 18| ≤ ((1 + ((2 : ℝ) ^ k)⁻¹) ^ 2 - 1) * 18 := by
  have near : ∀ j : ℤ, ∀ c : ℝ, 2 ^ j = c → NearNum 0 (chop k T) (some c) (two k T j) := by
    rintro j _ rfl
    exact ⟨_, _, rfl, rfl, by simp⟩
  have hd : NearExpr 0 (chop k T) (.bin .plus (.bin .mult (.var 0) (.var 0)) (.const (some 2)))
      (.bin .plus (.bin .mult (.var 0) (.var 0)) (.const (two k T 1))) :=
    .bin (.inl rfl) (.bin (.inr (.inr (.inl rfl))) (.var 0) (.var 0)) (.const (near 1 2 (by norm_num)))
  have hw : NearVals 0 (chop k T) [some 4] [two k T 2] := .cons (near 2 4 (by norm_num)) .nil
  refine ⟨_, _, _, _, hd, hw, rfl, rfl, ?_⟩
  refine C68_positive (chop k T) (by simp [chop]) rfl _ _ [some 4] ?_ hd _ hw leftFirst leftFirst _ _ _ ?_ rfl rfl
  · exact .bin (.inl rfl) (.bin (.inr rfl) (.var rfl (by norm_num)) (.var rfl (by norm_num))) (.const (by norm_num))
  · simp [eval, applyB, Num.mul, Num.add, XReal.lift2, Res.both, leftFirst]
    norm_num

/-- `x0 + 0` simplifies to `x0`, with any floating point numbers. -/
example (R : Rounding) : Simplifies (.bin .plus (.var 0) (.const (Num.lit 0)) : Expr (Fl R)) (.ok (.var 0)) := by
  have h : Num.eqb (Num.lit 0 : Fl R) (Num.lit 0) = true := by
    change Num.eqb (Num.lit 0 : Fl R).val (Num.lit 0 : Fl R).val = true
    rw [Fl.val_zero]; simp [Num.eqb, XReal.eqb]
  refine ⟨2, ?_⟩
  simp [simplifyLoop, canSimplify, simplify, isConst, canBin, simpBin, constCheck, unwrap, h]

/-- C68, limit of the claim: the error is not small compared with the *result*.  In every accuracy there is a number
`x ≠ 0` for which `(x + 1) - 1` evaluates to 0. -/
theorem C68_cancellation (k : Nat) (T : ℝ) : ∃ (u x : Fl (chop k T)) (a : ℝ), u.val = some 1 ∧ x.val = some a ∧ a ≠ 0 ∧
    eval leftFirst [some a] (exCancel (some 1)) = .ok (some a) ∧
    ∃ z, eval leftFirst [x] (exCancel u) = .ok z ∧ z.val = some 0 := by
  refine ⟨two k T 0, two k T (-(k + 1 : ℕ)), 2 ^ (-(k + 1 : ℕ) : ℤ), by simp [two, Fl.val], rfl, by positivity, ?_, ?_⟩
  · simp [exCancel, eval, applyB, Num.sub, Num.add, XReal.lift2, Res.both, leftFirst]
  · refine ⟨Num.sub (Num.add (two k T (-(k + 1 : ℕ))) (two k T 0)) (two k T 0), rfl, ?_⟩
    have h1 : (Num.add (two k T (-(k + 1 : ℕ))) (two k T 0)).val = some 1 := by
      refine (Fl.val_of _).trans (congrArg some ?_)
      simpa using Chop.round_one_add (k := k)
    have h2 : (two k T 0).val = some 1 := by simp [two, Fl.val]
    simp only [Num.sub, h1, h2]
    refine (Fl.val_of _).trans (congrArg some ?_)
    simpa using Chop.round_zero (k := k)

/-- C68, limit of the claim: a square root of zero.  However fine the arithmetic, a value within the accuracy of the
exact one makes `sqrt(x0)` undefined. -/
theorem C68_sqrt_zero (k : Nat) (T : ℝ) : ∃ x : Fl (chop k T), NearNum 1 (chop k T) (some 0) x ∧
    eval leftFirst [some 0] (.un (.fn .sqrt) (.var 0) : Expr XReal) = .ok (some 0) ∧
    ∃ z, eval leftFirst [x] (.un (.fn .sqrt) (.var 0)) = .ok z ∧ z.val = none := by
  have hpos : (0 : ℝ) < 2 ^ (-k : ℤ) := by positivity
  refine ⟨some ⟨-2 ^ (-k : ℤ), Chop.mem_neg (Chop.mem_pow _)⟩, ⟨0, _, rfl, rfl, ?_⟩, ?_, ?_⟩
  · simp [chop]
  · simp [eval, applyU, applyFn, Num.fn, XReal.fn]
  · refine ⟨Fl.fn _ .sqrt (some (-2 ^ (-k : ℤ))), rfl, ?_⟩
    have h : XReal.fn .sqrt (some (-2 ^ (-k : ℤ))) = none := by
      simp only [XReal.fn]
      rw [if_pos (by linarith)]
    have : Fl.fn (chop k T) .sqrt (some (-2 ^ (-k : ℤ))) = none := if_pos h
    rw [this]; rfl

end VM.Props
