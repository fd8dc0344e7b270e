import Verif.Rt.QuadErrorLemmas
import Verif.Props.Iterated
/-
Property C66: the error of numerical integration.
-/
namespace VM.Props
open Spec

/-- C66.  The integrand depends on `x` only, `diff` supports it, and at every point of the interval it has a value and no
square root of 0 in it; `M` bounds the values of its second derivative, as `diff` applied twice gives it.  Then the rule
gives a number that differs from the integral by at most `M |b - a|^3 / 24`. -/
theorem C66_error (o : Order XReal) (lo hi e d : Expr XReal) (x : Nat) (a b M : ℝ)
    (hlo : ConstArith lo) (hhi : ConstArith hi) (ha : eval o [] lo = .ok (some a)) (hb : eval o [] hi = .ok (some b))
    (hs : Smooth e) (hx : ∀ j, Occurs j e → j = x) (hr : ∀ t ∈ Set.uIcc a b, RegularAt o (along x t) e)
    (hd : diffs [x, x] e = .ok d) (hM : ∀ t ∈ Set.uIcc a b, |integrandOf x d t| ≤ M) :
    ∃ v : ℝ, quadOver (gaussQuad1 o) lo hi x e = .ok (some v) ∧
      |v - ∫ t in a..b, integrandOf x e t| ≤ M * |b - a| ^ 3 / 24 :=
  ⟨_, rule_error hlo hhi ha hb hx (fun t ht => (regularAt_iff hs o).1 (hr t ht)) hd hM⟩

/-- C66.  The sum of the integrals over adjacent intervals, none longer than `h`, differs from the integral over the
whole interval by at most `M (b - a) h^2 / 24`. -/
theorem C66_composite (o : Order XReal) (e d : Expr XReal) (x : Nat) (knot : Nat → ℝ) (n : Nat) (h M : ℝ)
    (hk : ∀ k, knot k ≤ knot (k + 1)) (hh : ∀ k, knot (k + 1) - knot k ≤ h)
    (hs : Smooth e) (hx : ∀ j, Occurs j e → j = x)
    (hr : ∀ t ∈ Set.Icc (knot 0) (knot (n + 1)), RegularAt o (along x t) e)
    (hd : diffs [x, x] e = .ok d) (hM : ∀ t ∈ Set.Icc (knot 0) (knot (n + 1)), |integrandOf x d t| ≤ M) :
    ∃ v : ℝ, quadOf o (gaussQuad1 o) (pieces x e knot n 0) = .ok (some v) ∧
      |v - ∫ t in (knot 0)..(knot (n + 1)), integrandOf x e t| ≤ M * (knot (n + 1) - knot 0) * h ^ 2 / 24 := by
  obtain ⟨v, h1, -, h3⟩ := pieces_error (o := o) (M := M) hk hh hx hd n 0 (by
    rw [Nat.zero_add]; exact fun t ht => ⟨(regularAt_iff hs o).1 (hr t ht), hM t ht⟩)
  rw [Nat.zero_add] at h3
  exact ⟨v, C28_sum o _ _ _ h1, h3⟩

/-- C66.  Cut into `n + 1` pieces of one length, the error is at most a constant divided by the square of the number of
pieces. -/
theorem C66_converges (o : Order XReal) (e : Expr XReal) (x : Nat) (a b : ℝ) (hab : a ≤ b)
    (hs : Smooth e) (hx : ∀ j, Occurs j e → j = x) (hr : ∀ t ∈ Set.Icc a b, RegularAt o (along x t) e) :
    ∃ C : ℝ, ∀ n : ℕ, ∃ v : ℝ,
      quadOf o (gaussQuad1 o) (pieces x e (fun k => a + k * ((b - a) / (n + 1))) n 0) = .ok (some v) ∧
      |v - ∫ t in a..b, integrandOf x e t| ≤ C / (n + 1) ^ 2 := by
  obtain ⟨d, hd, -⟩ := C54_iterated (n := x + 1) e [Fin.last x, Fin.last x] hs
  have hd : diffs [x, x] e = .ok d := hd
  obtain ⟨c, hc, hcd⟩ := diffs_two hd
  have hreg : ∀ t ∈ Set.Icc a b, Reg (along x t) e := fun t ht => (regularAt_iff hs o).1 (hr t ht)
  have hcont : ContinuousOn (integrandOf x d) (Set.Icc a b) := fun t ht => by
    obtain ⟨d', hd', -⟩ := C11_derivative d x (((hreg t ht).diff hc).diff hcd).smooth
    exact (integrand_deriv (((hreg t ht).diff hc).diff hcd) hd').continuousAt.continuousWithinAt
  obtain ⟨M, hM⟩ := isCompact_Icc.exists_bound_of_continuousOn hcont
  refine ⟨M * (b - a) ^ 3 / 24, fun n => ?_⟩
  have hn : (0 : ℝ) < n + 1 := by positivity
  have e0 : a + ((0 : ℕ) : ℝ) * ((b - a) / (n + 1)) = a := by simp
  have e1 : a + ((n + 1 : ℕ) : ℝ) * ((b - a) / (n + 1)) = b := by push_cast; field_simp; ring
  obtain ⟨v, h1, h2⟩ := C66_composite o e d x (fun k => a + k * ((b - a) / (n + 1))) n ((b - a) / (n + 1)) M
    (fun k => by
      have : 0 ≤ (b - a) / (n + 1) := div_nonneg (by linarith) hn.le
      push_cast; linarith)
    (fun k => by push_cast; linarith) hs hx
    (by simp only [e0, e1]; exact hr) hd (by simp only [e0, e1]; exact hM)
  refine ⟨v, h1, ?_⟩
  simp only [e0, e1] at h2
  refine h2.trans (le_of_eq ?_)
  field_simp

/-- C66.  The bound is attained: for `x * x` the second derivative is 2 everywhere and the error is `2 |b - a|^3 / 24` on
every interval.  (So the hypotheses of `C66_error` can be met.) -/
theorem C66_sharp (o : Order XReal) (a b : ℝ) : let e : Expr XReal := .bin .mult (.var 0) (.var 0)
    Smooth e ∧ (∀ j, Occurs j e → j = 0) ∧ (∀ t, RegularAt o (along 0 t) e) ∧
    ∃ d, diffs [0, 0] e = .ok d ∧ (∀ t, integrandOf 0 d t = 2) ∧
      ∃ v : ℝ, quadOver (gaussQuad1 o) (.const (some a)) (.const (some b)) 0 e = .ok (some v) ∧
        |v - ∫ t in a..b, integrandOf 0 e t| = 2 * |b - a| ^ 3 / 24 := by
  intro e
  have hs : Smooth e := .bin (.inr (.inr (.inl rfl))) (.var 0) (.var 0)
  have ho : ∀ j, Occurs j e → j = 0 := by
    intro j h
    have h : Occurs j (.bin .mult (.var 0) (.var 0) : Expr XReal) := h
    cases h with
    | binL h => cases h; rfl
    | binR h => cases h; rfl
  have hreg : ∀ t, Reg (along 0 t) e := fun t => by simp [e, Reg, opOk]
  have hr : ∀ t, RegularAt o (along 0 t) e := fun t => (regularAt_iff hs o).2 (hreg t)
  obtain ⟨d, hd, -⟩ := C54_iterated (n := 1) e [0, 0] hs
  have hd : diffs [0, 0] e = .ok d := hd
  obtain ⟨c, hc, hcd⟩ := diffs_two hd
  have v0 : integrandOf 0 e = fun t => t * t := by
    funext t; rw [integrand_reg (hreg t)]
    have : along 0 t 0 = t := along_last 0 t
    simp [e, rv, opR, this]
  have v1 : integrandOf 0 c = fun t => 2 * t := by
    funext t
    have h := integrand_deriv (hreg t) hc
    rw [v0] at h
    refine h.unique (((hasDerivAt_id t).mul (hasDerivAt_id t)).congr_deriv ?_)
    simp; ring
  have v2 : ∀ t, integrandOf 0 d t = 2 := by
    intro t
    have h := integrand_deriv ((hreg t).diff hc) hcd
    rw [v1] at h
    exact h.unique (((hasDerivAt_id t).const_mul 2).congr_deriv (by simp))
  refine ⟨hs, ho, hr, d, hd, v2, _, (rule_error (M := 2) (.const _) (.const _) rfl rfl ho (fun t _ => hreg t) hd
    fun t _ => by rw [v2]; norm_num).1, ?_⟩
  have hI : ∫ t in a..b, integrandOf 0 e t = (b ^ 3 - a ^ 3) / 3 := by
    rw [v0]
    simp only [← pow_two]
    rw [integral_pow]; norm_num
  rw [hI, v0, show (a + b) / 2 * ((a + b) / 2) * (b - a) - (b ^ 3 - a ^ 3) / 3 = -((b - a) ^ 3 / 12) by ring, abs_neg,
    abs_div, abs_pow]
  norm_num
  ring

/-- The hypotheses of `C66_composite` and `C66_converges` for `exp(x)/x` on `[1, 2]`. -/
example (o : Order XReal) : ∃ C : ℝ, ∀ n : ℕ, ∃ v : ℝ,
    quadOf o (gaussQuad1 o) (pieces 0 (.bin .div (.un (.fn .exp) (.var 0)) (.var 0))
      (fun k => 1 + k * ((2 - 1) / (n + 1))) n 0) = .ok (some v) ∧
    |v - ∫ t in (1 : ℝ)..2, integrandOf 0 (.bin .div (.un (.fn .exp) (.var 0)) (.var 0)) t| ≤ C / (n + 1) ^ 2 := by
  have hs : Smooth (.bin .div (.un (.fn .exp) (.var 0)) (.var 0) : Expr XReal) :=
    .bin (.inr (.inr (.inr rfl))) (.fn (by decide) (.var 0)) (.var 0)
  refine C66_converges o _ 0 1 2 (by norm_num) hs ?_ ?_
  · intro j h; cases h with
    | binL h => cases h with | un h => cases h; rfl
    | binR h => cases h; rfl
  · intro t ht
    have : along 0 t 0 = t := along_last 0 t
    refine (regularAt_iff hs o).2 ?_
    simp only [Reg, fnOk, opOk, rv, zero_add, Nat.lt_one_iff, dite_true, and_true, true_and]
    have h : along 0 t ⟨0, by simp⟩ = t := this
    rw [h]; linarith [ht.1]

end VM.Props
