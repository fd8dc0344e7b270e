import Verif.Rt.RoundedQuad
import Verif.Props.Rounded
import Verif.Props.QuadError
/-
C69: numerical integration with floating point numbers.
-/
namespace VM.Props
open Spec

/-- C69.  Numerical quadrature of a sum of integrals with floating point numbers near the exact ones returns the
result of exact arithmetic up to a constant times the accuracy. -/
theorem C69_accuracy (o : Order XReal) (e : Expr XReal) (D : ℝ) (h : Integrable o e) :
    ∃ v : ℝ, quadOf o (gaussQuad1 o) e = .ok (some v) ∧
    ∃ C δ T : ℝ, 0 < δ ∧ ∀ R, Fine δ T R → ∀ d, NearForm D R e d →
      ∀ o', ∃ x y, quadOf o' (gaussQuad1 o') d = .ok x ∧ x.val = some y ∧ |y - v| ≤ C * R.eps := by
  obtain ⟨v, h1, C, δ, T, hδ, H⟩ := form_near D h
  refine ⟨v, C28_sum o _ _ _ h1, C, δ, T, hδ, fun R hF d hn o' => ?_⟩
  obtain ⟨z, g1, w, y, g2, g3, g4⟩ := H R hF d hn o'
  cases g2
  exact ⟨z, y, C28_sum o' _ _ _ g1, g3, g4⟩

theorem pieces_integrable {o : Order XReal} {e : Expr XReal} {x : Nat} {knot : Nat → ℝ} (hk : ∀ k, knot k ≤ knot (k + 1))
    (hx : ∀ j, Occurs j e → j = x) (n : Nat) : ∀ k,
    (∀ t ∈ Set.Icc (knot k) (knot (k + n + 1)), RegularAt o (along x t) e) → Integrable o (pieces x e knot n k) := by
  have hm : Monotone knot := monotone_nat_of_le_succ hk
  have one : ∀ k, (∀ t ∈ Set.Icc (knot k) (knot (k + 1)), RegularAt o (along x t) e) →
      Integrable o (.integ (.const (some (knot k))) (.const (some (knot (k + 1)))) x e) := fun k hr =>
    .integ (.const _) (.const _) rfl rfl hx (hr _ ⟨by linarith [hk k], by linarith [hk k]⟩)
  induction n with
  | zero => exact fun k hr => one k hr
  | succ n ih =>
    intro k hr
    refine .plus (one k fun t ht => hr t ⟨ht.1, ht.2.trans (hm (by omega))⟩) (ih (k + 1) fun t ht => hr t ⟨(hk k).trans ht.1, ?_⟩)
    have : k + 1 + n + 1 = k + (n + 1) + 1 := by omega
    rw [← this]; exact ht.2

/-- C69.  The total error of the sum of the integrals over adjacent intervals, none longer than `h`: the error of the
rule and a constant times the accuracy of the arithmetic. -/
theorem C69_error (o : Order XReal) (e d : Expr XReal) (x : Nat) (knot : Nat → ℝ) (n : Nat) (h M D : ℝ)
    (hk : ∀ k, knot k ≤ knot (k + 1)) (hh : ∀ k, knot (k + 1) - knot k ≤ h)
    (hs : Smooth e) (hx : ∀ j, Occurs j e → j = x)
    (hr : ∀ t ∈ Set.Icc (knot 0) (knot (n + 1)), RegularAt o (along x t) e)
    (hd : diffs [x, x] e = .ok d) (hM : ∀ t ∈ Set.Icc (knot 0) (knot (n + 1)), |integrandOf x d t| ≤ M) :
    ∃ C δ T : ℝ, 0 < δ ∧ ∀ R, Fine δ T R → ∀ f, NearForm D R (pieces x e knot n 0) f →
      ∀ o', ∃ z y, quadOf o' (gaussQuad1 o') f = .ok z ∧ z.val = some y ∧
        |y - ∫ t in (knot 0)..(knot (n + 1)), integrandOf x e t| ≤ M * (knot (n + 1) - knot 0) * h ^ 2 / 24 + C * R.eps := by
  obtain ⟨v, h1, h2⟩ := C66_composite o e d x knot n h M hk hh hs hx hr hd hM
  obtain ⟨v', g1, C, δ, T, hδ, H⟩ := C69_accuracy o _ D (pieces_integrable hk hx n 0 (by rw [Nat.zero_add]; exact hr))
  rw [h1] at g1; cases g1
  refine ⟨C, δ, T, hδ, fun R hF f hn o' => ?_⟩
  obtain ⟨z, y, k1, k2, k3⟩ := H R hF f hn o'
  exact ⟨z, y, k1, k2, by
    have := abs_sub_le y v (∫ t in (knot 0)..(knot (n + 1)), integrandOf x e t)
    linarith⟩

/-- C69.  Any tolerance can be met: cut the interval into enough pieces, and then use an arithmetic that is fine
enough. -/
theorem C69_tolerance (o : Order XReal) (e : Expr XReal) (x : Nat) (a b D τ : ℝ) (hab : a ≤ b) (hτ : 0 < τ)
    (hs : Smooth e) (hx : ∀ j, Occurs j e → j = x) (hr : ∀ t ∈ Set.Icc a b, RegularAt o (along x t) e) :
    ∃ N : ℕ, ∀ n ≥ N, ∃ δ T : ℝ, 0 < δ ∧ ∀ R, Fine δ T R →
      ∀ f, NearForm D R (pieces x e (fun k => a + k * ((b - a) / (n + 1))) n 0) f →
      ∀ o', ∃ z y, quadOf o' (gaussQuad1 o') f = .ok z ∧ z.val = some y ∧ |y - ∫ t in a..b, integrandOf x e t| ≤ τ := by
  obtain ⟨C, H⟩ := C66_converges o e x a b hab hs hx hr
  obtain ⟨N, hN⟩ := exists_nat_gt (2 * |C| / τ)
  refine ⟨N, fun n hn => ?_⟩
  obtain ⟨v, h1, h2⟩ := H n
  have hpos : (0 : ℝ) < n + 1 := by positivity
  have hend : a + ((n + 1 : ℕ) : ℝ) * ((b - a) / (n + 1)) = b := by
    push_cast; field_simp; ring
  have hint : Integrable o (pieces x e (fun k => a + k * ((b - a) / (n + 1))) n 0) := by
    refine pieces_integrable (fun k => ?_) hx n 0 ?_
    · have : 0 ≤ (b - a) / (n + 1 : ℝ) := div_nonneg (sub_nonneg.2 hab) hpos.le
      push_cast; linarith
    · intro t ht
      rw [Nat.zero_add, hend] at ht
      exact hr t (by simpa using ht)
  obtain ⟨v', g1, C', δ, T, hδ, H'⟩ := C69_accuracy o _ D hint
  rw [h1] at g1; cases g1
  refine ⟨min δ (τ / 2 / (|C'| + 1)), T, by positivity, fun R hF f hf o' => ?_⟩
  obtain ⟨z, y, k1, k2, k3⟩ := H' R (hF.mono (min_le_left _ _) le_rfl) f hf o'
  refine ⟨z, y, k1, k2, ?_⟩
  have h3 : C' * R.eps ≤ τ / 2 := by
    have : R.eps ≤ τ / 2 / (|C'| + 1) := hF.eps.trans (min_le_right _ _)
    calc C' * R.eps ≤ (|C'| + 1) * R.eps := mul_le_mul_of_nonneg_right (by linarith [le_abs_self C']) hF.pos
      _ ≤ (|C'| + 1) * (τ / 2 / (|C'| + 1)) := mul_le_mul_of_nonneg_left this (by positivity)
      _ = τ / 2 := by field_simp
  have h4 : C / (n + 1 : ℝ) ^ 2 ≤ τ / 2 := by
    rw [div_le_iff₀ (by positivity)]
    rw [div_lt_iff₀ hτ] at hN
    have hNn : (N : ℝ) ≤ n := by exact_mod_cast hn
    have h5 : (n : ℝ) ≤ (n + 1) ^ 2 := by nlinarith
    have h6 : (N : ℝ) * τ ≤ (n + 1) ^ 2 * τ := mul_le_mul_of_nonneg_right (hNn.trans h5) hτ.le
    have := le_abs_self C
    linarith
  have := abs_sub_le y v (∫ t in a..b, integrandOf x e t)
  linarith

/-- `x0 * x0` over two intervals: the hypotheses are met. -/
example : ∃ C : ℝ, ∃ k T, ∃ f z y, NearForm 0 (chop k T) (pieces 0 (.bin .mult (.var 0) (.var 0)) (fun k => k) 1 0) f ∧
    quadOf leftFirst (gaussQuad1 leftFirst) f = .ok z ∧ z.val = some y ∧
    |y - ∫ t in (0 : ℝ)..2, integrandOf 0 (.bin .mult (.var 0) (.var 0)) t| ≤ 2 * (2 - 0) * 1 ^ 2 / 24 + C * (chop k T).eps := by
  obtain ⟨hs, hx, hr, d, hd, hM, -⟩ := C66_sharp leftFirst 0 2
  obtain ⟨C, δ, T, hδ, H⟩ := C69_error leftFirst _ d 0 (fun k => k) 1 1 2 0 (by simp) (by simp) hs hx (fun t _ => hr t) hd
    (fun t _ => by rw [hM]; norm_num)
  obtain ⟨k, hk⟩ := chop_fine δ T hδ
  have z0 : NearNum 0 (chop k T) (some ((0 : ℕ) : ℝ)) (Num.lit 0) := ⟨0, 0, by simp, Fl.val_zero, by simp⟩
  have near : ∀ (j : ℤ) (c : ℝ), 2 ^ j = c → NearNum 0 (chop k T) (some c) (two k T j) := by
    rintro j _ rfl
    exact ⟨_, _, rfl, rfl, by simp⟩
  have hsq : NearExpr 0 (chop k T) (.bin .mult (.var 0) (.var 0)) (.bin .mult (.var 0) (.var 0)) :=
    .bin (.inr (.inr (.inl rfl))) (.var 0) (.var 0)
  have hf : NearForm 0 (chop k T) (pieces 0 (.bin .mult (.var 0) (.var 0)) (fun k => k) 1 0)
      (.bin .plus (.integ (.const (Num.lit 0)) (.const (two k T 0)) 0 (.bin .mult (.var 0) (.var 0)))
        (.integ (.const (two k T 0)) (.const (two k T 1)) 0 (.bin .mult (.var 0) (.var 0)))) :=
    .plus (.integ (.const z0) (.const (near 0 _ (by simp))) hsq)
      (.integ (.const (near 0 _ (by simp))) (.const (near 1 _ (by norm_num))) hsq)
  obtain ⟨z, y, k1, k2, k3⟩ := H _ hk _ hf leftFirst
  refine ⟨C, k, T, _, z, y, hf, k1, k2, ?_⟩
  simpa [one_add_one_eq_two] using k3

end VM.Props
