import Verif.Spec.QuadError
import Verif.Rt.IteratedLemmas
import Verif.Props.Quadrature
import Mathlib.Analysis.Calculus.Deriv.MeanValue
import Mathlib.Analysis.SpecialFunctions.Integrals.Basic
/-
The error of the midpoint rule.
-/
namespace VM
open Spec Filter Topology MeasureTheory

/-- A function falling to its zero and then rising is not negative. -/
theorem nonneg_of_valley {P P' : ℝ → ℝ} {a b m t : ℝ} (hm : m ∈ Set.Icc a b) (ht : t ∈ Set.Icc a b)
    (hP : ∀ t ∈ Set.Icc a b, HasDerivAt P (P' t) t) (h0 : P m = 0)
    (hr : ∀ t ∈ Set.Icc a b, m ≤ t → 0 ≤ P' t) (hl : ∀ t ∈ Set.Icc a b, t ≤ m → P' t ≤ 0) : 0 ≤ P t := by
  rcases le_total m t with h | h
  · have hs : Set.Icc m t ⊆ Set.Icc a b := Set.Icc_subset_Icc hm.1 ht.2
    have := monotoneOn_of_deriv_nonneg (convex_Icc m t) (fun s hs' => (hP s (hs hs')).continuousAt.continuousWithinAt)
      (fun s hs' => (hP s (hs (interior_subset hs'))).differentiableAt.differentiableWithinAt)
      (fun s hs' => by rw [(hP s (hs (interior_subset hs'))).deriv]; exact hr s (hs (interior_subset hs')) (interior_subset hs').1)
    have := this ⟨le_rfl, h⟩ ⟨h, le_rfl⟩ h
    rwa [h0] at this
  · have hs : Set.Icc t m ⊆ Set.Icc a b := Set.Icc_subset_Icc ht.1 hm.2
    have := antitoneOn_of_deriv_nonpos (convex_Icc t m) (fun s hs' => (hP s (hs hs')).continuousAt.continuousWithinAt)
      (fun s hs' => (hP s (hs (interior_subset hs'))).differentiableAt.differentiableWithinAt)
      (fun s hs' => by rw [(hP s (hs (interior_subset hs'))).deriv]; exact hl s (hs (interior_subset hs')) (interior_subset hs').2)
    have := this ⟨le_rfl, h⟩ ⟨h, le_rfl⟩ h
    rwa [h0] at this

theorem midpoint_taylor {f f' f'' : ℝ → ℝ} {a b m M t : ℝ} (hm : m ∈ Set.Icc a b) (ht : t ∈ Set.Icc a b)
    (h1 : ∀ t ∈ Set.Icc a b, HasDerivAt f (f' t) t) (h2 : ∀ t ∈ Set.Icc a b, HasDerivAt f' (f'' t) t)
    (hM : ∀ t ∈ Set.Icc a b, |f'' t| ≤ M) : |f t - f m - f' m * (t - m)| ≤ M / 2 * (t - m) ^ 2 := by
  have hlip : ∀ t ∈ Set.Icc a b, |f' t - f' m| ≤ M * |t - m| := fun t ht =>
    (convex_Icc a b).norm_image_sub_le_of_norm_hasDerivWithin_le (f := f') (f' := f'') (C := M)
      (fun s hs => (h2 s hs).hasDerivWithinAt) hM hm ht
  have hg : ∀ t ∈ Set.Icc a b, HasDerivAt (fun t => f t - f m - f' m * (t - m)) (f' t - f' m) t := fun t ht => by
    have := ((h1 t ht).sub_const (f m)).sub (((hasDerivAt_id t).sub_const m).const_mul (f' m))
    exact this.congr_deriv (by simp)
  have hq : ∀ t, HasDerivAt (fun t => M / 2 * (t - m) ^ 2) (M * (t - m)) t := fun t => by
    have := (((hasDerivAt_id t).sub_const m).pow 2).const_mul (M / 2)
    refine this.congr_deriv ?_
    simp; ring
  rw [abs_le]
  constructor
  · have := nonneg_of_valley hm ht (fun s hs => (hq s).add (hg s hs)) (by simp)
      (fun s hs h => by
        have := (abs_le.1 (hlip s hs)).1; rw [abs_of_nonneg (by linarith)] at this; linarith)
      (fun s hs h => by
        have := (abs_le.1 (hlip s hs)).2; rw [abs_of_nonpos (by linarith)] at this; linarith)
    simp only [Pi.add_apply] at this
    linarith
  · have := nonneg_of_valley hm ht (fun s hs => (hq s).sub (hg s hs)) (by simp)
      (fun s hs h => by
        have := (abs_le.1 (hlip s hs)).2; rw [abs_of_nonneg (by linarith)] at this; linarith)
      (fun s hs h => by
        have := (abs_le.1 (hlip s hs)).1; rw [abs_of_nonpos (by linarith)] at this; linarith)
    simp only [Pi.sub_apply] at this
    linarith

theorem midpoint_error {f f' f'' : ℝ → ℝ} {a b M : ℝ} (hab : a ≤ b)
    (h1 : ∀ t ∈ Set.Icc a b, HasDerivAt f (f' t) t) (h2 : ∀ t ∈ Set.Icc a b, HasDerivAt f' (f'' t) t)
    (hM : ∀ t ∈ Set.Icc a b, |f'' t| ≤ M) :
    |f ((a + b) / 2) * (b - a) - ∫ t in a..b, f t| ≤ M * (b - a) ^ 3 / 24 := by
  set m := (a + b) / 2 with hmdef
  have hm : m ∈ Set.Icc a b := ⟨by rw [hmdef]; linarith, by rw [hmdef]; linarith⟩
  have hfi : IntervalIntegrable f volume a b :=
    ContinuousOn.intervalIntegrable_of_Icc hab fun t ht => (h1 t ht).continuousAt.continuousWithinAt
  have hli : IntervalIntegrable (fun t => f m + f' m * (t - m)) volume a b := Continuous.intervalIntegrable (by fun_prop) _ _
  have hlin : ∫ t in a..b, (f m + f' m * (t - m)) = f m * (b - a) := by
    rw [intervalIntegral.integral_add (Continuous.intervalIntegrable (by fun_prop) _ _)
      (Continuous.intervalIntegrable (by fun_prop) _ _), intervalIntegral.integral_const_mul,
      intervalIntegral.integral_sub (Continuous.intervalIntegrable (by fun_prop) _ _)
      (Continuous.intervalIntegrable (by fun_prop) _ _), integral_id, intervalIntegral.integral_const,
      intervalIntegral.integral_const]
    simp only [smul_eq_mul, hmdef]
    ring
  have hsq : ∫ t in a..b, M / 2 * (t - m) ^ 2 = M * (b - a) ^ 3 / 24 := by
    rw [intervalIntegral.integral_const_mul]
    have := intervalIntegral.integral_comp_sub_right (a := a) (b := b) (fun t : ℝ => t ^ 2) m
    rw [this, integral_pow]
    rw [hmdef]; push_cast; ring
  have hle := intervalIntegral.norm_integral_le_of_norm_le (μ := volume) (f := fun t => f t - (f m + f' m * (t - m)))
    (g := fun t => M / 2 * (t - m) ^ 2) hab
    (Eventually.of_forall fun t ht => by
      have := midpoint_taylor hm ⟨ht.1.le, ht.2⟩ h1 h2 hM
      rw [Real.norm_eq_abs, ← sub_sub]; exact this)
    (Continuous.intervalIntegrable (by fun_prop) _ _)
  rw [intervalIntegral.integral_sub hfi hli, hlin, hsq, Real.norm_eq_abs] at hle
  rwa [abs_sub_comm]

variable {o : Order XReal} {e d : Expr XReal} {x : Nat}

theorem along_last (x : Nat) (t : ℝ) : along x t (Fin.last x) = t := by simp [along]

theorem along_update (x : Nat) (s t : ℝ) : Function.update (along x s) (Fin.last x) t = along x t := by
  simp [along]

theorem along_get (x : Nat) (t : ℝ) : (realPoint (along x t))[x]? = some (some t) := by
  have : (⟨x, by simp⟩ : Fin (x + 1)) = Fin.last x := rfl
  rw [realPoint, List.getElem?_ofFn, dif_pos (Nat.lt_succ_self x), this, along_last]

theorem integrand_reg {t : ℝ} (h : Reg (along x t) e) : integrandOf x e t = rv (along x t) e := denotes_reg h

theorem along_continuous (x : Nat) : Continuous (along x) :=
  continuous_const.update (Fin.last x) continuous_id

theorem integrand_eventually {t : ℝ} (h : Reg (along x t) e) :
    integrandOf x e =ᶠ[𝓝 t] fun s => rv (along x s) e :=
  ((along_continuous x).continuousAt.eventually h.eventually).mono fun _ => integrand_reg

theorem integrand_deriv {t : ℝ} (h : Reg (along x t) e) (hd : diff (.var x) e = .ok d) :
    HasDerivAt (integrandOf x e) (integrandOf x d t) t := by
  have h1 := h.hasDerivAt (i := Fin.last x) hd
  simp only [along_update, along_last] at h1
  rw [integrand_reg (h.diff hd)]
  exact h1.congr_of_eventuallyEq (integrand_eventually h)

theorem diffs_two (hd : diffs [x, x] e = .ok d) : ∃ c, diff (.var x) e = .ok c ∧ diff (.var x) c = .ok d := by
  simp only [diffs] at hd
  obtain ⟨c, h1, h2⟩ := Res.bind_eq_ok.1 hd
  obtain ⟨c', h3, h4⟩ := Res.bind_eq_ok.1 h2
  cases h4
  exact ⟨c, h1, h3⟩

/-- The rule, on an interval given either way round. -/
theorem rule_error {lo hi : Expr XReal} {a b M : ℝ}
    (hlo : ConstArith lo) (hhi : ConstArith hi) (ha : eval o [] lo = .ok (some a)) (hb : eval o [] hi = .ok (some b))
    (hx : ∀ j, Occurs j e → j = x) (hr : ∀ t ∈ Set.uIcc a b, Reg (along x t) e)
    (hd : diffs [x, x] e = .ok d) (hM : ∀ t ∈ Set.uIcc a b, |integrandOf x d t| ≤ M) :
    quadOver (gaussQuad1 o) lo hi x e = .ok (some (integrandOf x e ((a + b) / 2) * (b - a))) ∧
    |integrandOf x e ((a + b) / 2) * (b - a) - ∫ t in a..b, integrandOf x e t| ≤ M * |b - a| ^ 3 / 24 := by
  have hm : (a + b) / 2 ∈ Set.uIcc a b := by
    rcases le_total a b with h | h
    · rw [Set.uIcc_of_le h]; constructor <;> linarith
    · rw [Set.uIcc_of_ge h]; constructor <;> linarith
  obtain ⟨c, hc, hcd⟩ := diffs_two hd
  constructor
  · rw [Props.C27_midpoint o lo hi e x (some a) (some b) (some (integrandOf x e ((a + b) / 2)))
      (realPoint (along x ((a + b) / 2))) hlo hhi ha hb hx ?_ ?_ (by simp [SimpLaws.bad])]
    · rfl
    · rw [along_get]; simp [Num.div, Num.add, Num.lit, XReal.lift2, XReal.div]
    · rw [(hr _ hm).eval, integrand_reg (hr _ hm)]
  · rcases le_total a b with h | h
    · rw [Set.uIcc_of_le h] at hr hM
      rw [abs_of_nonneg (sub_nonneg.2 h)]
      exact midpoint_error h (fun t ht => integrand_deriv (hr t ht) hc)
        (fun t ht => integrand_deriv ((hr t ht).diff hc) hcd) hM
    · rw [Set.uIcc_of_ge h] at hr hM
      have := midpoint_error h (fun t ht => integrand_deriv (hr t ht) hc)
        (fun t ht => integrand_deriv ((hr t ht).diff hc) hcd) hM
      rw [abs_of_nonpos (sub_nonpos.2 h), intervalIntegral.integral_symm, neg_sub]
      rw [add_comm b a, ← abs_neg] at this
      convert this using 2
      ring

/-- The sum over pieces. -/
theorem pieces_error {knot : Nat → ℝ} {h M : ℝ} (hk : ∀ k, knot k ≤ knot (k + 1)) (hh : ∀ k, knot (k + 1) - knot k ≤ h)
    (hx : ∀ j, Occurs j e → j = x) (hd : diffs [x, x] e = .ok d) (n : Nat) : ∀ k,
    (∀ t ∈ Set.Icc (knot k) (knot (k + n + 1)), Reg (along x t) e ∧ |integrandOf x d t| ≤ M) →
    ∃ v : ℝ, SumOf (fun lo hi x f c => gaussQuad1 o lo hi x f = .ok c) (pieces x e knot n k) (some v) ∧
      IntervalIntegrable (integrandOf x e) volume (knot k) (knot (k + n + 1)) ∧
      |v - ∫ t in (knot k)..(knot (k + n + 1)), integrandOf x e t| ≤ M * (knot (k + n + 1) - knot k) * h ^ 2 / 24 := by
  have hmono : Monotone knot := monotone_nat_of_le_succ hk
  have hh0 : 0 ≤ h := (sub_nonneg.2 (hk 0)).trans (hh 0)
  have one : ∀ k, (∀ t ∈ Set.Icc (knot k) (knot (k + 1)), Reg (along x t) e ∧ |integrandOf x d t| ≤ M) →
      ∃ v : ℝ, gaussQuad1 o (.const (some (knot k))) (.const (some (knot (k + 1)))) x e = .ok (some v) ∧
      IntervalIntegrable (integrandOf x e) volume (knot k) (knot (k + 1)) ∧
      |v - ∫ t in (knot k)..(knot (k + 1)), integrandOf x e t| ≤ M * (knot (k + 1) - knot k) * h ^ 2 / 24 := by
    intro k ht
    have hM0 : 0 ≤ M := (abs_nonneg _).trans (ht _ ⟨le_rfl, hk k⟩).2
    have hu : Set.uIcc (knot k) (knot (k + 1)) = Set.Icc (knot k) (knot (k + 1)) := Set.uIcc_of_le (hk k)
    obtain ⟨h1, h2⟩ := rule_error (o := o) (M := M) (.const (some (knot k))) (.const (some (knot (k + 1)))) rfl rfl hx
      (fun t h => (ht t (hu ▸ h)).1) hd (fun t h => (ht t (hu ▸ h)).2)
    refine ⟨_, h1, ?_, h2.trans ?_⟩
    · obtain ⟨c, hc, hcd⟩ := diffs_two hd
      exact ContinuousOn.intervalIntegrable_of_Icc (hk k) fun t h =>
        (integrand_deriv (ht t h).1 hc).continuousAt.continuousWithinAt
    · have w0 := sub_nonneg.2 (hk k)
      rw [abs_of_nonneg w0]
      have : (knot (k + 1) - knot k) ^ 2 ≤ h ^ 2 := pow_le_pow_left₀ w0 (hh k) 2
      have := mul_le_mul_of_nonneg_left this (mul_nonneg hM0 w0)
      nlinarith
  induction n with
  | zero =>
    intro k ht
    obtain ⟨v, h1, h2, h3⟩ := one k ht
    exact ⟨v, .integ h1, h2, h3⟩
  | succ n ih =>
    intro k ht
    have e1 : k + (n + 1) + 1 = k + 1 + n + 1 := by omega
    rw [e1] at ht ⊢
    obtain ⟨v, h1, h2, h3⟩ := one k fun t h => ht t ⟨h.1, h.2.trans (hmono (by omega))⟩
    obtain ⟨w, h4, h5, h6⟩ := ih (k + 1) fun t h => ht t ⟨(hk k).trans h.1, h.2⟩
    refine ⟨v + w, SumOf.plus (a := some v) (b := some w) (.integ h1) h4, h2.trans h5, ?_⟩
    rw [← intervalIntegral.integral_add_adjacent_intervals h2 h5]
    calc _ = |(v - ∫ t in (knot k)..(knot (k + 1)), integrandOf x e t) +
          (w - ∫ t in (knot (k + 1))..(knot (k + 1 + n + 1)), integrandOf x e t)| := by congr 1; ring
      _ ≤ _ := abs_add_le _ _
      _ ≤ _ := add_le_add h3 h6
      _ = _ := by ring

end VM
