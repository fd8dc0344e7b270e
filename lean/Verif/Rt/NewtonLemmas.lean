import Verif.Rt.Newton
import Verif.Spec.Newton
import Verif.Rt.IteratedLemmas
import Mathlib.Analysis.Calculus.MeanValue
import Mathlib.Analysis.Calculus.ContDiff.RCLike
/-
The Newton step near a solution.
-/
namespace VM
open Spec Filter Topology

/-- The Newton map of a system of two equations with the given residuals and partial derivatives. -/
noncomputable def newtonMap (f₁ f₂ a b c d : (Fin 2 → ℝ) → ℝ) (q : Fin 2 → ℝ) : Fin 2 → ℝ :=
  ![q 0 - (f₁ q * d q - b q * f₂ q) / (a q * d q - c q * b q),
    q 1 - (a q * f₂ q - f₁ q * c q) / (a q * d q - c q * b q)]

theorem fderiv_two {f : (Fin 2 → ℝ) → ℝ} {r : Fin 2 → ℝ} (h : DifferentiableAt ℝ f r) (v : Fin 2 → ℝ) :
    fderiv ℝ f r v = partialDeriv 0 f r * v 0 + partialDeriv 1 f r * v 1 := by
  have hv : v = v 0 • Pi.single 0 1 + v 1 • Pi.single 1 1 := by
    ext i; fin_cases i <;> simp
  rw [partialDeriv_fderiv _ h, partialDeriv_fderiv _ h]
  conv_lhs => rw [hv]
  rw [map_add, map_smul, map_smul]
  simp [mul_comm]

section
variable {f₁ f₂ a b c d : (Fin 2 → ℝ) → ℝ} {r : Fin 2 → ℝ}

theorem newtonMap_contDiffAt {m : WithTop ℕ∞} (h₁ : ContDiffAt ℝ m f₁ r) (h₂ : ContDiffAt ℝ m f₂ r) (ha : ContDiffAt ℝ m a r)
    (hb : ContDiffAt ℝ m b r) (hc : ContDiffAt ℝ m c r) (hd : ContDiffAt ℝ m d r)
    (hj : a r * d r - c r * b r ≠ 0) : ContDiffAt ℝ m (newtonMap f₁ f₂ a b c d) r := by
  have hx : ∀ i : Fin 2, ContDiffAt ℝ m (fun q : Fin 2 → ℝ => q i) r := fun i => (contDiff_apply ℝ ℝ i).contDiffAt
  have hdet : ContDiffAt ℝ m (fun q => a q * d q - c q * b q) r := (ha.mul hd).sub (hc.mul hb)
  rw [contDiffAt_pi]
  intro i
  fin_cases i
  · exact (hx 0).sub (((h₁.mul hd).sub (hb.mul h₂)).div hdet hj)
  · exact (hx 1).sub (((ha.mul h₂).sub (h₁.mul hc)).div hdet hj)

theorem newtonMap_root (e₁ : f₁ r = 0) (e₂ : f₂ r = 0) : newtonMap f₁ f₂ a b c d r = r := by
  ext i; fin_cases i <;> simp [newtonMap, e₁, e₂]

theorem newtonMap_fderiv (h₁ : DifferentiableAt ℝ f₁ r) (h₂ : DifferentiableAt ℝ f₂ r)
    (ha : DifferentiableAt ℝ a r) (hb : DifferentiableAt ℝ b r) (hc : DifferentiableAt ℝ c r)
    (hd : DifferentiableAt ℝ d r) (hj : a r * d r - c r * b r ≠ 0) (e₁ : f₁ r = 0) (e₂ : f₂ r = 0)
    (pa : partialDeriv 0 f₁ r = a r) (pb : partialDeriv 1 f₁ r = b r) (pc : partialDeriv 0 f₂ r = c r)
    (pd : partialDeriv 1 f₂ r = d r) : HasFDerivAt (newtonMap f₁ f₂ a b c d) (0 : (Fin 2 → ℝ) →L[ℝ] (Fin 2 → ℝ)) r := by
  have hdet : DifferentiableAt ℝ (fun q => a q * d q - c q * b q) r := (ha.mul hd).sub (hc.mul hb)
  have hi : HasFDerivAt (fun q => (a q * d q - c q * b q)⁻¹) _ r := (hdet.inv hj).hasFDerivAt
  rw [hasFDerivAt_pi']
  intro i
  fin_cases i
  · have hu := ((h₁.hasFDerivAt.mul hd.hasFDerivAt).sub (hb.hasFDerivAt.mul h₂.hasFDerivAt)).mul hi
    refine HasFDerivAt.congr_fderiv ((hasFDerivAt_apply (𝕜 := ℝ) (0 : Fin 2) r).sub hu) ?_
    refine ContinuousLinearMap.ext fun v => ?_
    simp [fderiv_two h₁, fderiv_two h₂, e₁, e₂, pa, pb, pc, pd]
    field_simp
    ring
  · have hu := ((ha.hasFDerivAt.mul h₂.hasFDerivAt).sub (h₁.hasFDerivAt.mul hc.hasFDerivAt)).mul hi
    refine HasFDerivAt.congr_fderiv ((hasFDerivAt_apply (𝕜 := ℝ) (1 : Fin 2) r).sub hu) ?_
    refine ContinuousLinearMap.ext fun v => ?_
    simp [fderiv_two h₁, fderiv_two h₂, e₁, e₂, pa, pb, pc, pd]
    field_simp
    ring

end

/-- A map with vanishing derivative at a fixed point contracts quadratically near it. -/
theorem quadratic {N : (Fin 2 → ℝ) → Fin 2 → ℝ} {r : Fin 2 → ℝ} (hN : ContDiffAt ℝ 2 N r) (hf : N r = r)
    (h0 : fderiv ℝ N r = 0) : ∃ K : ℝ, ∀ᶠ q in 𝓝 r, ‖N q - r‖ ≤ K * ‖q - r‖ ^ 2 := by
  obtain ⟨K, t, ht, hl⟩ := (hN.fderiv_right (m := 1) (by norm_num)).exists_lipschitzOnWith
  have hd : ∀ᶠ q in 𝓝 r, DifferentiableAt ℝ N q :=
    (hN.eventually (by simp)).mono fun q h => h.differentiableAt (by simp)
  obtain ⟨ε, hε, hb⟩ := Metric.nhds_basis_ball.mem_iff.1 (inter_mem ht hd)
  refine ⟨K, Metric.nhds_basis_ball.mem_iff.2 ⟨ε, hε, fun q hq => ?_⟩⟩
  have hsub : Metric.closedBall r ‖q - r‖ ⊆ Metric.ball r ε := fun x hx => by
    rw [Metric.mem_ball, dist_eq_norm] at *
    rw [Metric.mem_closedBall, dist_eq_norm] at hx
    exact hx.trans_lt hq
  have key := (convex_closedBall r ‖q - r‖).norm_image_sub_le_of_norm_fderiv_le (𝕜 := ℝ) (f := N) (C := K * ‖q - r‖)
    (x := r) (y := q)
    (fun x hx => (hb (hsub hx)).2) (fun x hx => by
      have h := hl.dist_le_mul x (hb (hsub hx)).1 r (mem_of_mem_nhds ht)
      rw [h0, dist_zero_right] at h
      refine h.trans (mul_le_mul_of_nonneg_left ?_ K.2)
      exact hx) (by simp) (by simp [dist_eq_norm])
  rw [hf] at key
  calc ‖N q - r‖ ≤ K * ‖q - r‖ * ‖q - r‖ := key
    _ = K * ‖q - r‖ ^ 2 := by ring

variable {o : Order XReal} {q q₁ q₂ : Equation XReal} {p r : Fin 2 → ℝ}

theorem Spec.RegularEq.reg (h : RegularEq o p q) : Reg p (residualExpr q) :=
  ⟨(regularAt_iff (h _ (by simp)).1 o).1 (h _ (by simp)).2, (regularAt_iff (h _ (by simp)).1 o).1 (h _ (by simp)).2,
    trivial⟩

theorem gap_reg (h : Reg p (residualExpr q)) : gap q p = rv p (residualExpr q) := by
  have h' : Reg p q.lhs ∧ Reg p q.rhs ∧ True := h
  simp [gap, denotes_reg h'.1, denotes_reg h'.2.1, residualExpr, rv, opR]

theorem gap_eventually (h : Reg p (residualExpr q)) : gap q =ᶠ[𝓝 p] fun x => rv x (residualExpr q) :=
  h.eventually.mono fun _ => gap_reg

/-- The derivative of an equation's residual. -/
theorem residual_diff (h : Reg p (residualExpr q)) (i : Fin 2) : ∃ e, diff (.var i.1) (residualExpr q) = .ok e ∧
    Reg p e ∧ ∀ x, Reg x (residualExpr q) → Reg x e ∧ partialDeriv i (gap q) x = rv x e := by
  obtain ⟨e, he, -⟩ := Props.C11_derivative _ i.1 h.smooth
  refine ⟨e, he, h.diff he, fun x hx => ⟨hx.diff he, ?_⟩⟩
  rw [(partialDeriv_congr i (gap_eventually hx)).eq_of_nhds]
  exact (hx.hasDerivAt he).deriv

theorem goesOn_some (r : ℝ) : goesOn (some r : XReal) = (decide (1 / 10 ^ 10 < r) && decide (r < 10 ^ 10)) := by
  have h : (Num.lit (10 ^ 10) : XReal) = some (10 ^ 10) := by norm_num [Num.lit]
  simp only [goesOn, h]; rfl

theorem xsub (x y : ℝ) : (Num.sub (some x) (some y) : XReal) = some (x - y) := rfl
theorem xmul (x y : ℝ) : (Num.mul (some x) (some y) : XReal) = some (x * y) := rfl
theorem xadd (x y : ℝ) : (Num.add (some x) (some y) : XReal) = some (x + y) := rfl
theorem xdiv {x y : ℝ} (h : y ≠ 0) : (Num.div (some x) (some y) : XReal) = some (x / y) := by
  simp [Num.div, XReal.div, h]
theorem xdiv_zero (x : ℝ) : (Num.div (some x) (some 0) : XReal) = none := by
  simp [Num.div, XReal.div]
theorem xsub_none (x : XReal) : (Num.sub x none : XReal) = none := by
  cases x <;> rfl
theorem xsqrt {x : ℝ} (h : 0 ≤ x) : (Num.fn .sqrt (some x) : XReal) = some √x := by
  simp [Num.fn, XReal.fn, not_lt.2 h]

/-- The Newton map of the system. -/
noncomputable def newtonOf (q₁ q₂ : Equation XReal) : (Fin 2 → ℝ) → Fin 2 → ℝ :=
  newtonMap (gap q₁) (gap q₂) (partialDeriv 0 (gap q₁)) (partialDeriv 1 (gap q₁)) (partialDeriv 0 (gap q₂))
    (partialDeriv 1 (gap q₂))

theorem realPoint_two (p : Fin 2 → ℝ) : realPoint p = [some (p 0), some (p 1)] := by
  simp [realPoint, List.ofFn_succ]

theorem step_ok (h₁ : Reg p (residualExpr q₁)) (h₂ : Reg p (residualExpr q₂)) (hj : jacobian q₁ q₂ p ≠ 0) :
    newtonStep o q₁ q₂ (realPoint p) = .ok (realPoint (newtonOf q₁ q₂ p)) := by
  obtain ⟨a, ea, ra, va⟩ := residual_diff h₁ 0
  obtain ⟨b, eb, rb, vb⟩ := residual_diff h₁ 1
  obtain ⟨c, ec, rc, vc⟩ := residual_diff h₂ 0
  obtain ⟨d, ed, rd, vd⟩ := residual_diff h₂ 1
  simp only [Fin.val_zero, Fin.val_one] at ea eb ec ed
  have va := (va p h₁).2
  have vb := (vb p h₁).2
  have vc := (vc p h₂).2
  have vd := (vd p h₂).2
  unfold jacobian at hj
  rw [va, vb, vc, vd] at hj
  rw [newtonStep, h₁.eval, h₂.eval]
  simp only [ea, eb, ec, ed, Res.bind, ra.eval, rb.eval, rc.eval, rd.eval, xmul, xsub, xdiv hj]
  simp only [coordAt, realPoint_two, List.getElem?_cons_zero, List.getElem?_cons_succ, xsub]
  simp [newtonOf, newtonMap, va, vb, vc, vd, gap_reg h₁, gap_reg h₂]

theorem step_singular (h₁ : Reg p (residualExpr q₁)) (h₂ : Reg p (residualExpr q₂)) (hj : jacobian q₁ q₂ p = 0) :
    newtonStep o q₁ q₂ (realPoint p) = .ok [none, none] := by
  obtain ⟨a, ea, ra, va⟩ := residual_diff h₁ 0
  obtain ⟨b, eb, rb, vb⟩ := residual_diff h₁ 1
  obtain ⟨c, ec, rc, vc⟩ := residual_diff h₂ 0
  obtain ⟨d, ed, rd, vd⟩ := residual_diff h₂ 1
  simp only [Fin.val_zero, Fin.val_one] at ea eb ec ed
  unfold jacobian at hj
  rw [(va p h₁).2, (vb p h₁).2, (vc p h₂).2, (vd p h₂).2] at hj
  rw [newtonStep, h₁.eval, h₂.eval]
  simp only [ea, eb, ec, ed, Res.bind, ra.eval, rb.eval, rc.eval, rd.eval, xmul, xsub, hj, xdiv_zero, xsub_none]
  simp [coordAt, realPoint_two]

theorem newtonOf_linear (hj : jacobian q₁ q₂ p ≠ 0) : SolvesLinearised q₁ q₂ p (newtonOf q₁ q₂ p) := by
  unfold jacobian at hj
  intro q hq
  simp only [List.mem_cons, List.not_mem_nil, or_false] at hq
  obtain rfl | rfl := hq
  all_goals
    simp only [newtonOf, newtonMap, Matrix.cons_val_zero, Matrix.cons_val_one]
    generalize hD : partialDeriv 0 _ p * partialDeriv 1 _ p - partialDeriv 0 _ p * partialDeriv 1 _ p = D at hj ⊢
    field_simp
    rw [← hD]
    ring

/-- Near a solution with nonzero Jacobian determinant the Newton map contracts quadratically. -/
theorem newtonOf_quadratic (h₁ : Reg r (residualExpr q₁)) (h₂ : Reg r (residualExpr q₂))
    (hr : gap q₁ r = 0 ∧ gap q₂ r = 0) (hj : jacobian q₁ q₂ r ≠ 0) :
    ∃ K : ℝ, ∀ᶠ q in 𝓝 r, ‖newtonOf q₁ q₂ q - r‖ ≤ K * ‖q - r‖ ^ 2 := by
  have c₁ : ContDiffAt ℝ ((⊤ : ℕ∞) : WithTop ℕ∞) (gap q₁) r := h₁.contDiffAt.congr_of_eventuallyEq (gap_eventually h₁)
  have c₂ : ContDiffAt ℝ ((⊤ : ℕ∞) : WithTop ℕ∞) (gap q₂) r := h₂.contDiffAt.congr_of_eventuallyEq (gap_eventually h₂)
  have two : (2 : WithTop ℕ∞) ≤ ((⊤ : ℕ∞) : WithTop ℕ∞) := WithTop.coe_le_coe.2 (le_top : (2 : ℕ∞) ≤ ⊤)
  have ca := partialDeriv_contDiffAt 0 c₁
  have cb := partialDeriv_contDiffAt 1 c₁
  have cc := partialDeriv_contDiffAt 0 c₂
  have cd := partialDeriv_contDiffAt 1 c₂
  refine quadratic (newtonMap_contDiffAt (c₁.of_le two) (c₂.of_le two) (ca.of_le two) (cb.of_le two) (cc.of_le two)
    (cd.of_le two) hj) (newtonMap_root hr.1 hr.2) (HasFDerivAt.fderiv ?_)
  have hd : ∀ {f : (Fin 2 → ℝ) → ℝ}, ContDiffAt ℝ ((⊤ : ℕ∞) : WithTop ℕ∞) f r → DifferentiableAt ℝ f r :=
    fun h => h.differentiableAt (by simp)
  exact newtonMap_fderiv (hd c₁) (hd c₂) (hd ca) (hd cb) (hd cc) (hd cd) hj hr.1 hr.2 rfl rfl rfl rfl

theorem norm_ok (h₁ : Reg p (residualExpr q₁)) (h₂ : Reg p (residualExpr q₂)) :
    newtonNorm o q₁ q₂ (realPoint p) = .ok (some (defect q₁ q₂ p)) := by
  rw [newtonNorm, h₁.eval, h₂.eval]
  simp only [Res.bind, xmul, xadd]
  rw [xsqrt (add_nonneg (mul_self_nonneg _) (mul_self_nonneg _)), defect, gap_reg h₁, gap_reg h₂, pow_two, pow_two]

/-- What is needed near the solution. -/
theorem near_root (h₁ : Reg r (residualExpr q₁)) (h₂ : Reg r (residualExpr q₂))
    (hr : gap q₁ r = 0 ∧ gap q₂ r = 0) (hj : jacobian q₁ q₂ r ≠ 0) :
    ∃ K δ : ℝ, 0 < δ ∧ ∀ p, ‖p - r‖ < δ →
      Reg p (residualExpr q₁) ∧ Reg p (residualExpr q₂) ∧ jacobian q₁ q₂ p ≠ 0 ∧
      ‖newtonOf q₁ q₂ p - r‖ ≤ K * ‖p - r‖ ^ 2 ∧ ‖newtonOf q₁ q₂ p - r‖ ≤ ‖p - r‖ / 2 ∧
      defect q₁ q₂ p < 10 ^ 10 := by
  obtain ⟨K, hK⟩ := newtonOf_quadratic h₁ h₂ hr hj
  have c₁ : ContDiffAt ℝ ((⊤ : ℕ∞) : WithTop ℕ∞) (gap q₁) r := h₁.contDiffAt.congr_of_eventuallyEq (gap_eventually h₁)
  have c₂ : ContDiffAt ℝ ((⊤ : ℕ∞) : WithTop ℕ∞) (gap q₂) r := h₂.contDiffAt.congr_of_eventuallyEq (gap_eventually h₂)
  have cj : ContinuousAt (jacobian q₁ q₂) r :=
    ((partialDeriv_contDiffAt 0 c₁).continuousAt.mul (partialDeriv_contDiffAt 1 c₂).continuousAt).sub
      ((partialDeriv_contDiffAt 0 c₂).continuousAt.mul (partialDeriv_contDiffAt 1 c₁).continuousAt)
  have hd : ContinuousAt (defect q₁ q₂) r :=
    ((c₁.continuousAt.pow 2).add (c₂.continuousAt.pow 2)).sqrt
  have d0 : defect q₁ q₂ r = 0 := by simp [defect, hr.1, hr.2]
  have hlt : ∀ᶠ p in 𝓝 r, defect q₁ q₂ p < 10 ^ 10 := hd.eventually_lt_const (by rw [d0]; positivity)
  have hall := h₁.eventually.and (h₂.eventually.and ((cj.eventually_ne hj).and (hK.and hlt)))
  obtain ⟨ε, hε, hb⟩ := Metric.nhds_basis_ball.mem_iff.1 hall
  refine ⟨K, min ε (1 / (2 * (|K| + 1))), lt_min hε (by positivity), fun p hp => ?_⟩
  obtain ⟨b₁, b₂, b₃, b₄, b₅⟩ := hb (show p ∈ Metric.ball r ε by
    rw [Metric.mem_ball, dist_eq_norm]; exact hp.trans_le (min_le_left _ _))
  refine ⟨b₁, b₂, b₃, b₄, b₄.trans ?_, b₅⟩
  have h2 : ‖p - r‖ ≤ 1 / (2 * (|K| + 1)) := hp.le.trans (min_le_right _ _)
  rw [le_div_iff₀ (by positivity)] at h2
  have h3 := le_abs_self K
  have h4 := norm_nonneg (p - r)
  nlinarith [mul_nonneg h4 h4, abs_nonneg K, mul_le_mul_of_nonneg_right h3 (mul_nonneg h4 h4)]

theorem goesOn_one : goesOn (Num.lit 1 : XReal) = true := by
  rw [show (Num.lit 1 : XReal) = some 1 by simp [Num.lit], goesOn_some]
  simp only [Bool.and_eq_true, decide_eq_true_eq]; norm_num

/-- The loop ends. -/
theorem loop_ends (h₁ : Reg r (residualExpr q₁)) (h₂ : Reg r (residualExpr q₂))
    (hr : gap q₁ r = 0 ∧ gap q₂ r = 0) {δ : ℝ} (hδ : 0 < δ)
    (hn : ∀ p, ‖p - r‖ < δ →
      Reg p (residualExpr q₁) ∧ Reg p (residualExpr q₂) ∧ jacobian q₁ q₂ p ≠ 0 ∧
      ‖newtonOf q₁ q₂ p - r‖ ≤ ‖p - r‖ / 2 ∧ defect q₁ q₂ p < 10 ^ 10) :
    ∀ p, ‖p - r‖ < δ → ∀ x, goesOn x = true → ∃ fuel p', newtonLoop o q₁ q₂ fuel x (realPoint p) = some (.ok (realPoint p')) ∧
      defect q₁ q₂ p' ≤ 1 / 10 ^ 10 ∧ ‖p' - r‖ ≤ ‖p - r‖ / 2 := by
  have hd : ContinuousAt (defect q₁ q₂) r :=
    (((h₁.contDiffAt (m := 1)).congr_of_eventuallyEq (gap_eventually h₁)).continuousAt.pow 2).add
      ((((h₂.contDiffAt (m := 1)).congr_of_eventuallyEq (gap_eventually h₂)).continuousAt.pow 2)) |>.sqrt
  have d0 : defect q₁ q₂ r = 0 := by simp [defect, hr.1, hr.2]
  obtain ⟨η, hη, hsmall⟩ := Metric.nhds_basis_ball.mem_iff.1
    (hd.eventually_lt_const (u := 1 / 10 ^ 10) (by rw [d0]; positivity))
  have main : ∀ n : ℕ, ∀ p, ‖p - r‖ < δ → ‖p - r‖ < η * 2 ^ n → ∀ x, goesOn x = true → ∃ fuel p',
      newtonLoop o q₁ q₂ fuel x (realPoint p) = some (.ok (realPoint p')) ∧ defect q₁ q₂ p' ≤ 1 / 10 ^ 10 ∧
      ‖p' - r‖ ≤ ‖p - r‖ / 2 := by
    intro n
    induction n with
    | zero =>
      intro p hp hpn x hx
      obtain ⟨b₁, b₂, b₃, b₄, -⟩ := hn p hp
      have hp' : ‖newtonOf q₁ q₂ p - r‖ < δ := by linarith [norm_nonneg (p - r)]
      obtain ⟨g₁, g₂, -, -, -⟩ := hn _ hp'
      have hs : defect q₁ q₂ (newtonOf q₁ q₂ p) < 1 / 10 ^ 10 := hsmall (by
        rw [Metric.mem_ball, dist_eq_norm]
        rw [pow_zero, mul_one] at hpn
        linarith [norm_nonneg (p - r)])
      refine ⟨2, newtonOf q₁ q₂ p, ?_, hs.le, b₄⟩
      have hg : goesOn (some (defect q₁ q₂ (newtonOf q₁ q₂ p))) = false := by
        simp only [goesOn_some, Bool.and_eq_false_iff, decide_eq_false_iff_not]; exact .inl (not_lt.2 hs.le)
      simp [newtonLoop, hx, step_ok b₁ b₂ b₃, norm_ok g₁ g₂, hg]
    | succ n ih =>
      intro p hp hpn x hx
      obtain ⟨b₁, b₂, b₃, b₄, -⟩ := hn p hp
      have hp' : ‖newtonOf q₁ q₂ p - r‖ < δ := by linarith [norm_nonneg (p - r)]
      obtain ⟨g₁, g₂, -, -, g₅⟩ := hn _ hp'
      by_cases hg : goesOn (some (defect q₁ q₂ (newtonOf q₁ q₂ p))) = true
      · obtain ⟨fuel, p', e, d, c⟩ := ih _ hp' (by rw [pow_succ] at hpn; linarith) _ hg
        refine ⟨fuel + 1, p', ?_, d, by linarith [norm_nonneg (p - r)]⟩
        rw [newtonLoop, if_pos hx, step_ok b₁ b₂ b₃]
        simp only [norm_ok g₁ g₂]
        exact e
      · refine ⟨2, newtonOf q₁ q₂ p, ?_, ?_, b₄⟩
        · simp [newtonLoop, hx, step_ok b₁ b₂ b₃, norm_ok g₁ g₂, hg]
        · simpa [goesOn_some, g₅] using hg
  intro p hp
  obtain ⟨n, hn'⟩ := pow_unbounded_of_one_lt (‖p - r‖ / η) (one_lt_two)
  exact main n p hp (by rw [div_lt_iff₀ hη] at hn'; linarith)

/-- What the loop returns was left with a norm that stops it. -/
theorem loop_result (fuel : ℕ) : ∀ (x : XReal) (g y : List XReal), goesOn x = true →
    newtonLoop o q₁ q₂ fuel x g = some (.ok y) →
    ∃ v, newtonNorm o q₁ q₂ y = .ok v ∧ goesOn v = false ∧ y.length = 2 := by
  induction fuel with
  | zero => intro x g y _ h; simp [newtonLoop] at h
  | succ fuel ih =>
    intro x g y hx h
    rw [newtonLoop, if_pos hx] at h
    cases hs : newtonStep o q₁ q₂ g with
    | throw e => simp [hs] at h
    | ub => simp [hs] at h
    | ok x' =>
      simp only [hs] at h
      cases hv : newtonNorm o q₁ q₂ x' with
      | throw e => simp [hv] at h
      | ub => simp [hv] at h
      | ok v =>
        simp only [hv] at h
        by_cases hg : goesOn v = true
        · exact ih _ _ _ hg h
        · cases fuel with
          | zero => simp [newtonLoop] at h
          | succ fuel =>
            rw [newtonLoop, if_neg hg] at h
            simp only [Option.some.injEq, Res.ok.injEq] at h
            subst h
            refine ⟨v, hv, by simpa using hg, ?_⟩
            simp only [newtonStep, Res.bind_eq_ok] at hs
            obtain ⟨_, -, _, -, _, -, _, -, _, -, _, -, _, -, _, -, _, -, _, -, _, -, _, -, hs⟩ := hs
            cases hs; rfl

end VM
