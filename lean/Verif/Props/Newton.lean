import Verif.Rt.NewtonLemmas
/-
C65: the Newton solver for two equations.
-/
namespace VM.Props
open Spec

variable {o : Order XReal} {q₁ q₂ : Equation XReal} {p r : Fin 2 → ℝ}

/-- **C65** At a point where the sides of both equations are defined and smooth and the Jacobian determinant
is not zero, one step of the solver solves the system linearised there. -/
theorem C65_step (h₁ : RegularEq o p q₁) (h₂ : RegularEq o p q₂) (hj : jacobian q₁ q₂ p ≠ 0) :
    ∃ p', newtonStep o q₁ q₂ (realPoint p) = .ok (realPoint p') ∧ SolvesLinearised q₁ q₂ p p' :=
  ⟨_, step_ok h₁.reg h₂.reg hj, newtonOf_linear hj⟩

/-- **C65** If the Jacobian determinant is zero, the step gives two undefined coordinates. -/
theorem C65_singular (h₁ : RegularEq o p q₁) (h₂ : RegularEq o p q₂) (hj : jacobian q₁ q₂ p = 0) :
    newtonStep o q₁ q₂ (realPoint p) = .ok [none, none] :=
  step_singular h₁.reg h₂.reg hj

/-- **C65** Near a solution with nonzero Jacobian determinant the error after a step is at most a constant
times the square of the error before. -/
theorem C65_quadratic (h₁ : RegularEq o r q₁) (h₂ : RegularEq o r q₂) (hr : IsRoot q₁ q₂ r)
    (hj : jacobian q₁ q₂ r ≠ 0) :
    ∃ C δ : ℝ, 0 < δ ∧ ∀ p : Fin 2 → ℝ, ‖p - r‖ < δ →
      ∃ p', newtonStep o q₁ q₂ (realPoint p) = .ok (realPoint p') ∧ ‖p' - r‖ ≤ C * ‖p - r‖ ^ 2 := by
  obtain ⟨K, δ, hδ, h⟩ := near_root h₁.reg h₂.reg ⟨sub_eq_zero.2 hr.1, sub_eq_zero.2 hr.2⟩ hj
  refine ⟨K, δ, hδ, fun p hp => ?_⟩
  obtain ⟨g₁, g₂, g₃, g₄, -⟩ := h p hp
  exact ⟨_, step_ok g₁ g₂ g₃, g₄⟩

/-- **C65** From a guess near enough to such a solution the solver returns, the returned point is at least twice
as near to the solution as the guess, and the sides of the equations differ there by at most `1e-10`. -/
theorem C65_converges (h₁ : RegularEq o r q₁) (h₂ : RegularEq o r q₂) (hr : IsRoot q₁ q₂ r)
    (hj : jacobian q₁ q₂ r ≠ 0) :
    ∃ δ : ℝ, 0 < δ ∧ ∀ p : Fin 2 → ℝ, ‖p - r‖ < δ →
      ∃ p', NewtonReturns o q₁ q₂ (realPoint p) (.ok (realPoint p')) ∧ ‖p' - r‖ ≤ ‖p - r‖ / 2 ∧
        defect q₁ q₂ p' ≤ 1 / 10 ^ 10 := by
  have h0 : gap q₁ r = 0 ∧ gap q₂ r = 0 := ⟨sub_eq_zero.2 hr.1, sub_eq_zero.2 hr.2⟩
  obtain ⟨K, δ, hδ, h⟩ := near_root h₁.reg h₂.reg h0 hj
  refine ⟨δ, hδ, fun p hp => ?_⟩
  obtain ⟨fuel, p', e, d, c⟩ := loop_ends (o := o) h₁.reg h₂.reg h0 hδ
    (fun p hp => ⟨(h p hp).1, (h p hp).2.1, (h p hp).2.2.1, (h p hp).2.2.2.2⟩) p hp _ goesOn_one
  exact ⟨p', ⟨fuel, e⟩, c, d⟩

/-- **C65** Whatever the guess: a returned point has two coordinates, and if they and the sides of the equations
there are numbers, the sides differ by at most `1e-10` or by at least `1e10`. -/
theorem C65_result {guess x : List XReal} (h : NewtonReturns o q₁ q₂ guess (.ok x)) :
    x.length = 2 ∧ ∀ (l₁ r₁ l₂ r₂ : ℝ), eval o x q₁.lhs = .ok (some l₁) → eval o x q₁.rhs = .ok (some r₁) →
      eval o x q₂.lhs = .ok (some l₂) → eval o x q₂.rhs = .ok (some r₂) →
      √((l₁ - r₁) ^ 2 + (l₂ - r₂) ^ 2) ≤ 1 / 10 ^ 10 ∨ 10 ^ 10 ≤ √((l₁ - r₁) ^ 2 + (l₂ - r₂) ^ 2) := by
  obtain ⟨fuel, h⟩ := h
  obtain ⟨v, hv, hg, hl⟩ := loop_result fuel _ _ _ goesOn_one h
  refine ⟨hl, fun l₁ r₁ l₂ r₂ e₁ e₂ e₃ e₄ => ?_⟩
  have d₁ : eval o x (residualExpr q₁) = .ok (some (l₁ - r₁)) := by
    simp only [residualExpr, eval, e₁, e₂]
    cases o _ _ <;> rfl
  have d₂ : eval o x (residualExpr q₂) = .ok (some (l₂ - r₂)) := by
    simp only [residualExpr, eval, e₃, e₄]
    cases o _ _ <;> rfl
  rw [newtonNorm, d₁, d₂] at hv
  simp only [Res.bind, xmul, xadd] at hv
  rw [xsqrt (add_nonneg (mul_self_nonneg _) (mul_self_nonneg _))] at hv
  cases hv
  rw [← pow_two, ← pow_two] at hg
  simp only [goesOn_some, Bool.and_eq_false_iff, decide_eq_false_iff_not, not_lt] at hg
  exact hg

/-- **C65** With fewer than two coordinates in the guess there is no result. -/
theorem C65_short {guess x : List XReal} (hl : guess.length < 2) : ¬ NewtonReturns o q₁ q₂ guess (.ok x) := by
  rintro ⟨fuel, h⟩
  cases fuel with
  | zero => simp [newtonLoop] at h
  | succ fuel =>
    rw [newtonLoop, if_pos goesOn_one] at h
    cases hs : newtonStep o q₁ q₂ guess with
    | throw e => simp [hs] at h
    | ub => simp [hs] at h
    | ok y =>
      simp only [newtonStep, Res.bind_eq_ok] at hs
      obtain ⟨_, -, _, -, _, -, _, -, _, -, _, -, _, -, _, -, _, -, _, -, _, -, _, h1, -⟩ := hs
      rw [coordAt, List.getElem?_eq_none (by omega)] at h1
      cases h1

/-! The system of the tutorial: `x^2 + y = 3`, `x^4 - y^2 = 3` with the solution `(sqrt 2, 1)`. -/

/-- `make_equation(x*x + y, 3.0)` -/
noncomputable def tut₁ : Equation XReal :=
  ⟨.bin .plus (.bin .mult (.var 0) (.var 0)) (.var 1), .const (some 3)⟩

/-- `make_equation((x*x)*(x*x) - y*y, 3.0)` -/
noncomputable def tut₂ : Equation XReal :=
  ⟨.bin .minus (.bin .mult (.bin .mult (.var 0) (.var 0)) (.bin .mult (.var 0) (.var 0))) (.bin .mult (.var 1) (.var 1)),
    .const (some 3)⟩

theorem tut_reg (p : Fin 2 → ℝ) : Reg p tut₁.lhs ∧ Reg p tut₁.rhs ∧ Reg p tut₂.lhs ∧ Reg p tut₂.rhs := by
  simp [tut₁, tut₂, Reg, opOk]

theorem tut_regular (o : Order XReal) (p : Fin 2 → ℝ) : RegularEq o p tut₁ ∧ RegularEq o p tut₂ := by
  obtain ⟨h1, h2, h3, h4⟩ := tut_reg p
  have key : ∀ e, Reg p e → Smooth e ∧ RegularAt o p e := fun e h => ⟨h.smooth, (regularAt_iff h.smooth o).2 h⟩
  constructor <;> intro e he <;> simp only [List.mem_cons, List.not_mem_nil, or_false] at he <;>
    obtain rfl | rfl := he <;> exact key _ ‹_›

theorem tut_gap : gap tut₁ = (fun p => p 0 * p 0 + p 1 - 3) ∧
    gap tut₂ = fun p => p 0 * p 0 * (p 0 * p 0) - p 1 * p 1 - 3 := by
  constructor <;> funext p <;> obtain ⟨h1, h2, h3, h4⟩ := tut_reg p <;>
    simp [gap, denotes_reg, h1, h2, h3, h4] <;> simp [tut₁, tut₂, rv, opR]

theorem tut_jacobian (p : Fin 2 → ℝ) : jacobian tut₁ tut₂ p = 2 * p 0 * (-(2 * p 1)) - 4 * p 0 ^ 3 := by
  have e00 : partialDeriv 0 (gap tut₁) p = 2 * p 0 := by
    rw [tut_gap.1]; simp only [partialDeriv, Function.update_self, ne_eq, Fin.isValue, one_ne_zero, not_false_eq_true, Function.update_of_ne]
    exact ((((hasDerivAt_id (p 0)).mul (hasDerivAt_id (p 0))).add_const (p 1)).sub_const 3).deriv.trans (by simp; ring)
  have e01 : partialDeriv 1 (gap tut₁) p = 1 := by
    rw [tut_gap.1]; simp only [partialDeriv, Function.update_self, ne_eq, Fin.isValue, zero_ne_one, not_false_eq_true, Function.update_of_ne]
    exact (((hasDerivAt_id (p 1)).const_add (p 0 * p 0)).sub_const 3).deriv
  have e10 : partialDeriv 0 (gap tut₂) p = 4 * p 0 ^ 3 := by
    rw [tut_gap.2]; simp only [partialDeriv, Function.update_self, ne_eq, Fin.isValue, one_ne_zero, not_false_eq_true, Function.update_of_ne]
    have h := (hasDerivAt_id (p 0)).mul (hasDerivAt_id (p 0))
    exact (((h.mul h).sub_const (p 1 * p 1)).sub_const 3).deriv.trans (by simp; ring)
  have e11 : partialDeriv 1 (gap tut₂) p = -(2 * p 1) := by
    rw [tut_gap.2]; simp only [partialDeriv, Function.update_self, ne_eq, Fin.isValue, zero_ne_one, not_false_eq_true, Function.update_of_ne]
    exact ((((hasDerivAt_id (p 1)).mul (hasDerivAt_id (p 1))).const_sub (p 0 * p 0 * (p 0 * p 0))).sub_const 3).deriv.trans
      (by simp; ring)
  rw [jacobian, e00, e01, e10, e11]; ring

/-- The hypotheses of `C65_converges` hold for the tutorial's system at its solution. -/
example (o : Order XReal) : ∃ δ : ℝ, 0 < δ ∧ ∀ p : Fin 2 → ℝ, ‖p - ![√2, 1]‖ < δ →
      ∃ p', NewtonReturns o tut₁ tut₂ (realPoint p) (.ok (realPoint p')) ∧ ‖p' - ![√2, 1]‖ ≤ ‖p - ![√2, 1]‖ / 2 ∧
        defect tut₁ tut₂ p' ≤ 1 / 10 ^ 10 := by
  have s2 : √2 * √2 = (2 : ℝ) := Real.mul_self_sqrt (by norm_num)
  refine C65_converges (tut_regular o _).1 (tut_regular o _).2 ?_ ?_
  · obtain ⟨h1, h2, h3, h4⟩ := tut_reg ![√2, 1]
    rw [IsRoot, denotes_reg h1, denotes_reg h2, denotes_reg h3, denotes_reg h4]
    simp [tut₁, tut₂, rv, opR, s2]; norm_num
  · rw [tut_jacobian]
    have : (0 : ℝ) < √2 := by positivity
    simp only [Matrix.cons_val_zero, Matrix.cons_val_one]
    nlinarith [pow_pos this 3]

/-- The first step of the tutorial, from `(1, 2)`, is regular; from `(0, 0)` it is not. -/
example : jacobian tut₁ tut₂ ![1, 2] = -12 ∧ jacobian tut₁ tut₂ ![0, 0] = 0 := by
  constructor <;> rw [tut_jacobian] <;> norm_num

/-! A solution exists, and the solver still fails. -/

/-- `make_equation(x*x, c)` -/
noncomputable def sq₁ (c : ℝ) : Equation XReal := ⟨.bin .mult (.var 0) (.var 0), .const (some c)⟩

/-- `make_equation(y, 0.0)` -/
noncomputable def sq₂ : Equation XReal := ⟨.var 1, .const (some 0)⟩

theorem sq_reg (c : ℝ) (p : Fin 2 → ℝ) : Reg p (sq₁ c).lhs ∧ Reg p (sq₁ c).rhs ∧ Reg p sq₂.lhs ∧ Reg p sq₂.rhs := by
  simp [sq₁, sq₂, Reg, opOk]

theorem sq_regular (o : Order XReal) (c : ℝ) (p : Fin 2 → ℝ) : RegularEq o p (sq₁ c) ∧ RegularEq o p sq₂ := by
  obtain ⟨h1, h2, h3, h4⟩ := sq_reg c p
  have key : ∀ e, Reg p e → Smooth e ∧ RegularAt o p e := fun e h => ⟨h.smooth, (regularAt_iff h.smooth o).2 h⟩
  constructor <;> intro e he <;> simp only [List.mem_cons, List.not_mem_nil, or_false] at he <;>
    obtain rfl | rfl := he <;> exact key _ ‹_›

theorem sq_gap (c : ℝ) : gap (sq₁ c) = (fun p => p 0 * p 0 - c) ∧ gap sq₂ = fun p => p 1 := by
  constructor <;> funext p <;> obtain ⟨h1, h2, h3, h4⟩ := sq_reg c p <;>
    simp [gap, denotes_reg, h1, h2, h3, h4] <;> simp [sq₁, sq₂, rv, opR]

theorem sq_partials (c : ℝ) (p : Fin 2 → ℝ) : partialDeriv 0 (gap (sq₁ c)) p = 2 * p 0 ∧
    partialDeriv 1 (gap (sq₁ c)) p = 0 ∧ partialDeriv 0 (gap sq₂) p = 0 ∧ partialDeriv 1 (gap sq₂) p = 1 := by
  refine ⟨?_, ?_, ?_, ?_⟩
  · rw [(sq_gap c).1]; simp only [partialDeriv, Function.update_self]
    exact (((hasDerivAt_id (p 0)).mul (hasDerivAt_id (p 0))).sub_const c).deriv.trans (by simp; ring)
  · rw [(sq_gap c).1]; simp [partialDeriv]
  · rw [(sq_gap c).2]; simp [partialDeriv]
  · rw [(sq_gap c).2]; simp [partialDeriv]

/-- **C65** The guess `(0, 0)` solves `x^2 = 0`, `y = 0`, and the solver returns two undefined coordinates. -/
theorem C65_loses_solution (o : Order XReal) : IsRoot (sq₁ 0) sq₂ ![0, 0] ∧
    NewtonReturns o (sq₁ 0) sq₂ (realPoint ![0, 0]) (.ok [none, none]) := by
  constructor
  · obtain ⟨h1, h2⟩ := sq_gap 0
    exact ⟨sub_eq_zero.1 ((congrFun h1 _).trans (by simp)), sub_eq_zero.1 ((congrFun h2 _).trans (by simp))⟩
  · obtain ⟨p1, p2, p3, p4⟩ := sq_partials 0 ![0, 0]
    have hs := C65_singular (o := o) (sq_regular o 0 ![0, 0]).1 (sq_regular o 0 ![0, 0]).2 (by simp [jacobian, p1, p2, p3, p4])
    have hn : newtonNorm o (sq₁ 0) sq₂ [none, none] = .ok none := by
      simp only [newtonNorm, residualExpr, sq₁, sq₂, eval]
      cases o _ _ <;> cases o _ _ <;> cases o _ _ <;> rfl
    refine ⟨2, ?_⟩
    rw [newtonLoop, if_pos goesOn_one, hs]
    simp only [hn]
    rfl

/-- **C65** From the guess `(1e-6, 0)` the solver returns for `x^2 = 1`, `y = 0` a point whose first coordinate is
above 400000. -/
theorem C65_gives_up (o : Order XReal) : IsRoot (sq₁ 1) sq₂ ![1, 0] ∧
    ∃ p' : Fin 2 → ℝ, NewtonReturns o (sq₁ 1) sq₂ (realPoint ![1 / 10 ^ 6, 0]) (.ok (realPoint p')) ∧ 400000 < p' 0 := by
  constructor
  · obtain ⟨h1, h2⟩ := sq_gap 1
    exact ⟨sub_eq_zero.1 ((congrFun h1 _).trans (by simp)), sub_eq_zero.1 ((congrFun h2 _).trans (by simp))⟩
  · obtain ⟨p1, p2, p3, p4⟩ := sq_partials 1 ![1 / 10 ^ 6, 0]
    have hj : jacobian (sq₁ 1) sq₂ ![1 / 10 ^ 6, 0] ≠ 0 := by rw [jacobian, p1, p2, p3, p4]; norm_num
    have hreg := sq_regular o 1
    have hs := step_ok (o := o) (hreg ![1 / 10 ^ 6, 0]).1.reg (hreg ![1 / 10 ^ 6, 0]).2.reg hj
    have hx : newtonOf (sq₁ 1) sq₂ ![1 / 10 ^ 6, 0] = ![(1 / 10 ^ 6 + 10 ^ 6) / 2, 0] := by
      rw [newtonOf, newtonMap, p1, p2, p3, p4, (sq_gap 1).1, (sq_gap 1).2]
      norm_num
    rw [hx] at hs
    refine ⟨![(1 / 10 ^ 6 + 10 ^ 6) / 2, 0], ⟨2, ?_⟩, by norm_num⟩
    rw [newtonLoop, if_pos goesOn_one, hs]
    simp only [norm_ok (hreg _).1.reg (hreg _).2.reg]
    have hg : goesOn (some (defect (sq₁ 1) sq₂ ![(1 / 10 ^ 6 + 10 ^ 6) / 2, 0])) = false := by
      simp only [goesOn_some, Bool.and_eq_false_iff, decide_eq_false_iff_not, not_lt]
      right
      rw [defect, (sq_gap 1).1, (sq_gap 1).2]
      apply Real.le_sqrt_of_sq_le
      norm_num
    rw [newtonLoop, hg]
    rfl

/-- `make_equation(c, 1.0)` with a constant `c` of value 0 -/
noncomputable def absurdEq : Equation XReal := ⟨.const (some 0), .const (some 1)⟩

/-- **C65** For a system whose sides are different constants the solver does not return. -/
theorem C65_endless (o : Order XReal) (x y : XReal) (r : Res (List XReal)) :
    ¬ NewtonReturns o absurdEq absurdEq [x, y] r := by
  have he : ∀ v : List XReal, eval o v (residualExpr absurdEq) = .ok (some (-1)) := by
    intro v
    simp only [residualExpr, absurdEq, eval]
    cases o _ _ <;> simp [Res.both, Res.bind, applyB, Num.sub, XReal.lift2]
  have hd : ∀ i, diff (.var i) (residualExpr absurdEq) = .ok (.const (some 0)) := by
    intro i
    refine C13_zero_partial _ i (.bin (.inr (.inl rfl)) (.const _) (.const _)) ?_ o [] (-1) (he []) ?_
    · intro h; cases h with
      | binL h => cases h
      | binR h => cases h
    · intro s hs; cases hs with
      | binL h => cases h
      | binR h => cases h
  have hstep : ∀ x y : XReal, newtonStep o absurdEq absurdEq [x, y] = .ok [none, none] := by
    intro x y
    simp only [newtonStep, he, hd, Res.bind, eval, xmul, xsub, mul_zero, sub_zero, xdiv_zero, coordAt, xsub_none,
      List.getElem?_cons_zero, List.getElem?_cons_succ]
  have hnorm : ∀ v : List XReal, ∃ n, newtonNorm o absurdEq absurdEq v = .ok n ∧ goesOn n = true := by
    intro v
    refine ⟨some √2, ?_, ?_⟩
    · simp only [newtonNorm, he, Res.bind, xmul, xadd]
      rw [xsqrt (by norm_num)]; norm_num
    · have h1 : (1 : ℝ) ≤ √2 := Real.one_le_sqrt.2 (by norm_num)
      have h2 : √2 ≤ 2 := by rw [Real.sqrt_le_left (by norm_num)]; norm_num
      simp only [goesOn_some, Bool.and_eq_true, decide_eq_true_eq]
      exact ⟨lt_of_lt_of_le (by norm_num) h1, lt_of_le_of_lt h2 (by norm_num)⟩
  have main : ∀ fuel x y n, goesOn n = true → newtonLoop o absurdEq absurdEq fuel n [x, y] = none := by
    intro fuel
    induction fuel with
    | zero => intros; rfl
    | succ fuel ih =>
      intro x y n hn
      obtain ⟨m, h1, h2⟩ := hnorm [none, none]
      rw [newtonLoop, if_pos hn, hstep]
      simp only [h1]
      exact ih _ _ _ h2
  rintro ⟨fuel, h⟩
  rw [main fuel x y _ goesOn_one] at h
  cases h

end VM.Props
