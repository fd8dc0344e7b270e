import Verif.Rt.NewtonRounded
import Verif.Props.Newton
import Verif.Rt.VectorLemmas
/-
C71: the Newton solver for two equations with floating point numbers.
-/
namespace VM.Props
open Spec

variable {o : Order XReal} {q₁ q₂ : Equation XReal} {p r : Fin 2 → ℝ}

/-- C71.  At a point where the sides of both equations are defined and smooth and the Jacobian determinant is not zero,
one step of the solver, with floating point numbers near the exact ones, gives the solution of the linearised system
up to a constant times the accuracy of the arithmetic. -/
theorem C71_step (h₁ : RegularEq o p q₁) (h₂ : RegularEq o p q₂) (hj : jacobian q₁ q₂ p ≠ 0) (D : ℝ) :
    ∃ p', SolvesLinearised q₁ q₂ p p' ∧ ∃ C δ T : ℝ, 0 < δ ∧ ∀ R, Fine δ T R → ∀ k₁ k₂ w, NearEq D R q₁ k₁ →
      NearEq D R q₂ k₂ → NearVals D R (realPoint p) w →
      ∀ o', ∃ w', newtonStep o' k₁ k₂ w = .ok w' ∧ NearVals C R (realPoint p') w' :=
  ⟨_, newtonOf_linear hj, step_near h₁.reg h₂.reg hj D⟩

/-- C71.  Around every solution with nonzero Jacobian determinant there is a ball such that from every guess in it the
solver returns, if the arithmetic is fine enough.  The returned numbers are the coordinates of a point at which the
sides of the equations, computed exactly, differ by at most `1e-10`, and that is twice as near to the solution as the
guess, both up to any given tolerance. -/
theorem C71_converges (h₁ : RegularEq o r q₁) (h₂ : RegularEq o r q₂) (hr : IsRoot q₁ q₂ r)
    (hj : jacobian q₁ q₂ r ≠ 0) :
    ∃ ρ : ℝ, 0 < ρ ∧ ∀ p : Fin 2 → ℝ, ‖p - r‖ < ρ → ∀ D τ : ℝ, 0 < τ →
      ∃ δ T : ℝ, 0 < δ ∧ ∀ R, Fine δ T R → ∀ k₁ k₂ w, NearEq D R q₁ k₁ → NearEq D R q₂ k₂ →
        NearVals D R (realPoint p) w → ∀ o', ∃ w', NewtonReturns o' k₁ k₂ w (.ok w') ∧
          ∃ p' : Fin 2 → ℝ, w'.map Fl.val = realPoint p' ∧ ‖p' - r‖ ≤ ‖p - r‖ / 2 + τ ∧
            defect q₁ q₂ p' ≤ 1 / 10 ^ 10 + τ := by
  have h0 : gap q₁ r = 0 ∧ gap q₂ r = 0 := ⟨sub_eq_zero.2 hr.1, sub_eq_zero.2 hr.2⟩
  obtain ⟨K, ρ, hρ, h⟩ := near_root h₁.reg h₂.reg h0 hj
  refine ⟨ρ, hρ, fun p hp D τ hτ => ?_⟩
  refine ((loop_near h₁.reg h₂.reg h0 hρ
    (fun p hp => ⟨(h p hp).1, (h p hp).2.1, (h p hp).2.2.1, (h p hp).2.2.2.2⟩) p hp D τ hτ).and goesOn_one_near).mono ?_
  rintro R ⟨H, H1⟩ k₁ k₂ w n₁ n₂ hw o'
  obtain ⟨fuel, w', e, p', v⟩ := H k₁ k₂ w n₁ n₂ hw o' _ H1
  exact ⟨w', ⟨fuel, e⟩, p', v⟩

/-- A real number, rounded. -/
theorem near_round (k : Nat) (T c : ℝ) {D : ℝ} (h : |c| ≤ D) : NearNum D (chop k T) (some c) (Fl.of _ c) := by
  refine ⟨c, Chop.round k c, rfl, Fl.val_of c, (Chop.round_near (k := k)).trans ?_⟩
  change ((2 : ℝ) ^ k)⁻¹ * |c| ≤ D * ((2 : ℝ) ^ k)⁻¹
  rw [mul_comm]
  exact mul_le_mul_of_nonneg_right h (by positivity)

/-- The tutorial's system and a guess near its solution, with rounded numbers: the hypotheses are met. -/
example : ∃ ρ : ℝ, 0 < ρ ∧ ∀ p : Fin 2 → ℝ, ‖p - ![√2, 1]‖ < ρ → ∃ k T, ∃ k₁ k₂ : Equation (Fl (chop k T)), ∃ w w',
    NearEq (‖p‖ + 3) (chop k T) tut₁ k₁ ∧ NearEq (‖p‖ + 3) (chop k T) tut₂ k₂ ∧
    NearVals (‖p‖ + 3) (chop k T) (realPoint p) w ∧ NewtonReturns (fun _ _ => true) k₁ k₂ w (.ok w') := by
  have s2 : √2 * √2 = (2 : ℝ) := Real.mul_self_sqrt (by norm_num)
  have hroot : IsRoot tut₁ tut₂ ![√2, 1] := by
    obtain ⟨h1, h2, h3, h4⟩ := tut_reg ![√2, 1]
    rw [IsRoot, denotes_reg h1, denotes_reg h2, denotes_reg h3, denotes_reg h4]
    simp [tut₁, tut₂, rv, opR, s2]; norm_num
  have hjac : jacobian tut₁ tut₂ ![√2, 1] ≠ 0 := by
    rw [tut_jacobian]
    have : (0 : ℝ) < √2 := by positivity
    simp only [Matrix.cons_val_zero, Matrix.cons_val_one]
    nlinarith [pow_pos this 3]
  obtain ⟨ρ, hρ, H⟩ := C71_converges (tut_regular leftFirst _).1 (tut_regular leftFirst _).2 hroot hjac
  refine ⟨ρ, hρ, fun p hp => ?_⟩
  obtain ⟨δ, T, hδ, H⟩ := H p hp (‖p‖ + 3) 1 one_pos
  obtain ⟨k, hk⟩ := chop_fine δ T hδ
  have h3 : NearNum (‖p‖ + 3) (chop k T) (some 3) (Fl.of _ 3) := near_round k T 3 (by
    rw [abs_of_pos (by norm_num)]; linarith [norm_nonneg p])
  have P : IsArithOp .plus := .inl rfl
  have S : IsArithOp .minus := .inr (.inl rfl)
  have M : IsArithOp .mult := .inr (.inr (.inl rfl))
  let k₁ : Equation (Fl (chop k T)) := ⟨.bin .plus (.bin .mult (.var 0) (.var 0)) (.var 1), .const (Fl.of _ 3)⟩
  let k₂ : Equation (Fl (chop k T)) := ⟨.bin .minus (.bin .mult (.bin .mult (.var 0) (.var 0))
    (.bin .mult (.var 0) (.var 0))) (.bin .mult (.var 1) (.var 1)), .const (Fl.of _ 3)⟩
  have n₁ : NearEq (‖p‖ + 3) (chop k T) tut₁ k₁ := ⟨.bin P (.bin M (.var 0) (.var 0)) (.var 1), .const h3⟩
  have n₂ : NearEq (‖p‖ + 3) (chop k T) tut₂ k₂ := ⟨.bin S (.bin M (.bin M (.var 0) (.var 0)) (.bin M (.var 0) (.var 0)))
    (.bin M (.var 1) (.var 1)), .const h3⟩
  have hw : NearVals (‖p‖ + 3) (chop k T) (realPoint p) [Fl.of _ (p 0), Fl.of _ (p 1)] := by
    have hle : ∀ i, |p i| ≤ ‖p‖ + 3 := fun i => by
      have := norm_le_pi_norm p i
      rw [Real.norm_eq_abs] at this
      linarith
    rw [realPoint_two]
    exact .cons (near_round k T _ (hle 0)) (.cons (near_round k T _ (hle 1)) .nil)
  obtain ⟨w', h, -⟩ := H _ hk k₁ k₂ _ n₁ n₂ hw _
  exact ⟨k, T, k₁, k₂, _, w', n₁, n₂, hw, h⟩

/-! The accuracy that is needed depends on the system. -/

/-- `make_equation((x + b) - b, h)` -/
def swallow {K : Type} (b h : K) : Equation K := ⟨.bin .minus (.bin .plus (.var 0) (.const b)) (.const b), .const h⟩

/-- `make_equation(y, z)` -/
def flat {K : Type} (z : K) : Equation K := ⟨.var 1, .const z⟩

section
variable {k : Nat} {T : ℝ}

theorem chop_val (z : XReal) : (Fl.lift (chop k T) z).val = z.map (Chop.round k) := by
  cases z with
  | none => rfl
  | some x => exact Fl.val_of x

theorem chop_add (x y : Fl (chop k T)) : (Num.add x y).val = (Num.add x.val y.val : XReal).map (Chop.round k) := chop_val _
theorem chop_sub (x y : Fl (chop k T)) : (Num.sub x y).val = (Num.sub x.val y.val : XReal).map (Chop.round k) := chop_val _
theorem chop_mul (x y : Fl (chop k T)) : (Num.mul x y).val = (Num.mul x.val y.val : XReal).map (Chop.round k) := chop_val _
theorem chop_div (x y : Fl (chop k T)) : (Num.div x y).val = (Num.div x.val y.val : XReal).map (Chop.round k) := chop_val _

theorem round_two (j : ℤ) {c : ℝ} (h : c = 2 ^ j) : Chop.round k c = c := by
  rw [h]; exact Chop.round_self (Chop.mem_pow j)

theorem round_neg_two (j : ℤ) {c : ℝ} (h : c = -2 ^ j) : Chop.round k c = c := by
  rw [h]; exact Chop.round_self (Chop.mem_neg (Chop.mem_pow j))

/-- The residual of the first equation is `-1/2` at `1/2` and `1/2` at `1`, that of the second is 0. -/
theorem swallow_residual (o : Order (Fl (chop k T))) (x y : Fl (chop k T)) (hy : y.val = some 0) :
    (x.val = some (1 / 2) → ∃ z, eval o [x, y] (residualExpr (swallow (two k T k) (two k T (-1)))) = .ok z ∧
      z.val = some (-(1 / 2))) ∧
    (x.val = some 1 → ∃ z, eval o [x, y] (residualExpr (swallow (two k T k) (two k T (-1)))) = .ok z ∧
      z.val = some (1 / 2)) ∧
    ∃ z, eval o [x, y] (residualExpr (flat (Num.lit 0))) = .ok z ∧ z.val = some 0 := by
  have hb : (two k T k).val = some (2 ^ k) := by simp [two, Fl.val]
  have hh : (two k T (-1)).val = some (1 / 2) := by simp [two, Fl.val]
  have e1 : eval o [x, y] (residualExpr (swallow (two k T k) (two k T (-1)))) =
      .ok (Num.sub (Num.sub (Num.add x (two k T k)) (two k T k)) (two k T (-1))) := by
    refine eval_bin_ok (eval_bin_ok (eval_bin_ok (p := x) (q := two k T k) rfl rfl rfl) (q := two k T k) rfl rfl)
      (q := two k T (-1)) rfl rfl
  have e2 : eval o [x, y] (residualExpr (flat (Num.lit 0))) = .ok (Num.sub y (Num.lit 0)) :=
    eval_bin_ok (p := y) (q := Num.lit 0) rfl rfl rfl
  refine ⟨fun hx => ⟨_, e1, ?_⟩, fun hx => ⟨_, e1, ?_⟩, _, e2, ?_⟩
  · simp only [chop_sub, chop_add, hb, hh, hx, xadd, xsub, Option.map_some, Chop.round_half_add, sub_self,
      Chop.round_zero, zero_sub]
    rw [round_neg_two (-1) (by norm_num)]
  · simp only [chop_sub, chop_add, hb, hh, hx, xadd, xsub, Option.map_some, Chop.round_one_add_big, add_sub_cancel_right]
    rw [round_two (k := k) 0 (c := 1) (by norm_num), round_two (-1) (by norm_num)]; norm_num
  · simp only [chop_sub, hy, Fl.val_zero, xsub, Option.map_some, sub_self, Chop.round_zero]

/-- A derivative whose value, before it is simplified, is a number. -/
theorem diff_value {R : Rounding} {x : DVar} {e d : Expr (Fl R)} (hd : diffE x e = .ok d) (ha : Arith d) {c : ℝ}
    (hv : ∀ o w, ∃ z, eval o w d = .ok z ∧ z.val = some c) :
    ∃ d', diff x e = .ok d' ∧ ∀ o w, ∃ z, eval o w d' = .ok z ∧ z.val = some c := by
  obtain ⟨d', h⟩ := simplified_ok_arith ha
  refine ⟨d', by rw [diff, hd]; exact h, fun o w => ?_⟩
  obtain ⟨z, h1, h2⟩ := hv o w
  exact ⟨z, simplified_value h o w h1 (fun hb => by rw [show z.val = none from hb] at h2; cases h2), h2⟩

/-- The derivatives are 1, 0, 0 and 1. -/
theorem swallow_diff (i : Nat) :
    (∃ d, diff (.var i) (residualExpr (swallow (two k T k) (two k T (-1)))) = .ok d ∧
      ∀ o w, ∃ z, eval o w d = .ok z ∧ z.val = some (if i = 0 then 1 else 0)) ∧
    ∃ d, diff (.var i) (residualExpr (flat (Num.lit 0 : Fl (chop k T)))) = .ok d ∧
      ∀ o w, ∃ z, eval o w d = .ok z ∧ z.val = some (if i = 1 then 1 else 0) := by
  have P : IsArithOp .plus := .inl rfl
  have S : IsArithOp .minus := .inr (.inl rfl)
  have one : Chop.round k 1 = 1 := round_two 0 (by norm_num)
  constructor
  · refine diff_value rfl (.bin S (.bin S (.bin P (.const _) (.const _)) (.const _)) (.const _)) fun o w =>
      ⟨_, eval_bin_ok (eval_bin_ok (eval_bin_ok rfl rfl rfl) rfl rfl) rfl rfl, ?_⟩
    by_cases h : i = 0
    · subst h
      simp [chop_sub, chop_add, Fl.val_zero, Fl.val_one, xadd, xsub, one]
    · simp [chop_sub, chop_add, Fl.val_zero, xadd, xsub, Chop.round_zero, h]
  · refine diff_value rfl (.bin S (.const _) (.const _)) fun o w => ⟨_, eval_bin_ok rfl rfl rfl, ?_⟩
    by_cases h : i = 1
    · subst h
      simp [chop_sub, Fl.val_zero, Fl.val_one, xsub, one]
    · simp [chop_sub, Fl.val_zero, xsub, Chop.round_zero, h]

/-- A step leads from `1/2` to `1` and from `1` to `1/2`. -/
theorem swallow_step (o : Order (Fl (chop k T))) (x y : Fl (chop k T)) (hy : y.val = some 0) :
    (x.val = some (1 / 2) → ∃ x' y', newtonStep o (swallow (two k T k) (two k T (-1))) (flat (Num.lit 0)) [x, y] =
      .ok [x', y'] ∧ x'.val = some 1 ∧ y'.val = some 0) ∧
    (x.val = some 1 → ∃ x' y', newtonStep o (swallow (two k T k) (two k T (-1))) (flat (Num.lit 0)) [x, y] =
      .ok [x', y'] ∧ x'.val = some (1 / 2) ∧ y'.val = some 0) := by
  obtain ⟨r1, r2, z₂, e₂, v₂⟩ := swallow_residual o x y hy
  obtain ⟨⟨da, ea, va⟩, dc, ec, vc⟩ := swallow_diff (k := k) (T := T) 0
  obtain ⟨⟨db, eb, vb⟩, dd, ed, vd⟩ := swallow_diff (k := k) (T := T) 1
  obtain ⟨a, ea', va⟩ := va o [x, y]
  obtain ⟨b, eb', vb⟩ := vb o [x, y]
  obtain ⟨c, ec', vc⟩ := vc o [x, y]
  obtain ⟨d, ed', vd⟩ := vd o [x, y]
  have one : Chop.round k 1 = 1 := round_two 0 (by norm_num)
  have half : Chop.round k (1 / 2) = 1 / 2 := round_two (-1) (by norm_num)
  have nhalf : Chop.round k (-(1 / 2)) = -(1 / 2) := round_neg_two (-1) (by norm_num)
  simp only [if_true, one_ne_zero, zero_ne_one, if_false] at va vb vc vd
  constructor
  · intro hx
    obtain ⟨z₁, e₁, v₁⟩ := r1 hx
    refine ⟨_, _, by
      simp only [newtonStep, e₁, e₂, ea, eb, ec, ed, ea', eb', ec', ed', Res.bind, coordAt, List.getElem?_cons_zero,
        List.getElem?_cons_succ]
      rfl, ?_, ?_⟩
    · simp only [chop_sub, chop_div, chop_mul, hx, v₁, v₂, va, vb, vc, vd, xmul, xsub, Option.map_some, mul_one,
        mul_zero, one, Chop.round_zero, sub_zero, nhalf, xdiv one_ne_zero, div_one, sub_neg_eq_add, add_halves]
    · simp only [chop_sub, chop_div, chop_mul, hy, v₁, v₂, va, vb, vc, vd, xmul, xsub, Option.map_some, mul_one,
        mul_zero, one, Chop.round_zero, sub_zero, xdiv one_ne_zero, zero_div]
  · intro hx
    obtain ⟨z₁, e₁, v₁⟩ := r2 hx
    refine ⟨_, _, by
      simp only [newtonStep, e₁, e₂, ea, eb, ec, ed, ea', eb', ec', ed', Res.bind, coordAt, List.getElem?_cons_zero,
        List.getElem?_cons_succ]
      rfl, ?_, ?_⟩
    · simp only [chop_sub, chop_div, chop_mul, hx, v₁, v₂, va, vb, vc, vd, xmul, xsub, Option.map_some, mul_one,
        mul_zero, one, Chop.round_zero, sub_zero, half, xdiv one_ne_zero, div_one]
      rw [show (1 : ℝ) - 1 / 2 = 1 / 2 by norm_num, half]
    · simp only [chop_sub, chop_div, chop_mul, hy, v₁, v₂, va, vb, vc, vd, xmul, xsub, Option.map_some, mul_one,
        mul_zero, one, Chop.round_zero, sub_zero, xdiv one_ne_zero, zero_div]

/-- The norm of the residual is `1/2` at both points, and the loop goes on. -/
theorem swallow_norm (o : Order (Fl (chop k T))) (x y : Fl (chop k T)) (hy : y.val = some 0)
    (hx : x.val = some (1 / 2) ∨ x.val = some 1) : ∃ z,
    newtonNorm o (swallow (two k T k) (two k T (-1))) (flat (Num.lit 0)) [x, y] = .ok z ∧ z.val = some (1 / 2) := by
  obtain ⟨r1, r2, z₂, e₂, v₂⟩ := swallow_residual o x y hy
  have quarter : Chop.round k (1 / 4) = 1 / 4 := round_two (-2) (by norm_num)
  have half : Chop.round k (1 / 2) = 1 / 2 := round_two (-1) (by norm_num)
  have key : ∃ z₁, eval o [x, y] (residualExpr (swallow (two k T k) (two k T (-1)))) = .ok z₁ ∧
      (z₁.val = some (-(1 / 2)) ∨ z₁.val = some (1 / 2)) := by
    rcases hx with hx | hx
    · obtain ⟨z, h1, h2⟩ := r1 hx; exact ⟨z, h1, .inl h2⟩
    · obtain ⟨z, h1, h2⟩ := r2 hx; exact ⟨z, h1, .inr h2⟩
  obtain ⟨z₁, e₁, v₁⟩ := key
  refine ⟨_, by rw [newtonNorm, e₁, e₂]; rfl, ?_⟩
  have hs : (Num.add (Num.mul z₁ z₁) (Num.mul z₂ z₂)).val = some (1 / 4) := by
    rcases v₁ with v₁ | v₁ <;> simp only [chop_add, chop_mul, v₁, v₂, xmul, xadd, Option.map_some, mul_zero, Chop.round_zero] <;>
      norm_num [quarter]
  have hf : XReal.fn .sqrt (some (1 / 4)) = some (1 / 2) := by
    have : √(1 / 4 : ℝ) = 1 / 2 := by rw [show (1 / 4 : ℝ) = (1 / 2) ^ 2 by norm_num]; exact Real.sqrt_sq (by norm_num)
    have hn : ¬ (1 / 4 : ℝ) < 0 := by norm_num
    simp only [XReal.fn, if_neg hn, this]
  change (Fl.fn _ .sqrt (Num.add (Num.mul z₁ z₁) (Num.mul z₂ z₂)).val).val = _
  rw [hs, Fl.fn_some hf, Fl.val_of]
  change some (Chop.round k ((XReal.fn .sqrt (some (1 / 4))).getD 0)) = _
  rw [hf]
  exact congrArg some half

theorem swallow_goesOn (z : Fl (chop k T)) (hz : z.val = some (1 / 2) ∨ z.val = some 1) : goesOn z = true := by
  have lo : Chop.round k (1 / 10 ^ 10) ≤ 1 / 10 ^ 10 := by
    have h := Chop.trunc_le (k := k) (x := 1 / 10 ^ 10)
    rw [abs_of_pos (by positivity)] at h
    rw [Chop.round, Real.sign_of_pos (by positivity), one_mul, abs_of_pos (by positivity)]
    exact h
  have hi : 2 ≤ Chop.round k (10 ^ 10) := by
    have h := Chop.le_trunc (k := k) (x := 10 ^ 10) (by positivity)
    have hu : Chop.unit k (10 ^ 10) * 2 ^ k = (2 : ℝ) ^ Int.log 2 |(10 : ℝ) ^ 10| := by
      rw [Chop.unit, zpow_sub₀ (by norm_num), zpow_natCast]; field_simp
    have hl : (1 : ℤ) ≤ Int.log 2 |(10 : ℝ) ^ 10| := by
      rw [abs_of_pos (by positivity), ← Int.zpow_le_iff_le_log (b := 2) (by norm_num) (by positivity)]; norm_num
    have h2 : (2 : ℝ) ≤ 2 ^ Int.log 2 |(10 : ℝ) ^ 10| := by
      simpa using zpow_le_zpow_right₀ (a := (2 : ℝ)) (by norm_num) hl
    rw [Chop.round, Real.sign_of_pos (by positivity), one_mul]
    exact (h2.trans hu.ge).trans h
  have hb : (Num.lit (10 ^ 10) : Fl (chop k T)).val = some (Chop.round k (10 ^ 10)) := by
    refine (Fl.val_of _).trans ?_
    norm_num [chop]
  have ha : (NumLt.tenth 10 : Fl (chop k T)).val = some (Chop.round k (1 / 10 ^ 10)) := Fl.val_of _
  change (NumLt.lt (NumLt.tenth 10 : Fl (chop k T)).val z.val && NumLt.lt z.val (Num.lit (10 ^ 10) : Fl (chop k T)).val) = true
  rw [ha, hb]
  have h0 : (1 : ℝ) / 10 ^ 10 < 1 / 2 := by norm_num
  rcases hz with hz | hz <;> rw [hz] <;> simp only [NumLt.lt, Bool.and_eq_true, decide_eq_true_eq]
  · exact ⟨lo.trans_lt h0, lt_of_lt_of_le (by norm_num) hi⟩
  · exact ⟨lo.trans_lt (h0.trans (by norm_num)), lt_of_lt_of_le (by norm_num) hi⟩

end

/-- C71, limit of the claim.  In every accuracy there is a system with a regular solution, and from this solution as the
guess the solver never returns: it goes back and forth between two points. -/
theorem C71_endless (k : Nat) (T : ℝ) : ∃ (q₁ q₂ : Equation XReal) (k₁ k₂ : Equation (Fl (chop k T))) (r : Fin 2 → ℝ)
    (w : List (Fl (chop k T))), (∀ o, RegularEq o r q₁ ∧ RegularEq o r q₂) ∧ IsRoot q₁ q₂ r ∧ jacobian q₁ q₂ r ≠ 0 ∧
    NearEq 0 (chop k T) q₁ k₁ ∧ NearEq 0 (chop k T) q₂ k₂ ∧ NearVals 0 (chop k T) (realPoint r) w ∧
    ∀ o x, ¬ NewtonReturns o k₁ k₂ w x := by
  let q₁ : Equation XReal := swallow (some (2 ^ k)) (some (1 / 2))
  let q₂ : Equation XReal := flat (some 0)
  have hreg : ∀ p : Fin 2 → ℝ, Reg p q₁.lhs ∧ Reg p q₁.rhs ∧ Reg p q₂.lhs ∧ Reg p q₂.rhs := by
    intro p; simp [q₁, q₂, swallow, flat, Reg, opOk]
  have g₁ : gap q₁ = fun p => p 0 - 1 / 2 := by
    funext p; obtain ⟨h1, h2, h3, h4⟩ := hreg p
    simp [gap, denotes_reg, h1, h2] ; simp [q₁, swallow, rv, opR]
  have g₂ : gap q₂ = fun p => p 1 := by
    funext p; obtain ⟨h1, h2, h3, h4⟩ := hreg p
    simp [gap, denotes_reg, h3, h4] ; simp [q₂, flat, rv]
  refine ⟨q₁, q₂, swallow (two k T k) (two k T (-1)), flat (Num.lit 0), ![1 / 2, 0], [two k T (-1), Num.lit 0], ?_, ?_, ?_,
    ?_, ?_, ?_, ?_⟩
  · intro o
    obtain ⟨h1, h2, h3, h4⟩ := hreg ![1 / 2, 0]
    have key : ∀ e, Reg ![1 / 2, 0] e → Smooth e ∧ RegularAt o ![1 / 2, 0] e :=
      fun e h => ⟨h.smooth, (regularAt_iff h.smooth o).2 h⟩
    constructor <;> intro e he <;> simp only [List.mem_cons, List.not_mem_nil, or_false] at he <;>
      obtain rfl | rfl := he <;> exact key _ ‹_›
  · exact ⟨sub_eq_zero.1 ((congrFun g₁ _).trans (by simp)), sub_eq_zero.1 ((congrFun g₂ _).trans (by simp))⟩
  · have e00 : partialDeriv 0 (gap q₁) ![1 / 2, 0] = 1 := by
      rw [g₁]; simp only [partialDeriv, Function.update_self]
      exact ((hasDerivAt_id _).sub_const _).deriv
    have e01 : partialDeriv 1 (gap q₁) ![1 / 2, 0] = 0 := by rw [g₁]; simp [partialDeriv]
    have e11 : partialDeriv 1 (gap q₂) ![1 / 2, 0] = 1 := by rw [g₂]; simp [partialDeriv]
    rw [jacobian, e00, e01, e11]; norm_num
  · have hb : NearNum 0 (chop k T) (some (2 ^ k)) (two k T k) := ⟨_, _, rfl, rfl, by simp⟩
    have hh : NearNum 0 (chop k T) (some (1 / 2)) (two k T (-1)) := ⟨_, _, rfl, rfl, by simp⟩
    exact ⟨.bin (.inr (.inl rfl)) (.bin (.inl rfl) (.var 0) (.const hb)) (.const hb), .const hh⟩
  · exact ⟨.var 1, .const ⟨0, 0, rfl, Fl.val_zero, by simp⟩⟩
  · rw [realPoint_two]
    exact .cons ⟨_, _, rfl, rfl, by simp⟩ (.cons ⟨0, 0, by simp, Fl.val_zero, by simp⟩ .nil)
  · intro o
    have main : ∀ fuel x y n, y.val = some 0 → x.val = some (1 / 2) ∨ x.val = some 1 →
        n.val = some (1 / 2) ∨ n.val = some 1 →
        newtonLoop o (swallow (two k T k) (two k T (-1))) (flat (Num.lit 0)) fuel n [x, y] = none := by
      intro fuel
      induction fuel with
      | zero => intros; rfl
      | succ fuel ih =>
        intro x y n hy hx hn
        have key : ∃ x' y', newtonStep o (swallow (two k T k) (two k T (-1))) (flat (Num.lit 0)) [x, y] =
            .ok [x', y'] ∧ (x'.val = some (1 / 2) ∨ x'.val = some 1) ∧ y'.val = some 0 := by
          rcases hx with hx | hx
          · obtain ⟨x', y', h1, h2, h3⟩ := (swallow_step o x y hy).1 hx
            exact ⟨x', y', h1, .inr h2, h3⟩
          · obtain ⟨x', y', h1, h2, h3⟩ := (swallow_step o x y hy).2 hx
            exact ⟨x', y', h1, .inl h2, h3⟩
        obtain ⟨x', y', h1, h2, h3⟩ := key
        obtain ⟨z, h4, h5⟩ := swallow_norm o x' y' h3 h2
        rw [newtonLoop, if_pos (swallow_goesOn n hn), h1]
        simp only [h4]
        exact ih x' y' z h3 h2 (.inl h5)
    rintro r ⟨fuel, h⟩
    rw [main fuel _ _ _ Fl.val_zero (.inl (by simp [two, Fl.val])) (.inr Fl.val_one)] at h
    cases h

end VM.Props
