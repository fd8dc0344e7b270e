import Verif.Rt.NewtonLemmas
import Verif.Rt.RoundedQuad
import Verif.Props.Rounded
/-
C71: the Newton solver with floating point numbers.
-/
namespace VM
open Spec Filter Topology

/-- Floating point numbers are compared by their values; literals are rounded; infinities and NaN are one value, which
compares false with everything. -/
noncomputable instance {R : Rounding} : NumLt (Fl R) where
  lt x y := NumLt.lt x.val y.val
  tenth n := Fl.of R (1 / 10 ^ n)

/-- True of every arithmetic that is fine enough. -/
def Eventual (P : Rounding → Prop) : Prop := ∃ δ T : ℝ, 0 < δ ∧ ∀ R, Fine δ T R → P R

theorem Eventual.and {P Q : Rounding → Prop} (h : Eventual P) (g : Eventual Q) : Eventual fun R => P R ∧ Q R := by
  obtain ⟨δ, T, h0, H⟩ := h
  obtain ⟨δ', T', g0, G⟩ := g
  exact ⟨min δ δ', max T T', by positivity, fun R hF =>
    ⟨H R (hF.mono (min_le_left _ _) (le_max_left _ _)), G R (hF.mono (min_le_right _ _) (le_max_right _ _))⟩⟩

theorem Eventual.mono {P Q : Rounding → Prop} (h : Eventual P) (g : ∀ R, P R → Q R) : Eventual Q := by
  obtain ⟨δ, T, h0, H⟩ := h
  exact ⟨δ, T, h0, fun R hF => g R (H R hF)⟩

theorem Eventual.pos : Eventual fun R => 0 ≤ R.eps := ⟨1, 0, one_pos, fun _ h => h.pos⟩

theorem Eventual.eta : Eventual fun R => R.eta ≤ R.eps := ⟨1, 0, one_pos, fun _ h => h.eta⟩

theorem Eventual.top (T : ℝ) : Eventual fun R => T ≤ R.top := ⟨1, T, one_pos, fun _ h => h.top⟩

/-- A constant times the accuracy is as small as needed. -/
theorem Eventual.small (C : ℝ) {τ : ℝ} (h : 0 < τ) : Eventual fun R => C * R.eps ≤ τ :=
  ⟨τ / (|C| + 1), 0, by positivity, fun R hF => by
    calc C * R.eps ≤ (|C| + 1) * R.eps := mul_le_mul_of_nonneg_right (by linarith [le_abs_self C]) hF.pos
      _ ≤ (|C| + 1) * (τ / (|C| + 1)) := mul_le_mul_of_nonneg_left hF.eps (by positivity)
      _ = τ := by field_simp⟩

variable {q q₁ q₂ : Equation XReal} {p r : Fin 2 → ℝ}

theorem Spec.NearVals.mono {R : Rounding} {D D' : ℝ} (he : 0 ≤ R.eps) (h : D ≤ D') {v : List XReal} {w : List (Fl R)}
    (hn : NearVals D R v w) : NearVals D' R v w := hn.imp fun _ _ g => g.mono he h

theorem Spec.NearEq.mono {R : Rounding} {D D' : ℝ} (he : 0 ≤ R.eps) (h : D ≤ D') {k : Equation (Fl R)}
    (hn : NearEq D R q k) : NearEq D' R q k := ⟨hn.1.mono he h, hn.2.mono he h⟩

theorem Spec.NearEq.residual {R : Rounding} {D : ℝ} {k : Equation (Fl R)} (hn : NearEq D R q k) :
    NearExpr D R (residualExpr q) (residualExpr k) := .bin (.inr (.inl rfl)) hn.1 hn.2

/-- The residual of an equation. -/
theorem residual_near (h : Reg p (residualExpr q)) (D : ℝ) : ∃ C, Eventual fun R => ∀ k w, NearEq D R q k →
    NearVals D R (realPoint p) w → ∀ o, ∃ x, eval o w (residualExpr k) = .ok x ∧ NearNum C R (some (gap q p)) x := by
  obtain ⟨C, δ, T, hδ, H⟩ := Props.C68_evaluation _ leftFirst _ _ D (h.eval leftFirst) fun s => h.sqrt_ne leftFirst
  refine ⟨C, δ, T, hδ, fun R hF k w hk hw o => ?_⟩
  obtain ⟨x, y, h1, h2, h3⟩ := H R hF _ w hk.residual hw o
  exact ⟨x, h1, _, y, rfl, h2, by rwa [gap_reg h]⟩

/-- Its partial derivatives. -/
theorem partial_near (h : Reg p (residualExpr q)) (i : Fin 2) (D : ℝ) : ∃ C, Eventual fun R => ∀ k w, NearEq D R q k →
    NearVals D R (realPoint p) w → ∃ d, diff (.var i) (residualExpr k) = .ok d ∧
      ∀ o, ∃ x, eval o w d = .ok x ∧ NearNum C R (some (partialDeriv i (gap q) p)) x := by
  obtain ⟨C, δ, T, hδ, H⟩ := Props.C68_derivative _ i p D h.smooth ((regularAt_iff h.smooth leftFirst).2 h)
  have he : partialDeriv i (denotes (residualExpr q)) p = partialDeriv i (gap q) p :=
    (partialDeriv_congr i ((denotes_eventually h).trans (gap_eventually h).symm)).eq_of_nhds
  refine ⟨C, δ, T, hδ, fun R hF k w hk hw => ?_⟩
  obtain ⟨d, h1, h2⟩ := H R hF _ w hk.residual hw
  refine ⟨d, h1, fun o => ?_⟩
  obtain ⟨x, y, h3, h4, h5⟩ := h2 o
  exact ⟨x, h3, _, y, rfl, h4, by rwa [← he]⟩

/-- The formula for one coordinate of the next point. -/
theorem update_near (D x s t u v a d c b : ℝ) (hj : a * d - c * b ≠ 0) : ∃ C, Eventual fun R =>
    ∀ x' s' t' u' v' a' d' c' b', NearNum D R (some x) x' → NearNum D R (some s) s' → NearNum D R (some t) t' →
      NearNum D R (some u) u' → NearNum D R (some v) v' → NearNum D R (some a) a' → NearNum D R (some d) d' →
      NearNum D R (some c) c' → NearNum D R (some b) b' →
      NearNum C R (some (x - (s * t - u * v) / (a * d - c * b)))
        (Num.sub x' (Num.div (Num.sub (Num.mul s' t') (Num.mul u' v')) (Num.sub (Num.mul a' d') (Num.mul c' b')))) := by
  let f : ∀ K : Type, Expr K := fun K => .bin .minus (.var 0) (.bin .div
    (.bin .minus (.bin .mult (.var 1) (.var 2)) (.bin .mult (.var 3) (.var 4)))
    (.bin .minus (.bin .mult (.var 5) (.var 6)) (.bin .mult (.var 7) (.var 8))))
  have hv : eval leftFirst [some x, some s, some t, some u, some v, some a, some d, some c, some b] (f XReal) =
      .ok (some (x - (s * t - u * v) / (a * d - c * b))) := by
    have h1 : eval leftFirst [some x, some s, some t, some u, some v, some a, some d, some c, some b] (f XReal) =
      .ok (Num.sub (some x) (Num.div (Num.sub (Num.mul (some s) (some t)) (Num.mul (some u) (some v)))
        (Num.sub (Num.mul (some a) (some d)) (Num.mul (some c) (some b))) : XReal)) := rfl
    rw [h1]
    simp only [xmul, xsub, xdiv hj]
  obtain ⟨C, δ, T, hδ, H⟩ := Props.C68_evaluation _ leftFirst _ _ D hv (by
    intro e hs
    cases hs with
    | binL hs => cases hs
    | binR hs => cases hs with
      | binL hs => cases hs with
        | binL hs => cases hs with
          | binL hs => cases hs
          | binR hs => cases hs
        | binR hs => cases hs with
          | binL hs => cases hs
          | binR hs => cases hs
      | binR hs => cases hs with
        | binL hs => cases hs with
          | binL hs => cases hs
          | binR hs => cases hs
        | binR hs => cases hs with
          | binL hs => cases hs
          | binR hs => cases hs)
  refine ⟨C, δ, T, hδ, fun R hF x' s' t' u' v' a' d' c' b' n0 n1 n2 n3 n4 n5 n6 n7 n8 => ?_⟩
  have S : IsArithOp .minus := .inr (.inl rfl)
  have M : IsArithOp .mult := .inr (.inr (.inl rfl))
  have Q : IsArithOp .div := .inr (.inr (.inr rfl))
  obtain ⟨z, y, h1, h2, h3⟩ := H R hF (f _) [x', s', t', u', v', a', d', c', b']
    (.bin S (.var 0) (.bin Q (.bin S (.bin M (.var 1) (.var 2)) (.bin M (.var 3) (.var 4)))
      (.bin S (.bin M (.var 5) (.var 6)) (.bin M (.var 7) (.var 8)))))
    (.cons n0 (.cons n1 (.cons n2 (.cons n3 (.cons n4 (.cons n5 (.cons n6 (.cons n7 (.cons n8 .nil))))))))) leftFirst
  cases h1
  exact ⟨_, y, rfl, h2, h3⟩

theorem Spec.NearVals.two {R : Rounding} {D : ℝ} {w : List (Fl R)} (h : NearVals D R (realPoint p) w) :
    ∃ x y, w = [x, y] ∧ NearNum D R (some (p 0)) x ∧ NearNum D R (some (p 1)) y := by
  rw [realPoint_two] at h
  cases h with
  | cons hx h => cases h with
    | cons hy h => cases h; exact ⟨_, _, rfl, hx, hy⟩

/-- One step. -/
theorem step_near (h₁ : Reg p (residualExpr q₁)) (h₂ : Reg p (residualExpr q₂)) (hj : jacobian q₁ q₂ p ≠ 0) (D : ℝ) :
    ∃ C, Eventual fun R => ∀ k₁ k₂ w, NearEq D R q₁ k₁ → NearEq D R q₂ k₂ → NearVals D R (realPoint p) w →
      ∀ o, ∃ w', newtonStep o k₁ k₂ w = .ok w' ∧ NearVals C R (realPoint (newtonOf q₁ q₂ p)) w' := by
  obtain ⟨C₁, H₁⟩ := residual_near h₁ D
  obtain ⟨C₂, H₂⟩ := residual_near h₂ D
  obtain ⟨A, HA⟩ := partial_near h₁ 0 D
  obtain ⟨B, HB⟩ := partial_near h₁ 1 D
  obtain ⟨C, HC⟩ := partial_near h₂ 0 D
  obtain ⟨E, HE⟩ := partial_near h₂ 1 D
  let M := max (max D (max C₁ C₂)) (max (max A B) (max C E))
  obtain ⟨X, HX⟩ := update_near M (p 0) (gap q₁ p) (partialDeriv 1 (gap q₂) p) (partialDeriv 1 (gap q₁) p) (gap q₂ p)
    (partialDeriv 0 (gap q₁) p) (partialDeriv 1 (gap q₂) p) (partialDeriv 0 (gap q₂) p) (partialDeriv 1 (gap q₁) p) hj
  obtain ⟨Y, HY⟩ := update_near M (p 1) (partialDeriv 0 (gap q₁) p) (gap q₂ p) (gap q₁ p) (partialDeriv 0 (gap q₂) p)
    (partialDeriv 0 (gap q₁) p) (partialDeriv 1 (gap q₂) p) (partialDeriv 0 (gap q₂) p) (partialDeriv 1 (gap q₁) p) hj
  refine ⟨max X Y, (((((((H₁.and H₂).and HA).and HB).and HC).and HE).and HX).and HY).and .pos |>.mono ?_⟩
  rintro R ⟨⟨⟨⟨⟨⟨⟨⟨H₁, H₂⟩, HA⟩, HB⟩, HC⟩, HE⟩, HX⟩, HY⟩, he⟩ k₁ k₂ w n₁ n₂ hw o
  obtain ⟨f₁, e₁, m₁⟩ := H₁ k₁ w n₁ hw o
  obtain ⟨f₂, e₂, m₂⟩ := H₂ k₂ w n₂ hw o
  obtain ⟨da, ea, va⟩ := HA k₁ w n₁ hw
  obtain ⟨db, eb, vb⟩ := HB k₁ w n₁ hw
  obtain ⟨dc, ec, vc⟩ := HC k₂ w n₂ hw
  obtain ⟨dd, ed, vd⟩ := HE k₂ w n₂ hw
  obtain ⟨a, ea', ma⟩ := va o
  obtain ⟨b, eb', mb⟩ := vb o
  obtain ⟨c, ec', mc⟩ := vc o
  obtain ⟨d, ed', md⟩ := vd o
  obtain ⟨x, y, rfl, hx, hy⟩ := hw.two
  simp only [Fin.val_zero, Fin.val_one] at ea eb ec ed
  have up : ∀ {z : ℝ} {z' : Fl R} {G : ℝ}, NearNum G R (some z) z' → G ≤ M → NearNum M R (some z) z' :=
    fun h g => h.mono he g
  have hx := up hx (by simp [M])
  have hy := up hy (by simp [M])
  have m₁ := up m₁ (by simp [M])
  have m₂ := up m₂ (by simp [M])
  have ma := up ma (by simp [M])
  have mb := up mb (by simp [M])
  have mc := up mc (by simp [M])
  have md := up md (by simp [M])
  refine ⟨[Num.sub x (Num.div (Num.sub (Num.mul f₁ d) (Num.mul b f₂)) (Num.sub (Num.mul a d) (Num.mul c b))),
    Num.sub y (Num.div (Num.sub (Num.mul a f₂) (Num.mul f₁ c)) (Num.sub (Num.mul a d) (Num.mul c b)))], ?_, ?_⟩
  · simp only [newtonStep, e₁, e₂, ea, eb, ec, ed, ea', eb', ec', ed', Res.bind, coordAt, List.getElem?_cons_zero,
      List.getElem?_cons_succ]
  · rw [realPoint_two]
    refine .cons ((HX _ _ _ _ _ _ _ _ _ hx m₁ md mb m₂ ma md mc mb).mono he (le_max_left _ _))
      (.cons ((HY _ _ _ _ _ _ _ _ _ hy ma m₂ m₁ mc ma md mc mb).mono he (le_max_right _ _)) .nil)

/-- The rounded square root of a number near `s`. -/
theorem sqrt_near (D s : ℝ) (hs : 0 ≤ s) {τ : ℝ} (hτ : 0 < τ) : Eventual fun R => ∀ x : Fl R, NearNum D R (some s) x →
    (∀ y, (Num.fn .sqrt x).val = some y → |y - √s| ≤ τ) ∧ ((Num.fn .sqrt x).val = none → √s ≤ τ) := by
  let σ := min (τ / 8) 1
  have hσ : 0 < σ := by positivity
  refine ((((Eventual.small D (pow_pos hσ 2)).and (Eventual.small (√s + 2) hσ)).and .pos).and
    (Eventual.eta.and (Eventual.top (√s + 8)))).mono ?_
  rintro R ⟨⟨⟨h1, h2⟩, h3⟩, h4, h5⟩ x ⟨_, x', hc, hx, hn⟩
  cases hc
  have hσ1 : σ ≤ 1 := min_le_right _ _
  have hσ2 : 8 * σ ≤ τ := by have : σ ≤ τ / 8 := min_le_left _ _; linarith
  have heps : 2 * R.eps ≤ σ := by nlinarith [Real.sqrt_nonneg s]
  have hd : |x' - s| ≤ σ ^ 2 := hn.trans h1
  have hfn : (Num.fn .sqrt x : Fl R) = Fl.fn R .sqrt (some x') := by change Fl.fn R .sqrt x.val = _; rw [hx]
  rw [hfn]
  by_cases hneg : x' < 0
  · have hnone : Fl.fn R .sqrt (some x') = none := if_pos (by simp [XReal.fn, hneg])
    rw [hnone]
    refine ⟨fun y hy => (by cases hy), fun _ => ?_⟩
    have : √s ≤ σ := Real.sqrt_le_iff.2 ⟨hσ.le, by have := (abs_le.1 hd).1; nlinarith⟩
    linarith
  · have hx0 : 0 ≤ x' := not_lt.1 hneg
    have hf : XReal.fn .sqrt (some x') = some √x' := by simp [XReal.fn, hneg]
    have hroot : |√x' - √s| ≤ σ := by
      rw [abs_le] at hd
      rw [abs_le]
      constructor
      · have : √s ≤ √x' + σ := Real.sqrt_le_iff.2 ⟨by positivity, by
          nlinarith [Real.sq_sqrt hx0, Real.sqrt_nonneg x']⟩
        linarith
      · have : √x' ≤ √s + σ := Real.sqrt_le_iff.2 ⟨by positivity, by
          nlinarith [Real.sq_sqrt hs, Real.sqrt_nonneg s]⟩
        linarith
    have hlib := R.lib_near hf
    rw [abs_of_nonneg (Real.sqrt_nonneg x')] at hlib
    rw [Fl.fn_some hf, Fl.val_of]
    have hr' := abs_le.1 hroot
    have hlib' : |R.lib .sqrt x' - √x'| ≤ σ := hlib.trans (by nlinarith [Real.sqrt_nonneg s])
    have hl := abs_le.1 hlib'
    have habs : |R.lib .sqrt x'| ≤ √s + 2 := by
      rw [abs_le]; constructor <;> linarith [Real.sqrt_nonneg s]
    obtain ⟨y, hy⟩ := R.round_some (x := R.lib .sqrt x') (habs.trans (by linarith))
    refine ⟨fun z hz => ?_, fun hz => by rw [hy] at hz; cases hz⟩
    rw [hy] at hz; cases hz
    have hround : |y - R.lib .sqrt x'| ≤ 2 * σ := (R.round_near hy).trans (by
      have : R.eps * |R.lib .sqrt x'| ≤ R.eps * (√s + 2) := mul_le_mul_of_nonneg_left habs h3
      linarith)
    have h6 := abs_le.1 hround
    rw [abs_le]
    constructor <;> linarith

/-- The norm of the residual. -/
theorem norm_near (h₁ : Reg p (residualExpr q₁)) (h₂ : Reg p (residualExpr q₂)) (D : ℝ) {τ : ℝ} (hτ : 0 < τ) :
    Eventual fun R => ∀ k₁ k₂ w, NearEq D R q₁ k₁ → NearEq D R q₂ k₂ → NearVals D R (realPoint p) w →
      ∀ o, ∃ z, newtonNorm o k₁ k₂ w = .ok z ∧ (∀ y, z.val = some y → |y - defect q₁ q₂ p| ≤ τ) ∧
        (z.val = none → defect q₁ q₂ p ≤ τ) := by
  obtain ⟨C₁, H₁⟩ := residual_near h₁ D
  obtain ⟨C₂, H₂⟩ := residual_near h₂ D
  have hv : eval leftFirst [some (gap q₁ p), some (gap q₂ p)]
      (.bin .plus (.bin .mult (.var 0) (.var 0)) (.bin .mult (.var 1) (.var 1)) : Expr XReal) =
      .ok (some (gap q₁ p * gap q₁ p + gap q₂ p * gap q₂ p)) := rfl
  obtain ⟨C, δ, T, hδ, H⟩ := Props.C68_evaluation _ leftFirst _ _ (max C₁ C₂) hv (by
    intro e hs
    cases hs with
    | binL hs => cases hs with
      | binL hs => cases hs
      | binR hs => cases hs
    | binR hs => cases hs with
      | binL hs => cases hs
      | binR hs => cases hs)
  have hS := sqrt_near C (gap q₁ p * gap q₁ p + gap q₂ p * gap q₂ p)
    (add_nonneg (mul_self_nonneg _) (mul_self_nonneg _)) hτ
  refine (((H₁.and H₂).and (show Eventual _ from ⟨δ, T, hδ, H⟩)).and (hS.and .pos)).mono ?_
  rintro R ⟨⟨⟨H₁, H₂⟩, H⟩, hS, he⟩ k₁ k₂ w n₁ n₂ hw o
  obtain ⟨f₁, e₁, m₁⟩ := H₁ k₁ w n₁ hw o
  obtain ⟨f₂, e₂, m₂⟩ := H₂ k₂ w n₂ hw o
  have M : IsArithOp .mult := .inr (.inr (.inl rfl))
  obtain ⟨x, y, g1, g2, g3⟩ := H (.bin .plus (.bin .mult (.var 0) (.var 0)) (.bin .mult (.var 1) (.var 1))) [f₁, f₂]
    (.bin (.inl rfl) (.bin M (.var 0) (.var 0)) (.bin M (.var 1) (.var 1)))
    (.cons (m₁.mono he (le_max_left _ _)) (.cons (m₂.mono he (le_max_right _ _)) .nil)) leftFirst
  have g1 : x = Num.add (Num.mul f₁ f₁) (Num.mul f₂ f₂) := (Res.ok.inj g1).symm
  subst g1
  refine ⟨_, by rw [newtonNorm, e₁, e₂]; rfl, ?_⟩
  rw [defect, pow_two, pow_two]
  exact hS _ ⟨_, y, rfl, g2, g3⟩

/-- The comparison with the literals `1e-10` and `1e10`. -/
theorem goesOn_near {τ : ℝ} (hτ : 0 < τ) : Eventual fun R => ∀ z : Fl R,
    (goesOn z = true → ∃ y, z.val = some y ∧ 1 / 10 ^ 10 - τ ≤ y) ∧
    (goesOn z = false → ∀ y, z.val = some y → y ≤ 1 / 10 ^ 10 + τ ∨ 10 ^ 10 - τ ≤ y) := by
  refine (((Eventual.small (10 ^ 10 + 1) hτ).and .pos).and (Eventual.eta.and (Eventual.top (10 ^ 10)))).mono ?_
  rintro R ⟨⟨h1, h2⟩, h3, h4⟩ z
  have key : ∀ x : ℝ, 0 ≤ x → x ≤ 10 ^ 10 → ∃ y, (Fl.of R x).val = some y ∧ |y - x| ≤ τ := by
    intro x hx hx'
    obtain ⟨y, hy⟩ := R.round_some (x := x) (by rw [abs_of_nonneg hx]; exact hx'.trans h4)
    refine ⟨y, by rw [Fl.val_of, hy], (R.round_near hy).trans ?_⟩
    rw [abs_of_nonneg hx]
    have : R.eps * x ≤ R.eps * 10 ^ 10 := mul_le_mul_of_nonneg_left hx' h2
    linarith
  obtain ⟨a, ha, na⟩ := key (1 / 10 ^ 10) (by positivity) (by norm_num)
  obtain ⟨b, hb, nb⟩ := key (10 ^ 10) (by positivity) le_rfl
  have hb : (Num.lit (10 ^ 10) : Fl R).val = some b := by
    rw [← hb]; simp only [Num.lit]; norm_num
  have na := abs_le.1 na
  have nb := abs_le.1 nb
  have hg : goesOn z = (NumLt.lt (some a : XReal) z.val && NumLt.lt z.val (some b : XReal)) := by
    change (NumLt.lt (Fl.of R (1 / 10 ^ 10)).val z.val && NumLt.lt z.val (Num.lit (10 ^ 10) : Fl R).val) = _
    rw [ha, hb]
  rw [hg]
  cases hz : z.val with
  | none => exact ⟨fun h => by simp [NumLt.lt] at h, fun _ y h => by cases h⟩
  | some y =>
    constructor
    · intro h
      simp only [NumLt.lt, Bool.and_eq_true, decide_eq_true_eq] at h
      exact ⟨y, rfl, by linarith⟩
    · intro h y' hy'
      cases hy'
      simp only [NumLt.lt, Bool.and_eq_false_iff, decide_eq_false_iff_not, not_lt] at h
      rcases h with h | h
      · left; linarith
      · right; linarith

/-- The loop starts. -/
theorem goesOn_one_near : Eventual fun R => goesOn (Num.lit 1 : Fl R) = true := by
  refine (goesOn_near (τ := 1 / 2) (by norm_num)).mono fun R H => ?_
  by_contra hg
  have := (H (Num.lit 1)).2 (by simpa using hg) 1 Fl.val_one
  norm_num at this

/-- Numbers near the coordinates of a point are the coordinates of a point near it. -/
theorem near_point {R : Rounding} {C τ : ℝ} {w : List (Fl R)} (h : NearVals C R (realPoint p) w) (hC : C * R.eps ≤ τ) :
    ∃ p' : Fin 2 → ℝ, w.map Fl.val = realPoint p' ∧ ‖p' - p‖ ≤ τ := by
  obtain ⟨x, y, rfl, ⟨_, a, e1, ha, na⟩, ⟨_, b, e2, hb, nb⟩⟩ := h.two
  cases e1; cases e2
  refine ⟨![a, b], by simp [realPoint_two, ha, hb], ?_⟩
  refine (pi_norm_le_iff_of_nonneg ((abs_nonneg _).trans (na.trans hC))).2 fun i => ?_
  fin_cases i
  · simpa using na.trans hC
  · simpa using nb.trans hC

theorem defect_continuousAt (h₁ : Reg p (residualExpr q₁)) (h₂ : Reg p (residualExpr q₂)) :
    ContinuousAt (defect q₁ q₂) p :=
  ((((h₁.contDiffAt (m := 1)).congr_of_eventuallyEq (gap_eventually h₁)).continuousAt.pow 2).add
      ((((h₂.contDiffAt (m := 1)).congr_of_eventuallyEq (gap_eventually h₂)).continuousAt.pow 2))).sqrt

/-- The point at which the loop stops after a step. -/
theorem stop_near (h₁ : Reg p (residualExpr q₁)) (h₂ : Reg p (residualExpr q₂)) (hb : defect q₁ q₂ p < 10 ^ 10)
    (C : ℝ) {τ : ℝ} (hτ : 0 < τ) : Eventual fun R => ∀ k₁ k₂ w, NearEq C R q₁ k₁ → NearEq C R q₂ k₂ →
      NearVals C R (realPoint p) w → ∀ o, ∃ z, newtonNorm o k₁ k₂ w = .ok z ∧
        (goesOn z = true → 1 / 10 ^ 10 - τ ≤ defect q₁ q₂ p) ∧
        (goesOn z = false → ∃ p' : Fin 2 → ℝ, w.map Fl.val = realPoint p' ∧ ‖p' - p‖ ≤ τ ∧
          defect q₁ q₂ p' ≤ 1 / 10 ^ 10 + τ) := by
  let σ := min (τ / 4) ((10 ^ 10 - defect q₁ q₂ p) / 4)
  have hσ : 0 < σ := lt_min (by positivity) (by linarith)
  have hσ1 : 4 * σ ≤ τ := by have : σ ≤ τ / 4 := min_le_left _ _; linarith
  have hσ2 : 4 * σ ≤ 10 ^ 10 - defect q₁ q₂ p := by
    have : σ ≤ (10 ^ 10 - defect q₁ q₂ p) / 4 := min_le_right _ _; linarith
  obtain ⟨ρ, hρ, hcont⟩ := Metric.continuousAt_iff.1 (defect_continuousAt h₁ h₂) σ hσ
  let κ := min τ (ρ / 2)
  have hκ : 0 < κ := lt_min hτ (by positivity)
  refine ((norm_near h₁ h₂ C hσ).and ((goesOn_near hσ).and (Eventual.small C hκ))).mono ?_
  rintro R ⟨HN, HG, HC⟩ k₁ k₂ w n₁ n₂ hw o
  obtain ⟨z, hz, z1, z2⟩ := HN k₁ k₂ w n₁ n₂ hw o
  refine ⟨z, hz, fun hg => ?_, fun hg => ?_⟩
  · obtain ⟨y, hy, hy'⟩ := (HG z).1 hg
    have := abs_le.1 (z1 y hy)
    linarith
  · obtain ⟨p', e, hp'⟩ := near_point hw HC
    refine ⟨p', e, hp'.trans (min_le_left _ _), ?_⟩
    have hd := hcont (x := p') (by
      rw [dist_eq_norm]
      have : κ ≤ ρ / 2 := min_le_right _ _
      linarith)
    rw [Real.dist_eq, abs_lt] at hd
    cases hv : z.val with
    | none =>
      have := z2 hv
      have : (0 : ℝ) ≤ 1 / 10 ^ 10 := by positivity
      linarith
    | some y =>
      have h1 := abs_le.1 (z1 y hv)
      rcases (HG z).2 hg y hv with h | h <;> linarith

/-- The loop ends. -/
theorem loop_near (h₁ : Reg r (residualExpr q₁)) (h₂ : Reg r (residualExpr q₂))
    (hr : gap q₁ r = 0 ∧ gap q₂ r = 0) {δ : ℝ} (hδ : 0 < δ)
    (hn : ∀ p, ‖p - r‖ < δ →
      Reg p (residualExpr q₁) ∧ Reg p (residualExpr q₂) ∧ jacobian q₁ q₂ p ≠ 0 ∧
      ‖newtonOf q₁ q₂ p - r‖ ≤ ‖p - r‖ / 2 ∧ defect q₁ q₂ p < 10 ^ 10) :
    ∀ p, ‖p - r‖ < δ → ∀ (D τ : ℝ), 0 < τ → Eventual fun R => ∀ k₁ k₂ w, NearEq D R q₁ k₁ → NearEq D R q₂ k₂ →
      NearVals D R (realPoint p) w → ∀ o x, goesOn x = true → ∃ fuel w',
      newtonLoop o k₁ k₂ fuel x w = some (.ok w') ∧ ∃ p' : Fin 2 → ℝ, w'.map Fl.val = realPoint p' ∧
      ‖p' - r‖ ≤ ‖p - r‖ / 2 + τ ∧ defect q₁ q₂ p' ≤ 1 / 10 ^ 10 + τ := by
  have d0 : defect q₁ q₂ r = 0 := by simp [defect, hr.1, hr.2]
  obtain ⟨η, hη, hsmall⟩ := Metric.nhds_basis_ball.mem_iff.1
    ((defect_continuousAt h₁ h₂).eventually_lt_const (u := 1 / 10 ^ 10 / 2) (by rw [d0]; positivity))
  have main : ∀ n : ℕ, ∀ p, ‖p - r‖ < δ → ‖p - r‖ < η * 2 ^ n → ∀ (D τ : ℝ), 0 < τ → Eventual fun R => ∀ k₁ k₂ w,
      NearEq D R q₁ k₁ → NearEq D R q₂ k₂ →
      NearVals D R (realPoint p) w → ∀ o x, goesOn x = true → ∃ fuel w',
      newtonLoop o k₁ k₂ fuel x w = some (.ok w') ∧ ∃ p' : Fin 2 → ℝ, w'.map Fl.val = realPoint p' ∧
      ‖p' - r‖ ≤ ‖p - r‖ / 2 + τ ∧ defect q₁ q₂ p' ≤ 1 / 10 ^ 10 + τ := by
    intro n
    induction n with
    | zero =>
      intro p hp hpn D τ hτ
      obtain ⟨b₁, b₂, b₃, b₄, -⟩ := hn p hp
      have hp' : ‖newtonOf q₁ q₂ p - r‖ < δ := by linarith [norm_nonneg (p - r)]
      obtain ⟨g₁, g₂, -, -, g₅⟩ := hn _ hp'
      have hs : defect q₁ q₂ (newtonOf q₁ q₂ p) < 1 / 10 ^ 10 / 2 := hsmall (by
        rw [Metric.mem_ball, dist_eq_norm]
        rw [pow_zero, mul_one] at hpn
        linarith [norm_nonneg (p - r)])
      obtain ⟨C, HS⟩ := step_near b₁ b₂ b₃ D
      refine (HS.and ((stop_near g₁ g₂ g₅ (max C D) (τ := min τ (1 / 10 ^ 10 / 2)) (by positivity)).and .pos)).mono ?_
      rintro R ⟨HS, HN, he⟩ k₁ k₂ w n₁ n₂ hw o x hx
      obtain ⟨w', e, hw'⟩ := HS k₁ k₂ w n₁ n₂ hw o
      obtain ⟨z, hz, z1, z2⟩ := HN k₁ k₂ w' (n₁.mono he (le_max_right _ _)) (n₂.mono he (le_max_right _ _))
        (hw'.mono he (le_max_left _ _)) o
      have hg : goesOn z = false := by
        by_contra hg
        have := z1 (by simpa using hg)
        have h2 : min τ (1 / 10 ^ 10 / 2) ≤ (1 : ℝ) / 10 ^ 10 / 2 := min_le_right _ _
        linarith
      obtain ⟨p', v1, v2, v3⟩ := z2 hg
      have h2 : min τ (1 / 10 ^ 10 / 2) ≤ τ := min_le_left _ _
      refine ⟨2, w', by simp [newtonLoop, hx, e, hz, hg], p', v1, ?_, by linarith⟩
      have := norm_sub_le_norm_sub_add_norm_sub p' (newtonOf q₁ q₂ p) r
      linarith
    | succ n ih =>
      intro p hp hpn D τ hτ
      obtain ⟨b₁, b₂, b₃, b₄, -⟩ := hn p hp
      have hp' : ‖newtonOf q₁ q₂ p - r‖ < δ := by linarith [norm_nonneg (p - r)]
      obtain ⟨g₁, g₂, -, -, g₅⟩ := hn _ hp'
      obtain ⟨C, HS⟩ := step_near b₁ b₂ b₃ D
      have IH := ih _ hp' (by rw [pow_succ] at hpn; linarith) (max C D) τ hτ
      refine (HS.and ((stop_near g₁ g₂ g₅ (max C D) hτ).and (IH.and .pos))).mono ?_
      rintro R ⟨HS, HN, IH, he⟩ k₁ k₂ w n₁ n₂ hw o x hx
      obtain ⟨w', e, hw'⟩ := HS k₁ k₂ w n₁ n₂ hw o
      have n₁' := n₁.mono he (le_max_right C D)
      have n₂' := n₂.mono he (le_max_right C D)
      have hw' := hw'.mono he (le_max_left C D)
      obtain ⟨z, hz, z1, z2⟩ := HN k₁ k₂ w' n₁' n₂' hw' o
      by_cases hg : goesOn z = true
      · obtain ⟨fuel, u, hu, p', v1, v2, v3⟩ := IH k₁ k₂ w' n₁' n₂' hw' o z hg
        refine ⟨fuel + 1, u, ?_, p', v1, by linarith [norm_nonneg (p - r)], v3⟩
        rw [newtonLoop, if_pos hx, e]
        simp only [hz]
        exact hu
      · have hg : goesOn z = false := by simpa using hg
        obtain ⟨p', v1, v2, v3⟩ := z2 hg
        refine ⟨2, w', by simp [newtonLoop, hx, e, hz, hg], p', v1, ?_, v3⟩
        have := norm_sub_le_norm_sub_add_norm_sub p' (newtonOf q₁ q₂ p) r
        linarith
  intro p hp
  obtain ⟨n, hn'⟩ := pow_unbounded_of_one_lt (‖p - r‖ / η) (one_lt_two)
  exact main n p hp (by rw [div_lt_iff₀ hη] at hn'; linarith)

end VM
