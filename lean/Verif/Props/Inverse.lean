import Verif.Props.QuadError
import Verif.Props.CtManip
import Verif.Props.Mentions
/-
Property C89: integration undoes differentiation, and the other way round.
-/
namespace VM.Props
open Spec Topology

/-! ### Run-time expressions -/

theorem diff_only_var {x : Nat} {e c : Expr XReal} (hx : ∀ j, Occurs j e → j = x) {y : DVar} (hc : diff y e = .ok c) :
    ∀ j, Occurs j c → j = x :=
  fun j hj => hx j (C88_diff y e c hc (.var j) hj.mentions).occurs

theorem integral_diff {x : Nat} {e c : Expr XReal} {a b : ℝ} (hr : ∀ t ∈ Set.uIcc a b, Reg (along x t) e)
    (hc : diff (.var x) e = .ok c) :
    ∫ t in a..b, integrandOf x c t = integrandOf x e b - integrandOf x e a := by
  refine intervalIntegral.integral_eq_sub_of_hasDerivAt (fun t ht => integrand_deriv (hr t ht) hc)
    (ContinuousOn.intervalIntegrable fun t ht => ?_)
  have hcr := (hr t ht).diff hc
  obtain ⟨d, hd, -⟩ := C11_derivative c x hcr.smooth
  exact (integrand_deriv hcr hd).continuousAt.continuousWithinAt

/-- C89.  The numerical integral of `diff(e, x)` over `[a, b]` differs from the difference of the values of `e` at `b`
and at `a` by at most `M |b - a|^3 / 24`; `M` bounds what differentiating `e` three times gives. -/
theorem C89_quadrature (o : Order XReal) (lo hi e c d : Expr XReal) (x : Nat) (a b M : ℝ)
    (hlo : ConstArith lo) (hhi : ConstArith hi) (ha : eval o [] lo = .ok (some a)) (hb : eval o [] hi = .ok (some b))
    (hs : Smooth e) (hx : ∀ j, Occurs j e → j = x) (hr : ∀ t ∈ Set.uIcc a b, RegularAt o (along x t) e)
    (hc : diff (.var x) e = .ok c) (hd : diffs [x, x, x] e = .ok d) (hM : ∀ t ∈ Set.uIcc a b, |integrandOf x d t| ≤ M) :
    ∃ v A B : ℝ, quadOver (gaussQuad1 o) lo hi x c = .ok (some v) ∧
      eval o (realPoint (along x a)) e = .ok (some A) ∧ eval o (realPoint (along x b)) e = .ok (some B) ∧
      |v - (B - A)| ≤ M * |b - a| ^ 3 / 24 := by
  have hreg : ∀ t ∈ Set.uIcc a b, Reg (along x t) e := fun t ht => (regularAt_iff hs o).1 (hr t ht)
  have hcreg : ∀ t ∈ Set.uIcc a b, Reg (along x t) c := fun t ht => (hreg t ht).diff hc
  have hd2 : diffs [x, x] c = .ok d := by
    rw [diffs, hc] at hd; exact hd
  obtain ⟨v, h1, h2⟩ := C66_error o lo hi c d x a b M hlo hhi ha hb (hcreg a Set.left_mem_uIcc).smooth
    (diff_only_var hx hc) (fun t ht => (regularAt_iff (hcreg t ht).smooth o).2 (hcreg t ht)) hd2 hM
  rw [integral_diff hreg hc] at h2
  refine ⟨v, _, _, h1, (hreg a Set.left_mem_uIcc).eval o, (hreg b Set.right_mem_uIcc).eval o, ?_⟩
  rwa [integrand_reg (hreg a Set.left_mem_uIcc), integrand_reg (hreg b Set.right_mem_uIcc)] at h2

/-- C89.  Integrated over `n + 1` pieces, `diff(e, x)` gives the difference of the values of `e` up to a constant divided
by the square of the number of pieces. -/
theorem C89_converges (o : Order XReal) (e c : Expr XReal) (x : Nat) (a b : ℝ) (hab : a ≤ b)
    (hs : Smooth e) (hx : ∀ j, Occurs j e → j = x) (hr : ∀ t ∈ Set.Icc a b, RegularAt o (along x t) e)
    (hc : diff (.var x) e = .ok c) :
    ∃ A B C : ℝ, eval o (realPoint (along x a)) e = .ok (some A) ∧ eval o (realPoint (along x b)) e = .ok (some B) ∧
      ∀ n : ℕ, ∃ v : ℝ,
        quadOf o (gaussQuad1 o) (pieces x c (fun k => a + k * ((b - a) / (n + 1))) n 0) = .ok (some v) ∧
        |v - (B - A)| ≤ C / (n + 1) ^ 2 := by
  have hreg : ∀ t ∈ Set.Icc a b, Reg (along x t) e := fun t ht => (regularAt_iff hs o).1 (hr t ht)
  have ha := hreg a (Set.left_mem_Icc.2 hab)
  have hb := hreg b (Set.right_mem_Icc.2 hab)
  obtain ⟨C, hC⟩ := C66_converges o c x a b hab (ha.diff hc).smooth (diff_only_var hx hc)
    fun t ht => (regularAt_iff ((hreg t ht).diff hc).smooth o).2 ((hreg t ht).diff hc)
  rw [integral_diff (by rwa [Set.uIcc_of_le hab]) hc, integrand_reg ha, integrand_reg hb] at hC
  exact ⟨_, _, C, ha.eval o, hb.eval o, hC⟩

/-- C89.  Integration by parts: the numerical integral of `u' v + u v'`, with the derivatives that `diff` returns, tends to
the difference of the values of `u v`. -/
theorem C89_by_parts (o : Order XReal) (u v u' v' : Expr XReal) (x : Nat) (a b : ℝ) (hab : a ≤ b)
    (hu : Smooth u) (hv : Smooth v) (hxu : ∀ j, Occurs j u → j = x) (hxv : ∀ j, Occurs j v → j = x)
    (hru : ∀ t ∈ Set.Icc a b, RegularAt o (along x t) u) (hrv : ∀ t ∈ Set.Icc a b, RegularAt o (along x t) v)
    (hdu : diff (.var x) u = .ok u') (hdv : diff (.var x) v = .ok v') :
    ∃ ua ub va vb C : ℝ,
      eval o (realPoint (along x a)) u = .ok (some ua) ∧ eval o (realPoint (along x b)) u = .ok (some ub) ∧
      eval o (realPoint (along x a)) v = .ok (some va) ∧ eval o (realPoint (along x b)) v = .ok (some vb) ∧
      ∀ n : ℕ, ∃ q : ℝ, quadOf o (gaussQuad1 o) (pieces x (.bin .plus (.bin .mult u' v) (.bin .mult u v'))
          (fun k => a + k * ((b - a) / (n + 1))) n 0) = .ok (some q) ∧
        |q - (ub * vb - ua * va)| ≤ C / (n + 1) ^ 2 := by
  have gu : ∀ t ∈ Set.Icc a b, Reg (along x t) u := fun t ht => (regularAt_iff hu o).1 (hru t ht)
  have gv : ∀ t ∈ Set.Icc a b, Reg (along x t) v := fun t ht => (regularAt_iff hv o).1 (hrv t ht)
  have ha := Set.left_mem_Icc.2 hab
  have hb := Set.right_mem_Icc.2 hab
  set f : Expr XReal := .bin .plus (.bin .mult u' v) (.bin .mult u v') with hf
  have gf : ∀ t ∈ Set.Icc a b, Reg (along x t) f := fun t ht => by
    have h1 := gu t ht
    have h2 := gv t ht
    have h3 := h1.diff hdu
    have h4 := h2.diff hdv
    simp [hf, Reg, opOk, h1, h2, h3, h4]
  have xf : ∀ j, Occurs j f → j = x := by
    intro j h
    have h : Occurs j (.bin .plus (.bin .mult u' v) (.bin .mult u v') : Expr XReal) := h
    cases h with
    | binL h => cases h with
      | binL h => exact diff_only_var hxu hdu j h
      | binR h => exact hxv j h
    | binR h => cases h with
      | binL h => exact hxu j h
      | binR h => exact diff_only_var hxv hdv j h
  obtain ⟨C, hC⟩ := C66_converges o f x a b hab (gf a ha).smooth xf
    fun t ht => (regularAt_iff (gf t ht).smooth o).2 (gf t ht)
  have hI : ∫ t in a..b, integrandOf x f t =
      integrandOf x u b * integrandOf x v b - integrandOf x u a * integrandOf x v a := by
    refine intervalIntegral.integral_eq_sub_of_hasDerivAt (f := fun t => integrandOf x u t * integrandOf x v t)
      (fun t ht => ?_) (ContinuousOn.intervalIntegrable fun t ht => ?_) <;> rw [Set.uIcc_of_le hab] at ht
    · refine ((integrand_deriv (gu t ht) hdu).mul (integrand_deriv (gv t ht) hdv)).congr_deriv ?_
      rw [integrand_reg (gf t ht), integrand_reg (gu t ht), integrand_reg (gv t ht),
        integrand_reg ((gu t ht).diff hdu), integrand_reg ((gv t ht).diff hdv)]
      simp [hf, rv, opR]
    · obtain ⟨d, hd, -⟩ := C11_derivative f x (gf t ht).smooth
      exact (integrand_deriv (gf t ht) hd).continuousAt.continuousWithinAt
  rw [hI, integrand_reg (gu a ha), integrand_reg (gu b hb), integrand_reg (gv a ha), integrand_reg (gv b hb)] at hC
  exact ⟨_, _, _, _, C, (gu a ha).eval o, (gu b hb).eval o, (gv a ha).eval o, (gv b hb).eval o, hC⟩

/-- The hypotheses for `sin(x)` and `x * x` on `[0, 1]`. -/
example (o : Order XReal) : Smooth (.un (.fn .sin) (.var 0) : Expr XReal) ∧
    (∀ t, RegularAt o (along 0 t) (.un (.fn .sin) (.var 0))) ∧
    (∀ t, RegularAt o (along 0 t) (.bin .mult (.var 0) (.var 0))) ∧
    (∃ c, diff (.var 0) (.un (.fn .sin) (.var 0) : Expr XReal) = .ok c) ∧
    (∀ j, Occurs j (.un (.fn .sin) (.var 0) : Expr XReal) → j = 0) := by
  have h1 : Smooth (.un (.fn .sin) (.var 0) : Expr XReal) := .fn (by simp) (.var 0)
  obtain ⟨c, hc, -⟩ := C11_derivative _ 0 h1
  refine ⟨h1, fun t => (regularAt_iff h1 o).2 (by simp [Reg, fnOk]), (C66_sharp o 0 1).2.2.1, ⟨c, hc⟩, fun j h => ?_⟩
  cases h with
  | un h => cases h; rfl

/-! ### Compile-time expressions -/

open VM.Ct

theorem ctDiff_has {i j : Nat} {e : CtExpr} : ∀ {d : CtExpr}, ctDiff i e = some d → Has j d → Has j e := by
  induction e with
  | const n => intro d h hj; cases h; exact hj
  | var k =>
    intro d h hj
    by_cases hk : k = i
    · simp only [ctDiff, hk, if_true, Option.some.injEq] at h; subst h; exact hj.elim
    · simp only [ctDiff, hk, if_false, Option.some.injEq] at h; subst h; exact hj.elim
  | fsym t => intro d h; cases h
  | bin l op r ihl ihr =>
    intro d h hj
    cases op <;> simp only [ctDiff, Option.bind_eq_some_iff, Option.some.injEq] at h <;>
      obtain ⟨l', hl, r', hr, rfl⟩ := h <;> have h1 := @ihl _ hl <;> have h2 := @ihr _ hr <;>
      simp only [Has] at hj ⊢ <;> tauto

theorem ctDiff_poly {i : Nat} {e : CtExpr} : ∀ {d : CtExpr}, ctDiff i e = some d → PolyIn i e → PolyIn i d := by
  induction e with
  | const n => intro d h _; cases h; trivial
  | var k =>
    intro d h _
    by_cases hk : k = i
    · simp only [ctDiff, hk, if_true, Option.some.injEq] at h; subst h; trivial
    · simp only [ctDiff, hk, if_false, Option.some.injEq] at h; subst h; trivial
  | fsym t => intro d h; cases h
  | bin l op r ihl ihr =>
    intro d h hp
    cases op <;> simp only [ctDiff, Option.bind_eq_some_iff, Option.some.injEq] at h <;>
      obtain ⟨l', hl, r', hr, rfl⟩ := h
    · exact ⟨ihl hl hp.1, ihr hr hp.2⟩
    · exact ⟨ihl hl hp.1, ihr hr hp.2⟩
    · exact ⟨⟨ihl hl hp.1, hp.2⟩, ⟨hp.1, ihr hr hp.2⟩⟩
    · have hr' : ¬ Has i r' := fun h => hp.2 (ctDiff_has hr h)
      exact ⟨⟨⟨ihl hl hp.1, _root_.VM.Ct.PolyIn.of_not_has hp.2⟩, ⟨hp.1, _root_.VM.Ct.PolyIn.of_not_has hr'⟩⟩, fun h => hp.2 (h.elim id id)⟩

theorem cval_hasDerivAt {i : Nat} {e d : CtExpr} (h : ctDiff i e = some d) {v φ : Nat → ℝ} {t : ℝ}
    (hd : CDefined (moved v i t) φ e) :
    HasDerivAt (fun s => cval (moved v i s) φ e) (cval (moved v i t) φ d) t := by
  have := (ctDiff_sound i h (moved v i t) φ hd).2
  simp only [moved, if_true] at this
  refine this.congr_of_eventuallyEq (.of_forall fun s => ?_)
  show cval (moved v i s) φ e = cval (moved (moved v i t) i s) φ e
  congr 1
  funext j
  simp only [moved]
  split <;> rfl

/-- C89.  Integrating the derivative of a polynomial in `x` at compile time, if that compiles and no number leaves the
range of `int`: the result evaluates to the difference of the values of the polynomial at the bounds, whatever
expressions they are. -/
theorem C89_integrate_diff {i : Nat} {a b e d r : CtExpr} (hp : PolyIn i e) (ho : OnlyVar i e)
    (hd : ctDiff i e = some d) (h : ctIntegrate strict a b d (.var i) = some r) :
    ctIntegrate narrow a b d (.var i) = some r ∧
    ∀ v φ : Nat → ℝ, CDefined v φ a → CDefined v φ b → CDefined v φ e →
      CVal v φ r (cval (moved v i (cval v φ b)) φ e - cval (moved v i (cval v φ a)) φ e) := by
  have hpd := ctDiff_poly hd hp
  obtain ⟨h1, h2⟩ := C42_single_variable_partial hpd (fun j hj => ho j (ctDiff_has hd hj)) h
  refine ⟨h1, fun v φ ha hb he => ?_⟩
  have := h2 v φ ha hb (ctDiff_sound i hd v φ he).1
  rwa [intervalIntegral.integral_eq_sub_of_hasDerivAt
    (fun t _ => cval_hasDerivAt hd ((cdefined_poly hp v φ t).2 he))
    ((poly_continuous hpd v φ).intervalIntegrable _ _)] at this

theorem cval_has {e : CtExpr} {v w φ : Nat → ℝ} (h : ∀ k, Has k e → v k = w k) : cval v φ e = cval w φ e := by
  induction e with
  | const n => rfl
  | var k => exact h k rfl
  | fsym _ => rfl
  | bin l op r ihl ihr =>
    have hl := ihl fun k hk => h k (.inl hk)
    have hr := ihr fun k hk => h k (.inr hk)
    cases op <;> simp only [cval, hl, hr]

theorem moved_self (v : Nat → ℝ) (j : Nat) : moved v j (v j) = v := by
  funext k; simp only [moved]; split
  · next h => rw [h]
  · rfl

theorem cdefined_eventually {j : Nat} {e e' : CtExpr} (hd : ctDiff j e = some e') {v φ : Nat → ℝ} (h : CDefined v φ e) :
    ∀ᶠ t in 𝓝 (v j), CDefined (moved v j t) φ e := by
  have hv := moved_self v j
  induction e generalizing e' with
  | const n => exact .of_forall fun _ => trivial
  | var k => exact .of_forall fun _ => trivial
  | fsym t => cases hd
  | bin l op r ihl ihr =>
    cases op <;> simp only [ctDiff, Option.bind_eq_some_iff, Option.some.injEq] at hd <;>
      obtain ⟨l', hl, r', hr, rfl⟩ := hd
    · exact (ihl hl h.1).and (ihr hr h.2)
    · exact (ihl hl h.1).and (ihr hr h.2)
    · exact (ihl hl h.1).and (ihr hr h.2)
    · have hc : ContinuousAt (fun t => cval (moved v j t) φ r) (v j) :=
        (ctDiff_sound j hr v φ h.2.1).2.continuousAt
      have hne : ∀ᶠ t in 𝓝 (v j), cval (moved v j t) φ r ≠ 0 := hc.eventually_ne (by rw [hv]; exact h.2.2)
      exact (ihl hl h.1).and ((ihr hr h.2.1).and hne)

/-- C89.  Differentiating an integral with variable bounds at compile time: the derivative by `x_j` evaluates to the
integrand at the upper bound times the derivative of that bound, minus the same for the lower bound. -/
theorem C89_diff_integrate {i j : Nat} {a b e r a' b' r' : CtExpr} (hp : PolyIn i e) (ho : OnlyVar i e)
    (h : ctIntegrate strict a b e (.var i) = some r) (ha' : ctDiff j a = some a') (hb' : ctDiff j b = some b')
    (hr' : ctDiff j r = some r') (v φ : Nat → ℝ) (ha : CDefined v φ a) (hb : CDefined v φ b) (he : CDefined v φ e) :
    CVal v φ r' (cval (moved v i (cval v φ b)) φ e * cval v φ b' - cval (moved v i (cval v φ a)) φ e * cval v φ a') := by
  obtain ⟨-, h2⟩ := C42_single_variable_partial hp ho h
  have hr := h2 v φ ha hb he
  obtain ⟨h3, h4⟩ := ctDiff_sound j hr' v φ hr.1
  refine ⟨h3, h4.unique ?_⟩
  set g : ℝ → ℝ := fun s => cval (moved v i s) φ e with hg
  have gc : Continuous g := poly_continuous hp v φ
  have near : (fun t => cval (moved v j t) φ r) =ᶠ[𝓝 (v j)]
      fun t => (∫ s in (0 : ℝ)..cval (moved v j t) φ b, g s) - ∫ s in (0 : ℝ)..cval (moved v j t) φ a, g s := by
    filter_upwards [cdefined_eventually ha' ha, cdefined_eventually hb' hb] with t h5 h6
    have h7 : CDefined (moved v j t) φ e := by
      by_cases hj : Has j e
      · rw [ho j hj]; exact (cdefined_poly hp v φ t).2 he
      · exact (cdefined_moved hj v φ t).2 he
    rw [(h2 _ φ h5 h6 h7).2, intervalIntegral.integral_interval_sub_left (gc.intervalIntegrable _ _)
      (gc.intervalIntegrable _ _)]
    refine intervalIntegral.integral_congr fun s _ => cval_has fun k hk => ?_
    simp [moved, ho k hk]
  have der : ∀ {c c' : CtExpr}, ctDiff j c = some c' → CDefined v φ c →
      HasDerivAt (fun t => ∫ s in (0 : ℝ)..cval (moved v j t) φ c, g s) (g (cval v φ c) * cval v φ c') (v j) := by
    intro c c' hc hdc
    have h8 := (ctDiff_sound j hc v φ hdc).2
    have h9 : HasDerivAt (fun y => ∫ s in (0 : ℝ)..y, g s) (g (cval (moved v j (v j)) φ c)) (cval (moved v j (v j)) φ c) :=
      (gc.integral_hasStrictDerivAt 0 _).hasDerivAt
    have := h9.comp (v j) h8
    rwa [moved_self] at this
  exact ((der hb' hb).sub (der ha' ha)).congr_of_eventuallyEq near

/-- `diff(x*x, x)` can be integrated from 0 to `y`, and `x*x*x - x` from 1 to `y`, and the result differentiated by `y`. -/
example : (∃ d, ctDiff 0 (.var 0 *' .var 0) = some d ∧ (ctIntegrate strict ♯0 (.var 1) d (.var 0)).isSome) ∧
    ((ctIntegrate strict ♯1 (.var 1) (.var 0 *' .var 0 *' .var 0 -' .var 0) (.var 0)).bind (ctDiff 1)).isSome := by
  refine ⟨⟨_, rfl, ?_⟩, ?_⟩
  · simp only [ctIntegrate]
    rw [show expand (.bin (♯1 *' .var 0) .plus (.var 0 *' ♯1)) = (♯1 *' .var 0) +' (.var 0 *' ♯1) by
      simp [expand_mul, expandProduct, hasPM]]
    decide +kernel
  · simp only [ctIntegrate]
    rw [show expand (.bin (.var 0 *' .var 0 *' .var 0) .minus (.var 0)) =
      .var 0 *' .var 0 *' .var 0 -' .var 0 by simp [expand_mul, expandProduct, hasPM]]
    decide +kernel

end VM.Props
