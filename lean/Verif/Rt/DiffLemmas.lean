import Verif.Rt.Diff
import Verif.Rt.ValLemmas
import Verif.Rt.EqualLemmas
import Verif.Spec.Diff
import Verif.NumReal
import Mathlib.Analysis.SpecialFunctions.Log.Deriv
import Mathlib.Analysis.SpecialFunctions.Trigonometric.Deriv
import Mathlib.Analysis.SpecialFunctions.ExpDeriv
/-
Lemmas on run-time differentiation.
-/
namespace VM
open Spec Filter Topology

/-! ### Inversion of values over `XReal` -/
section
variable {I : Interp XReal} {ρ : Nat → Option XReal}

theorem opVal_some {op : BOp} {x y : XReal} {c : ℝ} (h : opVal op x y = some (some c)) :
    ∃ a b : ℝ, x = some a ∧ y = some b := by
  rcases x with _ | x
  · cases op <;> simp [opVal, Num.add, Num.sub, Num.mul, Num.div, XReal.lift2, XReal.div] at h
  · rcases y with _ | y
    · cases op <;> simp [opVal, Num.add, Num.sub, Num.mul, Num.div, XReal.lift2, XReal.div] at h
    · exact ⟨x, y, rfl, rfl⟩

theorem applyFn_some {f : Fn} {x : XReal} {c : ℝ} (h : applyFn f x = some c) : ∃ a : ℝ, x = some a := by
  rcases x with _ | x
  · cases f <;> simp [applyFn, Num.fn, XReal.fn] at h
  · exact ⟨x, rfl⟩

end

theorem Spec.Val.fn_inv {I : Interp XReal} {ρ : Nat → Option XReal} {f : Fn} {e : Expr XReal} {a : ℝ}
    (h : Val I ρ (.un (.fn f) e) (some a)) :
    ∃ b : ℝ, Val I ρ e (some b) ∧ applyFn f (some b : XReal) = some a := by
  generalize hy : (some a : XReal) = y at h
  cases h with | fn h =>
  obtain ⟨b, rfl⟩ := applyFn_some hy.symm
  exact ⟨b, h, rfl⟩

theorem Spec.Val.bin_inv {K : Type} [Num K] {I : Interp K} {ρ : Nat → Option K} {op : BOp} {l r : Expr K}
    {a : K} (h : Val I ρ (.bin op l r) a) (hl : ∀ es, l ≠ .vec es) :
    ∃ b c, Val I ρ l b ∧ Val I ρ r c ∧ opVal op b c = some a := by
  cases h with
  | bin h1 h2 h3 => exact ⟨_, _, h1, h2, h3⟩
  | dotOne | dotSnoc => exact absurd rfl (hl _)

/-- How the values of the atoms depend on the parameter `t`: the one differentiated with respect to is
`t`, all others are constant. -/
structure Varies (x : DVar) (I : ℝ → Interp XReal) (ρ : ℝ → Nat → Option XReal) (t₀ : ℝ) : Prop where
  var_self : ∀ j, x = .var j → ∀ t, ρ t j = some (some t)
  var_other : ∀ j, x ≠ .var j → ∀ t, ρ t j = ρ t₀ j
  sym_self : ∀ j u, x = .fsym j u → ∀ t, (I t).sym j u = some (some t)
  sym_other : ∀ j u, x ≠ .fsym j u → ∀ t, (I t).sym j u = (I t₀).sym j u

/-- The raw derivative has the right value. -/
theorem diffE_deriv {x : DVar} {I : ℝ → Interp XReal} {ρ : ℝ → Nat → Option XReal} {t₀ : ℝ}
    (H : Varies x I ρ t₀) {e : Expr XReal} (hs : SmoothSym e)
    (hx : (∃ j u, x = .fsym j u) ∨ Smooth e)
    {a : ℝ} (he : Val (I t₀) (ρ t₀) e (some a))
    (hq : ∀ s, Sub (.un (.fn .sqrt) s) e → ¬ Val (I t₀) (ρ t₀) s (some 0)) :
    ∃ e', diffE x e = .ok e' ∧ ∃ (f : ℝ → ℝ) (f' : ℝ),
      (∀ᶠ t in 𝓝 t₀, Val (I t) (ρ t) e (some (f t))) ∧ f t₀ = a ∧ HasDerivAt f f' t₀ ∧
      Val (I t₀) (ρ t₀) e' (some f') := by
  induction hs generalizing a with
  | const c =>
    cases he
    exact ⟨_, rfl, fun _ => a, 0, .of_forall fun _ => .const, rfl, hasDerivAt_const _ _, by
      simpa [Num.lit] using (Val.const (I := I t₀) (ρ := ρ t₀) (c := (some 0 : XReal)))⟩
  | var i =>
    cases he with | var he =>
    refine ⟨_, rfl, ?_⟩
    by_cases h : x = .var i
    · have := H.var_self i h
      rw [this] at he
      simp only [Option.some.injEq] at he
      refine ⟨fun t => t, 1, .of_forall fun t => .var (this t), he, hasDerivAt_id t₀, ?_⟩
      simpa [h, Num.lit] using (Val.const (I := I t₀) (ρ := ρ t₀) (c := (some 1 : XReal)))
    · refine ⟨fun _ => a, 0, .of_forall fun t => .var ((H.var_other i h t).trans he), rfl,
        hasDerivAt_const _ _, ?_⟩
      simpa [h, Num.lit] using (Val.const (I := I t₀) (ρ := ρ t₀) (c := (some 0 : XReal)))
  | fsym i u =>
    obtain ⟨j, v, rfl⟩ : ∃ j u, x = .fsym j u := hx.resolve_right (nomatch ·)
    cases he with | fsym he =>
    refine ⟨_, rfl, ?_⟩
    by_cases h : j = i ∧ v = u
    · have := H.sym_self i u (by rw [h.1, h.2])
      rw [this] at he
      simp only [Option.some.injEq] at he
      refine ⟨fun t => t, 1, .of_forall fun t => .fsym (this t), he, hasDerivAt_id t₀, ?_⟩
      simpa [h, Num.lit] using (Val.const (I := I t₀) (ρ := ρ t₀) (c := (some 1 : XReal)))
    · refine ⟨fun _ => a, 0, .of_forall fun t => .fsym ((H.sym_other i u (by simpa using h) t).trans he), rfl,
        hasDerivAt_const _ _, ?_⟩
      simpa [h, Num.lit] using (Val.const (I := I t₀) (ρ := ρ t₀) (c := (some 0 : XReal)))
  | @fn f e hf _ ih =>
    obtain ⟨b, hb, hy⟩ := he.fn_inv
    obtain ⟨e', he', g, g', hg, hg0, hgd, hgv⟩ := ih
      (hx.imp_right fun h => by cases h; assumption) hb (fun s h => hq s (.un h))
    subst hg0
    have hgc := hgd.continuousAt
    have hval : ∀ t, Val (I t) (ρ t) e (some (g t)) →
        Val (I t) (ρ t) (.un (.fn f) e) (applyFn f (some (g t))) := fun t h => .fn h
    cases f with
    | id =>
      simp only [applyFn, Option.some.injEq] at hy
      refine ⟨e', by simp [diffE, diffFn, he'], g, g', hg.mono fun t h => ?_, hy, hgd, hgv⟩
      simpa [applyFn] using hval t h
    | exp =>
      simp only [applyFn, Num.fn, XReal.fn, Option.some.injEq] at hy
      refine ⟨_, by rw [diffE, he']; rfl, fun t => Real.exp (g t), _, hg.mono fun t h => ?_, hy,
        hgd.exp, ?_⟩
      · simpa [applyFn, Num.fn, XReal.fn] using hval t h
      · exact .bin (.fn hb) hgv rfl
    | sin =>
      simp only [applyFn, Num.fn, XReal.fn, Option.some.injEq] at hy
      refine ⟨_, by rw [diffE, he']; rfl, fun t => Real.sin (g t), _, hg.mono fun t h => ?_, hy,
        hgd.sin, ?_⟩
      · simpa [applyFn, Num.fn, XReal.fn] using hval t h
      · exact .bin (.fn hb) hgv rfl
    | cos =>
      simp only [applyFn, Num.fn, XReal.fn, Option.some.injEq] at hy
      refine ⟨_, by rw [diffE, he']; rfl, fun t => Real.cos (g t), _, hg.mono fun t h => ?_, hy,
        hgd.cos, ?_⟩
      · simpa [applyFn, Num.fn, XReal.fn] using hval t h
      · refine .bin (.fn hb) (.bin .const hgv rfl) ?_
        simp [opVal, applyFn, Num.fn, XReal.fn, Num.mul, Num.lit, XReal.lift2]
    | tan =>
      by_cases hc : Real.cos (g t₀) = 0
      · simp [applyFn, Num.fn, XReal.fn, hc] at hy
      simp only [applyFn, Num.fn, XReal.fn, hc, if_false, Option.some.injEq] at hy
      have hcc : ∀ᶠ t in 𝓝 t₀, Real.cos (g t) ≠ 0 := hgd.cos.continuousAt.eventually_ne hc
      refine ⟨_, by rw [diffE, he']; rfl, fun t => Real.sin (g t) / Real.cos (g t),
        _, (hg.and hcc).mono fun t h => ?_, by simp only [← Real.tan_eq_sin_div_cos, hy],
        hgd.sin.div hgd.cos hc, ?_⟩
      · have := hval t h.1
        simpa [applyFn, Num.fn, XReal.fn, h.2, Real.tan_eq_sin_div_cos] using this
      · refine .bin hgv (.bin (.fn hb) (.fn hb) rfl) ?_
        have h1 : g' / (Real.cos (g t₀) * Real.cos (g t₀)) = (Real.cos (g t₀) * g' * Real.cos (g t₀) -
            Real.sin (g t₀) * (-Real.sin (g t₀) * g')) / Real.cos (g t₀) ^ 2 := by
          have := Real.sin_sq_add_cos_sq (g t₀)
          field_simp
          linear_combination (-g') * this
        rw [← h1]
        simp [opVal, applyFn, Num.fn, XReal.fn, Num.mul, Num.div, XReal.lift2, XReal.div, hc]
    | fabs => exact absurd rfl hf
    | sqrt =>
      by_cases hc : g t₀ < 0
      · simp [applyFn, Num.fn, XReal.fn, hc] at hy
      simp only [applyFn, Num.fn, XReal.fn, hc, if_false, Option.some.injEq] at hy
      have hne : g t₀ ≠ 0 := fun h => hq e .refl (h ▸ hb)
      have hpos : 0 < g t₀ := lt_of_le_of_ne (not_lt.1 hc) (Ne.symm hne)
      have hcc : ∀ᶠ t in 𝓝 t₀, 0 < g t := hgc.eventually (lt_mem_nhds hpos)
      refine ⟨_, by rw [diffE, he']; rfl, fun t => Real.sqrt (g t),
        _, (hg.and hcc).mono fun t h => ?_, hy, hgd.sqrt hne, ?_⟩
      · have := hval t h.1
        simpa [applyFn, Num.fn, XReal.fn, not_lt.2 h.2.le] using this
      · refine .bin hgv (.bin .const (.fn hb) rfl) ?_
        have : Real.sqrt (g t₀) ≠ 0 := (Real.sqrt_pos.2 hpos).ne'
        simp [opVal, applyFn, Num.fn, XReal.fn, Num.mul, Num.div, Num.lit, XReal.lift2, XReal.div, hc, this]
    | log =>
      by_cases hc : g t₀ ≤ 0
      · simp [applyFn, Num.fn, XReal.fn, hc] at hy
      simp only [applyFn, Num.fn, XReal.fn, hc, if_false, Option.some.injEq] at hy
      have hpos : 0 < g t₀ := not_le.1 hc
      have hcc : ∀ᶠ t in 𝓝 t₀, 0 < g t := hgc.eventually (lt_mem_nhds hpos)
      refine ⟨_, by rw [diffE, he']; rfl, fun t => Real.log (g t),
        _, (hg.and hcc).mono fun t h => ?_, hy, hgd.log hpos.ne', ?_⟩
      · have := hval t h.1
        simpa [applyFn, Num.fn, XReal.fn, not_le.2 h.2] using this
      · refine .bin hgv (.fn hb) ?_
        simp [opVal, applyFn, Num.div, XReal.div, hpos.ne']
    | log10 =>
      by_cases hc : g t₀ ≤ 0
      · simp [applyFn, Num.fn, XReal.fn, hc] at hy
      simp only [applyFn, Num.fn, XReal.fn, hc, if_false, Option.some.injEq] at hy
      have hpos : 0 < g t₀ := not_le.1 hc
      have hcc : ∀ᶠ t in 𝓝 t₀, 0 < g t := hgc.eventually (lt_mem_nhds hpos)
      refine ⟨_, by rw [diffE, he']; rfl, fun t => Real.log (g t) / Real.log 10,
        _, (hg.and hcc).mono fun t h => ?_, hy, (hgd.log hpos.ne').div_const _, ?_⟩
      · have := hval t h.1
        simpa [applyFn, Num.fn, XReal.fn, not_le.2 h.2] using this
      · refine .bin hgv (.bin .const (.fn hb) rfl) ?_
        have h10 : Real.log 10 ≠ 0 := (Real.log_pos (by norm_num)).ne'
        have h1 : g' / g t₀ / Real.log 10 = g' / (Real.log 10 * g t₀) := by
          field_simp
        have h11 : ¬ (10 : ℝ) ≤ 0 := by norm_num
        have h12 : Real.log 10 * g t₀ ≠ 0 := mul_ne_zero h10 hpos.ne'
        simp only [opVal, applyFn, Num.fn, XReal.fn, Num.mul, Num.div, Num.lit, Int.cast_ofNat, h11, if_false,
          XReal.lift2, XReal.div, h12, h1]
  | @bin op l r ho hl hr ihl ihr =>
    obtain ⟨y, z, hy, hz, hv⟩ := he.bin_inv fun es h => by subst h; cases hl
    obtain ⟨b, c, rfl, rfl⟩ := opVal_some hv
    obtain ⟨l', hl', f, f', hf, hf0, hfd, hfv⟩ := ihl
      (hx.imp_right fun h => by cases h; assumption) hy (fun s h => hq s (.binL h))
    obtain ⟨r', hr', g, g', hg, hg0, hgd, hgv⟩ := ihr
      (hx.imp_right fun h => by cases h; assumption) hz (fun s h => hq s (.binR h))
    subst hf0 hg0
    rcases ho with rfl | rfl | rfl | rfl
    · simp only [opVal, Num.add, XReal.lift2, Option.some.injEq] at hv
      exact ⟨_, by rw [diffE, hl', hr']; rfl, fun t => f t + g t, _,
        (hf.and hg).mono fun t h => .bin h.1 h.2 rfl, hv, hfd.add hgd, .bin hfv hgv rfl⟩
    · simp only [opVal, Num.sub, XReal.lift2, Option.some.injEq] at hv
      exact ⟨_, by rw [diffE, hl', hr']; rfl, fun t => f t - g t, _,
        (hf.and hg).mono fun t h => .bin h.1 h.2 rfl, hv, hfd.sub hgd, .bin hfv hgv rfl⟩
    · simp only [opVal, Num.mul, XReal.lift2, Option.some.injEq] at hv
      exact ⟨_, by rw [diffE, hl', hr']; rfl, fun t => f t * g t, _,
        (hf.and hg).mono fun t h => .bin h.1 h.2 rfl, hv, hfd.mul hgd,
        .bin (.bin hfv hz rfl) (.bin hy hgv rfl) rfl⟩
    · by_cases hc : g t₀ = 0
      · simp [opVal, Num.div, XReal.div, hc] at hv
      simp only [opVal, Num.div, XReal.div, hc, if_false, Option.some.injEq] at hv
      have hcc : ∀ᶠ t in 𝓝 t₀, g t ≠ 0 := hgd.continuousAt.eventually_ne hc
      refine ⟨_, by rw [diffE, hl', hr']; rfl, fun t => f t / g t, _,
        ((hf.and hg).and hcc).mono fun t h => .bin h.1.1 h.1.2 (by simp [opVal, Num.div, XReal.div, h.2]), hv,
        hfd.div hgd hc, .bin (.bin (.bin hfv hz rfl) (.bin hy hgv rfl) rfl) (.bin hz hz rfl) ?_⟩
      simp [opVal, Num.div, Num.mul, Num.sub, XReal.div, XReal.lift2, hc, pow_two]

/-! ### Which expressions can be differentiated -/
section
variable {K : Type} [Num K]

theorem diffEL_eq_ok {x : DVar} {es ds : List (Expr K)} (h : diffEL x es = .ok ds) :
    ds.length = es.length ∧ ∀ d ∈ ds, ∃ e ∈ es, diffE x e = .ok d := by
  induction es generalizing ds with
  | nil => simp only [diffEL, Res.ok.injEq] at h; subst h; simp
  | cons e es ih =>
    obtain ⟨d, hd, h⟩ := Res.bind_eq_ok.1 h
    obtain ⟨ds', hds, rfl⟩ := Res.map_eq_ok.1 h
    obtain ⟨h1, h2⟩ := ih hds
    refine ⟨by simp [h1], ?_⟩
    intro d' hd'
    rcases List.mem_cons.1 hd' with rfl | hd'
    · exact ⟨e, by simp, hd⟩
    · obtain ⟨e', he', h⟩ := h2 d' hd'
      exact ⟨e', by simp [he'], h⟩

theorem diffE_wellFormed {x : DVar} {e : Expr K} (hw : WellFormed e) {d : Expr K}
    (h : diffE x e = .ok d) : WellFormed d := by
  induction hw generalizing d with
  | const c => simp only [diffE, Res.ok.injEq] at h; subst h; exact .const _
  | var i => simp only [diffE, Res.ok.injEq] at h; subst h; exact .const _
  | fsym i t =>
    simp only [diffE] at h
    split at h
    · cases h
    · simp only [Res.ok.injEq] at h; subst h; exact .const _
  | @un op e he ih =>
    cases op with
    | fn f =>
      cases f <;> simp only [diffE, diffFn] at h
      case id => exact ih h
      case fabs => cases h
      all_goals
        obtain ⟨d', hd, rfl⟩ := Res.map_eq_ok.1 h
        have := ih hd
        repeat' first | assumption | exact .const _ | apply WellFormed.un | apply WellFormed.bin
        all_goals simp [IsArithOp]
    | grad =>
      simp only [diffE] at h
      split at h
      · cases h
      · obtain ⟨d', hd, h⟩ := Res.bind_eq_ok.1 h
        obtain ⟨b, hb, rfl⟩ := Res.map_eq_ok.1 h
        split
        · exact .const _
        · exact .un _ (ih hd)
    | _ => simp [diffE] at h
  | integ => simp [diffE] at h
  | @bin op l r ho hl hr ihl ihr =>
    rcases ho with rfl | rfl | rfl | rfl <;> simp only [diffE, diffBin] at h
    all_goals
      obtain ⟨l', hl', h⟩ := Res.bind_eq_ok.1 h
      obtain ⟨r', hr', rfl⟩ := Res.map_eq_ok.1 h
      have h1 := ihl hl'
      have h2 := ihr hr'
      repeat' first | assumption | apply WellFormed.bin
      all_goals simp [IsArithOp]
  | @vec es _ ih =>
    obtain ⟨ds, hds, rfl⟩ := Res.map_eq_ok.1 h
    refine .vec fun d hd => ?_
    obtain ⟨e, he, h⟩ := (diffEL_eq_ok hds).2 d hd
    exact ih e he h

theorem diffE_vecDim {x : DVar} {n : Nat} {e : Expr K} (hw : VecDim n e) {d : Expr K}
    (h : diffE x e = .ok d) : VecDim n d := by
  induction hw generalizing d with
  | const c => simp only [diffE, Res.ok.injEq] at h; subst h; exact .const _
  | var i => simp only [diffE, Res.ok.injEq] at h; subst h; exact .const _
  | fsym i t =>
    simp only [diffE] at h
    split at h
    · cases h
    · simp only [Res.ok.injEq] at h; subst h; exact .const _
  | @un op e he ih =>
    cases op with
    | fn f =>
      cases f <;> simp only [diffE, diffFn] at h
      case id => exact ih h
      case fabs => cases h
      all_goals
        obtain ⟨d', hd, rfl⟩ := Res.map_eq_ok.1 h
        have := ih hd
        repeat' first | assumption | exact .const _ | apply VecDim.un | apply VecDim.bin
    | grad =>
      simp only [diffE] at h
      split at h
      · cases h
      · obtain ⟨d', hd, h⟩ := Res.bind_eq_ok.1 h
        obtain ⟨b, hb, rfl⟩ := Res.map_eq_ok.1 h
        split
        · exact .const _
        · exact .un _ (ih hd)
    | _ => simp [diffE] at h
  | integ => simp [diffE] at h
  | @bin op l r hl hr ihl ihr =>
    cases op <;> simp only [diffE, diffBin] at h
    case uid => cases h
    all_goals
      obtain ⟨l', hl', h⟩ := Res.bind_eq_ok.1 h
      obtain ⟨r', hr', rfl⟩ := Res.map_eq_ok.1 h
      have h1 := ihl hl'
      have h2 := ihr hr'
      repeat' first | assumption | apply VecDim.bin
  | @vec es hlen _ ih =>
    obtain ⟨ds, hds, rfl⟩ := Res.map_eq_ok.1 h
    obtain ⟨h1, h2⟩ := diffEL_eq_ok hds
    refine .vec (h1.trans hlen) fun d hd => ?_
    obtain ⟨e, he, h⟩ := h2 d hd
    exact ih e he h

theorem diffE_cases {i : Nat} {e : Expr K} (hw : WellFormed e) :
    (Unsupported e ∧ diffE (.var i) e = .throw .notDifferentiable) ∨
    (¬ Unsupported e ∧ ∃ d, diffE (.var i) e = .ok d) := by
  induction hw with
  | const c => exact .inr ⟨nofun, _, rfl⟩
  | var j => exact .inr ⟨nofun, _, rfl⟩
  | fsym j t => exact .inl ⟨.fsym j t, rfl⟩
  | @un op e he ih =>
    cases op with
    | fn f =>
      by_cases hf : f = .fabs
      · subst hf; exact .inl ⟨.fabs e, rfl⟩
      rcases ih with ⟨hu, hd⟩ | ⟨hu, d, hd⟩
      · refine .inl ⟨.un hu, ?_⟩
        rw [diffE, hd]; cases f <;> rfl
      · refine .inr ⟨fun h => ?_, ?_⟩
        · cases h with
          | fabs => exact hf rfl
          | un h => exact hu h
        · rw [diffE, hd]; cases f <;> first | exact ⟨_, rfl⟩ | exact absurd rfl hf
    | grad => exact .inl ⟨.grad e, rfl⟩
    | divg => exact .inl ⟨.divg e, rfl⟩
    | pd j => exact .inl ⟨.pd j e, rfl⟩
    | symInt j => exact .inl ⟨.symInt j e, rfl⟩
  | integ => exact .inl ⟨.integ _ _ _ _, rfl⟩
  | @bin op l r ho _ _ ihl ihr =>
    rcases ihl with ⟨hu, hd⟩ | ⟨hu, d, hd⟩
    · refine .inl ⟨.binL hu, ?_⟩
      rw [diffE, hd]; rcases ho with rfl | rfl | rfl | rfl <;> rfl
    · rcases ihr with ⟨hu', hd'⟩ | ⟨hu', d', hd'⟩
      · refine .inl ⟨.binR hu', ?_⟩
        rw [diffE, hd, hd']; rcases ho with rfl | rfl | rfl | rfl <;> rfl
      · refine .inr ⟨fun h => ?_, ?_⟩
        · cases h with
          | binL h => exact hu h
          | binR h => exact hu' h
        · rw [diffE, hd, hd']; rcases ho with rfl | rfl | rfl | rfl <;> exact ⟨_, rfl⟩
  | @vec es _ ih =>
    have key : (∃ e ∈ es, Unsupported e) ∧ diffEL (.var i) es = .throw .notDifferentiable ∨
        (¬ ∃ e ∈ es, Unsupported e) ∧ ∃ ds, diffEL (.var i) es = .ok ds := by
      clear * - ih
      induction es with
      | nil => exact .inr ⟨by simp, _, rfl⟩
      | cons e es ih' =>
        rcases ih e (by simp) with ⟨hu, hd⟩ | ⟨hu, d, hd⟩
        · exact .inl ⟨⟨e, by simp, hu⟩, by rw [diffEL, hd]; rfl⟩
        · rcases ih' (fun e he => ih e (by simp [he])) with ⟨⟨e', he', hu'⟩, hd'⟩ | ⟨hu', ds, hd'⟩
          · exact .inl ⟨⟨e', by simp [he'], hu'⟩, by rw [diffEL, hd, hd']; rfl⟩
          · refine .inr ⟨?_, by rw [diffEL, hd, hd']; exact ⟨_, rfl⟩⟩
            rintro ⟨e', he', h⟩
            rcases List.mem_cons.1 he' with rfl | he'
            · exact hu h
            · exact hu' ⟨e', he', h⟩
    rcases key with ⟨⟨e, he, hu⟩, hd⟩ | ⟨hu, ds, hd⟩
    · exact .inl ⟨.vec he hu, by rw [diffE, hd]; rfl⟩
    · refine .inr ⟨?_, by rw [diffE, hd]; exact ⟨_, rfl⟩⟩
      intro h
      cases h with | vec he h => exact hu ⟨_, he, h⟩

end

/-! ### Literally zero derivatives -/

/-- Shape of the raw derivative of an expression that does not contain the variable. -/
inductive Zero : Expr XReal → Prop
  | const : Zero (.const (some 0))
  | plus {l r} : Zero l → Zero r → Zero (.bin .plus l r)
  | minus {l r} : Zero l → Zero r → Zero (.bin .minus l r)
  | multL {l r} : Zero l → Zero (.bin .mult l r)
  | multR {l r} : Zero r → Zero (.bin .mult l r)
  | div {l r} : Zero l → Zero (.bin .div l r)

section
variable {I : Interp XReal} {ρ : Nat → Option XReal}

theorem Zero.ne_vec {e : Expr XReal} (h : Zero e) (es) : e ≠ .vec es := by rintro rfl; cases h

theorem Spec.Val.bin_inv_r {K : Type} [Num K] {I : Interp K} {ρ : Nat → Option K} {op : BOp} {l r : Expr K}
    {a : K} (h : Val I ρ (.bin op l r) a) (hl : ∀ es, r ≠ .vec es) :
    ∃ b c, Val I ρ l b ∧ Val I ρ r c ∧ opVal op b c = some a := by
  cases h with
  | bin h1 h2 h3 => exact ⟨_, _, h1, h2, h3⟩
  | dotOne | dotSnoc => exact absurd rfl (hl _)

theorem Zero.value {e : Expr XReal} (h : Zero e) {a : ℝ} (ha : Val I ρ e (some a)) : a = 0 := by
  induction h generalizing a with
  | const => cases ha; rfl
  | plus hl _ ihl ihr =>
    obtain ⟨b, c, hb, hc, h⟩ := ha.bin_inv hl.ne_vec
    obtain ⟨b, c, rfl, rfl⟩ := opVal_some h
    obtain rfl := ihl hb; obtain rfl := ihr hc
    simpa [opVal, Num.add, XReal.lift2] using h.symm
  | minus hl _ ihl ihr =>
    obtain ⟨b, c, hb, hc, h⟩ := ha.bin_inv hl.ne_vec
    obtain ⟨b, c, rfl, rfl⟩ := opVal_some h
    obtain rfl := ihl hb; obtain rfl := ihr hc
    simpa [opVal, Num.sub, XReal.lift2] using h.symm
  | multL hl ihl =>
    obtain ⟨b, c, hb, hc, h⟩ := ha.bin_inv hl.ne_vec
    obtain ⟨b, c, rfl, rfl⟩ := opVal_some h
    obtain rfl := ihl hb
    simpa [opVal, Num.mul, XReal.lift2] using h.symm
  | multR hr ihr =>
    obtain ⟨b, c, hb, hc, h⟩ := ha.bin_inv_r hr.ne_vec
    obtain ⟨b, c, rfl, rfl⟩ := opVal_some h
    obtain rfl := ihr hc
    simpa [opVal, Num.mul, XReal.lift2] using h.symm
  | div hl ihl =>
    obtain ⟨b, c, hb, hc, h⟩ := ha.bin_inv hl.ne_vec
    obtain ⟨b, c, rfl, rfl⟩ := opVal_some h
    obtain rfl := ihl hb
    by_cases hc : c = 0
    · simp [opVal, Num.div, XReal.div, hc] at h
    · simpa [opVal, Num.div, XReal.div, hc] using h.symm

theorem Zero.bin_vals {op : BOp} {l r : Expr XReal} (h : Zero (.bin op l r)) {a : ℝ}
    (ha : Val I ρ (.bin op l r) (some a)) : ∃ b c : ℝ, Val I ρ l (some b) ∧ Val I ρ r (some c) := by
  have : ∃ b c, Val I ρ l b ∧ Val I ρ r c ∧ opVal op b c = some (some a) := by
    cases h with
    | plus h | minus h | multL h | div h => exact ha.bin_inv h.ne_vec
    | multR h => exact ha.bin_inv_r h.ne_vec
  obtain ⟨b, c, hb, hc, h⟩ := this
  obtain ⟨b, c, rfl, rfl⟩ := opVal_some h
  exact ⟨b, c, hb, hc⟩

/-- A constant operand of this shape is folded to 0. -/
theorem Zero.unwrap {e : Expr XReal} (h : Zero e) {a : ℝ} (ha : Val I ρ e (some a))
    (hc : isConst e = true) {c : XReal} (hu : unwrap leftFirst e = .ok c) : c = some 0 := by
  rw [← ha.of_isConst hc hu, h.value ha]

theorem XReal.one_ne : Num.eqb (some 0 : XReal) (Num.lit 1) = false := by
  simp [Num.eqb, Num.lit, XReal.eqb]

theorem XReal.zero_eq : Num.eqb (some 0 : XReal) (Num.lit 0) = true := by
  simp [Num.eqb, Num.lit, XReal.eqb]

theorem Zero.pass {e e' : Expr XReal} (hp : Pass e e') (h : Zero e) {a : ℝ}
    (ha : Val I ρ e (some a)) : Zero e' := by
  have lit0 : Zero (.const (Num.lit 0)) := by
    simpa [Num.lit] using Zero.const
  induction hp generalizing a with
  | const | var | fsym | vec | uid => exact h
  | unFold | unConst | un | integConst | integ => cases h
  | fold h1 h2 hu =>
    rw [h.unwrap ha (by simp [isConst, h1, h2]) hu]; exact .const
  | multZeroL | multZeroR | divZeroL => exact lit0
  | dotp hd =>
    cases h with
    | multL h => cases h
    | multR h => cases h
  | plusZeroL _ _ _ _ _ ih =>
    obtain ⟨b, c, hb, hc⟩ := h.bin_vals ha
    cases h with | plus _ h => exact ih h hc
  | plusZeroR _ _ _ _ _ ih =>
    obtain ⟨b, c, hb, hc⟩ := h.bin_vals ha
    cases h with | plus h _ => exact ih h hb
  | minusZeroL _ _ _ _ _ ih =>
    obtain ⟨b, c, hb, hc⟩ := h.bin_vals ha
    cases h with | minus _ h => exact .multR (ih h hc)
  | minusZeroR _ _ _ _ _ ih =>
    obtain ⟨b, c, hb, hc⟩ := h.bin_vals ha
    cases h with | minus h _ => exact ih h hb
  | multOneL h1 _ h3 h4 _ ih =>
    obtain ⟨b, c, hb, hc⟩ := h.bin_vals ha
    cases h with
    | multL h => rw [h.unwrap hb h1 h3, XReal.one_ne] at h4; cases h4
    | multR h => exact ih h hc
  | multOneR _ h2 h3 h4 _ ih =>
    obtain ⟨b, c, hb, hc⟩ := h.bin_vals ha
    cases h with
    | multR h => rw [h.unwrap hc h2 h3, XReal.one_ne] at h4; cases h4
    | multL h => exact ih h hb
  | divOneR _ _ _ _ _ ih =>
    obtain ⟨b, c, hb, hc⟩ := h.bin_vals ha
    cases h with | div h => exact ih h hb
  | constL _ h1 _ h3 _ _ ih =>
    obtain ⟨b, c, hb, hc⟩ := h.bin_vals ha
    cases h with
    | plus h h' => rw [h.unwrap hb h1 h3]; exact .plus .const (ih h' hc)
    | minus h h' => rw [h.unwrap hb h1 h3]; exact .minus .const (ih h' hc)
    | multL h => rw [h.unwrap hb h1 h3]; exact .multL .const
    | multR h => exact .multR (ih h hc)
    | div h => rw [h.unwrap hb h1 h3]; exact .div .const
  | constR _ _ h2 h3 _ _ ih =>
    obtain ⟨b, c, hb, hc⟩ := h.bin_vals ha
    cases h with
    | plus h h' => rw [h'.unwrap hc h2 h3]; exact .plus (ih h hb) .const
    | minus h h' => rw [h'.unwrap hc h2 h3]; exact .minus (ih h hb) .const
    | multL h => exact .multL (ih h hb)
    | multR h => rw [h.unwrap hc h2 h3]; exact .multR .const
    | div h => exact .div (ih h hb)
  | cong _ _ _ _ _ _ ihl ihr =>
    obtain ⟨b, c, hb, hc⟩ := h.bin_vals ha
    cases h with
    | plus h h' => exact .plus (ihl h hb) (ihr h' hc)
    | minus h h' => exact .minus (ihl h hb) (ihr h' hc)
    | multL h => exact .multL (ihl h hb)
    | multR h => exact .multR (ihr h hc)
    | div h => exact .div (ihl h hb)

theorem constCheck_false {K : Type} [Num K] {e : Expr K} {p : K → Bool} {rest : Res Bool}
    (h : constCheck e p rest = .ok false) : rest = .ok false := by
  simp only [constCheck] at h
  split at h
  · obtain ⟨c, hc, h⟩ := Res.bind_eq_ok.1 h
    split at h
    · cases h
    · exact h
  · exact h

theorem either_false {a b : Res Bool} (h : (a.bind fun x => if x then .ok true else b) = .ok false) :
    a = .ok false ∧ b = .ok false := by
  obtain ⟨x, hx, h⟩ := Res.bind_eq_ok.1 h
  cases x
  · exact ⟨hx, by simpa using h⟩
  · cases h

/-- Nothing left to simplify: the constant 0. -/
theorem Zero.final {e : Expr XReal} (h : Zero e) (hc : canSimplify e = .ok false) :
    e = .const (some 0) := by
  have h0 : isConst (.const (some 0) : Expr XReal) = true := rfl
  have hu : VM.unwrap leftFirst (.const (some 0) : Expr XReal) = .ok (some 0) := rfl
  have hz := XReal.zero_eq
  induction h with
  | const => rfl
  | @plus l r _ _ ihl ihr =>
    simp only [canSimplify] at hc
    split at hc
    · cases hc
    · next hh =>
      obtain ⟨h1, h2⟩ := either_false (constCheck_false (constCheck_false hc))
      simp [ihl h1, ihr h2, isConst] at hh
  | @minus l r _ _ ihl ihr =>
    simp only [canSimplify] at hc
    split at hc
    · cases hc
    · next hh =>
      obtain ⟨h1, h2⟩ := either_false (constCheck_false (constCheck_false hc))
      simp [ihl h1, ihr h2, isConst] at hh
  | @multL l r _ ih =>
    simp only [canSimplify] at hc
    split at hc
    · cases hc
    · have h1 := constCheck_false (constCheck_false hc)
      split at h1
      · cases h1
      · obtain ⟨h1, h2⟩ := either_false h1
        rw [ih h1] at hc
        simp [canBin, constCheck, h0, hu, hz] at hc
  | @multR l r _ ih =>
    simp only [canSimplify] at hc
    split at hc
    · cases hc
    · have h1 := constCheck_false hc
      have h3 := constCheck_false h1
      split at h3
      · cases h3
      · obtain ⟨h3, h2⟩ := either_false h3
        rw [ih h2] at h1
        simp [constCheck, h0, hu, hz] at h1
  | @div l r _ ih =>
    simp only [canSimplify] at hc
    split at hc
    · cases hc
    · obtain ⟨h1, h2⟩ := either_false (constCheck_false (constCheck_false hc))
      rw [ih h1] at hc
      simp [canBin, constCheck, h0, hu, hz] at hc

theorem Zero.simplified {e e' : Expr XReal} (hs : simplified e = .ok e') (h : Zero e) {a : ℝ}
    (ha : Val I ρ e (some a)) (hI : ∀ x, I.good x → ¬ SimpLaws.bad x) : e' = .const (some 0) := by
  have := simplified_induct (P := fun e => Zero e ∧ Val I ρ e (some a))
    (fun e e' hp h => ⟨h.1.pass hp h.2, hp.val hI h.2 (by simp [SimpLaws.bad])⟩) hs ⟨h, ha⟩
  exact this.1.1.final this.2

/-- The raw derivative with respect to an atom that is not there. -/
theorem diffE_zero {x : DVar} {e : Expr XReal} (hs : SmoothSym e)
    (hv : ∀ i, x = .var i → ¬ Occurs i e) (hf : ∀ i t, x = .fsym i t → ¬ Spec.Sub (.fsym i t) e)
    {d : Expr XReal} (h : diffE x e = .ok d) : Zero d := by
  have z0 : Zero (.const (Num.lit 0)) := by simpa [Num.lit] using Zero.const
  induction hs generalizing d with
  | const c => simp only [diffE, Res.ok.injEq] at h; subst h; exact z0
  | var i =>
    have : x ≠ .var i := fun h => hv i h .var
    simp only [diffE, this, if_false, Res.ok.injEq] at h; subst h; exact z0
  | fsym i t =>
    cases x with
    | var j => simp [diffE] at h
    | fsym j u =>
      have : ¬ (j = i ∧ u = t) := by rintro ⟨rfl, rfl⟩; exact hf _ _ rfl .refl
      simp only [diffE, this, if_false, Res.ok.injEq] at h; subst h; exact z0
  | @fn f e hf' _ ih =>
    have ih := @ih (fun i h h' => hv i h (.un h')) (fun i t h h' => hf i t h (.un h'))
    cases f <;> simp only [diffE, diffFn] at h
    case id => exact ih h
    case fabs => cases h
    all_goals
      obtain ⟨d', hd, rfl⟩ := Res.map_eq_ok.1 h
      have := ih hd
      first | exact .multR this | exact .multR (.multR this) | exact .div this
  | @bin op l r ho _ _ ihl ihr =>
    have ihl := @ihl (fun i h h' => hv i h (.binL h')) (fun i t h h' => hf i t h (.binL h'))
    have ihr := @ihr (fun i h h' => hv i h (.binR h')) (fun i t h h' => hf i t h (.binR h'))
    rcases ho with rfl | rfl | rfl | rfl <;> simp only [diffE, diffBin] at h
    all_goals
      obtain ⟨l', hl', h⟩ := Res.bind_eq_ok.1 h
      obtain ⟨r', hr', rfl⟩ := Res.map_eq_ok.1 h
      have h1 := ihl hl'
      have h2 := ihr hr'
    · exact .plus h1 h2
    · exact .minus h1 h2
    · exact .plus (.multL h1) (.multR h2)
    · exact .div (.minus (.multL h1) (.multR h2))

end

/-! ### Smooth expressions -/
section
variable {K : Type}

theorem Spec.Smooth.sym {e : Expr K} (h : Smooth e) : SmoothSym e := by
  induction h with
  | const c => exact .const c
  | var i => exact .var i
  | fn hf _ ih => exact .fn hf ih
  | bin ho _ _ ihl ihr => exact .bin ho ihl ihr

theorem Spec.Smooth.arith {e : Expr K} (h : Smooth e) : Arith e := by
  induction h with
  | const c => exact .const c
  | var i => exact .var i
  | fn hf _ ih => exact .fn _ ih
  | bin ho _ _ ihl ihr => exact .bin ho ihl ihr

theorem Spec.SmoothSym.wellFormed {e : Expr K} (h : SmoothSym e) : WellFormed e := by
  induction h with
  | const c => exact .const c
  | var i => exact .var i
  | fsym i t => exact .fsym i t
  | fn hf _ ih => exact .un _ ih
  | bin ho _ _ ihl ihr => exact .bin ho ihl ihr

theorem Spec.SmoothSym.vecDim {e : Expr K} (n : Nat) (h : SmoothSym e) : VecDim n e := by
  induction h with
  | const c => exact .const c
  | var i => exact .var i
  | fsym i t => exact .fsym i t
  | fn hf _ ih => exact .un _ ih
  | bin ho _ _ ihl ihr => exact .bin _ ihl ihr

theorem Spec.Smooth.supported {e : Expr K} (h : Smooth e) : ¬ Unsupported e := by
  induction h with
  | const c => exact nofun
  | var i => exact nofun
  | fn hf _ ih =>
    intro h
    cases h with
    | fabs => exact hf rfl
    | un h => exact ih h
  | bin ho _ _ ihl ihr =>
    intro h
    cases h with
    | binL h => exact ihl h
    | binR h => exact ihr h

variable [Num K]

/-- Differentiating a smooth expression yields an expression of the same kind. -/
theorem diffE_arith {x : DVar} {e : Expr K} (hs : Arith e) {d : Expr K} (h : diffE x e = .ok d) :
    Arith d := by
  induction hs generalizing d with
  | const c => simp only [diffE, Res.ok.injEq] at h; subst h; exact .const _
  | var i => simp only [diffE, Res.ok.injEq] at h; subst h; exact .const _
  | @fn f e he ih =>
    cases f <;> simp only [diffE, diffFn] at h
    case id => exact ih h
    case fabs => cases h
    all_goals
      obtain ⟨d', hd, rfl⟩ := Res.map_eq_ok.1 h
      have := ih hd
      repeat' first | assumption | exact .const _ | apply Arith.fn | apply Arith.bin
      all_goals simp [IsArithOp]
  | @bin op l r ho hl hr ihl ihr =>
    rcases ho with rfl | rfl | rfl | rfl <;> simp only [diffE, diffBin] at h
    all_goals
      obtain ⟨l', hl', h⟩ := Res.bind_eq_ok.1 h
      obtain ⟨r', hr', rfl⟩ := Res.map_eq_ok.1 h
      have h1 := ihl hl'
      have h2 := ihr hr'
      repeat' first | assumption | apply Arith.bin
      all_goals simp [IsArithOp]

theorem diffE_fsym_ok {i t : Nat} {e : Expr K} (hs : SmoothSym e) : ∃ d, diffE (.fsym i t) e = .ok d := by
  induction hs with
  | const | var | fsym => exact ⟨_, rfl⟩
  | @fn f _ hf _ ih =>
    obtain ⟨d, hd⟩ := ih
    rw [diffE, hd]; cases f <;> first | exact ⟨_, rfl⟩ | exact absurd rfl hf
  | bin ho _ _ ihl ihr =>
    obtain ⟨d, hd⟩ := ihl
    obtain ⟨d', hd'⟩ := ihr
    rw [diffE, hd, hd']; rcases ho with rfl | rfl | rfl | rfl <;> exact ⟨_, rfl⟩

end

end VM
