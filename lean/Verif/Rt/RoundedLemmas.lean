import Verif.Spec.Rounded
import Verif.Rt.EvalLemmas
import Mathlib.Analysis.SpecialFunctions.Trigonometric.Deriv
import Mathlib.Analysis.SpecialFunctions.Trigonometric.ArctanDeriv
import Mathlib.Analysis.SpecialFunctions.Log.Deriv
import Mathlib.Analysis.SpecialFunctions.Sqrt
import Mathlib.Tactic.Linarith
import Mathlib.Tactic.GCongr
import Mathlib.Tactic.Positivity
/-
C68: error of evaluation with floating point numbers.
-/
namespace VM
open Spec Filter Topology Asymptotics
variable {R : Rounding} {D δ T : ℝ}

theorem ball {a : ℝ} {P : ℝ → Prop} (h : ∀ᶠ y in 𝓝 a, P y) : ∃ r > 0, ∀ y, |y - a| ≤ r → P y := by
  obtain ⟨r, hr, H⟩ := Metric.eventually_nhds_iff.1 h
  refine ⟨r / 2, by positivity, fun y hy => H ?_⟩
  rw [Real.dist_eq]; linarith

theorem ball2 {a b : ℝ} {P : ℝ × ℝ → Prop} (h : ∀ᶠ p in 𝓝 (a, b), P p) :
    ∃ r > 0, ∀ x y, |x - a| ≤ r → |y - b| ≤ r → P (x, y) := by
  obtain ⟨r, hr, H⟩ := Metric.eventually_nhds_iff.1 h
  refine ⟨r / 2, by positivity, fun x y hx hy => H ?_⟩
  rw [Prod.dist_eq, Real.dist_eq, Real.dist_eq]
  exact max_lt (by linarith) (by linarith)

/-- Near `a` the function is defined, and changes at most `L` times as much as its argument. -/
def Tame (f : XReal → XReal) (a b : ℝ) : Prop :=
  ∃ L r : ℝ, 0 ≤ L ∧ 0 < r ∧ ∀ y, |y - a| ≤ r → ∃ z, f (some y) = some z ∧ |z - b| ≤ L * |y - a|

theorem tame_of {f : XReal → XReal} {g : ℝ → ℝ} {a : ℝ} (h : ∀ᶠ y in 𝓝 a, f (some y) = some (g y))
    (hg : DifferentiableAt ℝ g a) : Tame f a (g a) := by
  obtain ⟨L, hL, H⟩ := hg.isBigO_sub.exists_nonneg
  obtain ⟨r, hr, H⟩ := ball (h.and H.bound)
  exact ⟨L, r, hL, hr, fun y hy => ⟨g y, (H y hy).1, by simpa using (H y hy).2⟩⟩

theorem tame_fn {f : Fn} {a b : ℝ} (h : XReal.fn f (some a) = some b) (hq : f = .sqrt → a ≠ 0) :
    Tame (XReal.fn f) a b := by
  cases f with
  | id => cases h; exact tame_of (g := fun x => x) (.of_forall fun _ => rfl) differentiableAt_id
  | exp => cases h; exact tame_of (.of_forall fun _ => rfl) Real.differentiableAt_exp
  | sin => cases h; exact tame_of (.of_forall fun _ => rfl) Real.differentiableAt_sin
  | cos => cases h; exact tame_of (.of_forall fun _ => rfl) Real.differentiableAt_cos
  | tan =>
    simp only [XReal.fn] at h
    split at h
    · cases h
    rename_i hc
    cases h
    refine tame_of ?_ (Real.differentiableAt_tan.2 hc)
    exact (Real.continuous_cos.continuousAt.eventually_ne hc).mono fun y hy => if_neg hy
  | fabs =>
    cases h
    exact ⟨1, 1, zero_le_one, zero_lt_one, fun y _ => ⟨|y|, rfl, by rw [one_mul]; exact abs_abs_sub_abs_le _ _⟩⟩
  | sqrt =>
    simp only [XReal.fn] at h
    split at h
    · cases h
    rename_i hc
    cases h
    have ha : 0 < a := lt_of_le_of_ne (not_lt.1 hc) (Ne.symm (hq rfl))
    refine tame_of ?_ (Real.hasDerivAt_sqrt ha.ne').differentiableAt
    exact (eventually_gt_nhds ha).mono fun y hy => if_neg (not_lt.2 hy.le)
  | log =>
    simp only [XReal.fn] at h
    split at h
    · cases h
    rename_i hc
    cases h
    have ha : 0 < a := not_le.1 hc
    exact tame_of ((eventually_gt_nhds ha).mono fun y hy => if_neg (not_le.2 hy)) (Real.differentiableAt_log ha.ne')
  | log10 =>
    simp only [XReal.fn] at h
    split at h
    · cases h
    rename_i hc
    cases h
    have ha : 0 < a := not_le.1 hc
    exact tame_of (g := fun y => Real.log y / Real.log 10)
      ((eventually_gt_nhds ha).mono fun y hy => if_neg (not_le.2 hy)) ((Real.differentiableAt_log ha.ne').div_const _)

def Tame2 (f : XReal → XReal → XReal) (a b c : ℝ) : Prop :=
  ∃ L r : ℝ, 0 ≤ L ∧ 0 < r ∧ ∀ x y, |x - a| ≤ r → |y - b| ≤ r →
    ∃ z, f (some x) (some y) = some z ∧ |z - c| ≤ L * max |x - a| |y - b|

theorem tame2_of {f : XReal → XReal → XReal} {g : ℝ × ℝ → ℝ} {a b : ℝ}
    (h : ∀ᶠ p in 𝓝 (a, b), f (some p.1) (some p.2) = some (g p)) (hg : DifferentiableAt ℝ g (a, b)) :
    Tame2 f a b (g (a, b)) := by
  obtain ⟨L, hL, H⟩ := hg.isBigO_sub.exists_nonneg
  obtain ⟨r, hr, H⟩ := ball2 (h.and H.bound)
  refine ⟨L, r, hL, hr, fun x y hx hy => ⟨g (x, y), (H x y hx hy).1, ?_⟩⟩
  have := (H x y hx hy).2
  rwa [Prod.mk_sub_mk, Prod.norm_mk, Real.norm_eq_abs, Real.norm_eq_abs, Real.norm_eq_abs] at this

/-- The arithmetic operation of a node. -/
def arith {K : Type} [Num K] : BOp → K → K → K
  | .plus => Num.add
  | .minus => Num.sub
  | .mult => Num.mul
  | _ => Num.div

theorem applyB_eq_arith {K : Type} [Num K] {op : BOp} (h : IsArithOp op) (x y : K) : applyB op x y = .ok (arith op x y) := by
  rcases h with rfl | rfl | rfl | rfl <;> rfl

theorem tame_arith {op : BOp} {a b c : ℝ} (h : IsArithOp op) (hc : arith op (some a : XReal) (some b) = some c) :
    Tame2 (arith op) a b c := by
  rcases h with rfl | rfl | rfl | rfl
  · cases hc; exact tame2_of (g := fun p => p.1 + p.2) (.of_forall fun _ => rfl) (by fun_prop)
  · cases hc; exact tame2_of (g := fun p => p.1 - p.2) (.of_forall fun _ => rfl) (by fun_prop)
  · cases hc; exact tame2_of (g := fun p => p.1 * p.2) (.of_forall fun _ => rfl) (by fun_prop)
  · simp only [arith, Num.div, XReal.div] at hc
    split at hc
    · cases hc
    rename_i hb
    cases hc
    have : ∀ᶠ p : ℝ × ℝ in 𝓝 (a, b), p.2 ≠ 0 := continuousAt_snd.eventually_ne hb
    refine tame2_of (g := fun p => p.1 / p.2) ?_ ?_
    · exact this.mono fun p hp => if_neg hp
    · simp only [div_eq_mul_inv]
      exact differentiableAt_fst.fun_mul (differentiableAt_snd.fun_inv hb)

theorem round_step {z b C : ℝ} (hF : Fine δ T R) (h1 : δ ≤ 1) (hC : 0 ≤ C) (hz : |z - b| ≤ C * R.eps) (hT : |b| + C ≤ T) :
    ∃ y, (Fl.of R z).val = some y ∧ |y - b| ≤ (|b| + 2 * C + 1) * R.eps := by
  have he := hF.pos
  have hc : C * R.eps ≤ C := mul_le_of_le_one_right hC (hF.eps.trans h1)
  have hz' : |z| ≤ |b| + C := by
    have := abs_sub_abs_le_abs_sub z b; linarith
  obtain ⟨y, hy⟩ := R.round_some (hz'.trans (hT.trans hF.top))
  refine ⟨y, by rw [Fl.val_of, hy], ?_⟩
  have h2 := R.round_near hy
  have h3 : R.eps * |z| ≤ R.eps * (|b| + C) := mul_le_mul_of_nonneg_left hz' he
  have h4 := abs_sub_le y z b
  have h5 := hF.eta
  linarith [h2, h3, h4, h5]

theorem lib_step {f : Fn} {x z b C : ℝ} (hF : Fine δ T R) (h1 : δ ≤ 1) (hC : 0 ≤ C) (hf : XReal.fn f (some x) = some z)
    (hz : |z - b| ≤ C * R.eps) (hT : 2 * |b| + 2 * C + 1 ≤ T) :
    ∃ y, (Fl.fn R f (some x)).val = some y ∧ |y - b| ≤ (3 * |b| + 4 * C + 3) * R.eps := by
  have he := hF.pos
  have hc : C * R.eps ≤ C := mul_le_of_le_one_right hC (hF.eps.trans h1)
  have hz' : |z| ≤ |b| + C := by
    have := abs_sub_abs_le_abs_sub z b; linarith
  have h2 := R.lib_near hf
  have h3 : R.eps * |z| ≤ R.eps * (|b| + C) := mul_le_mul_of_nonneg_left hz' he
  have h4 := abs_sub_le (R.lib f x) z b
  have h5 := hF.eta
  have hb := abs_nonneg b
  obtain ⟨y, hy, H⟩ := round_step (z := R.lib f x) (b := b) (C := |b| + 2 * C + 1) hF h1 (by positivity)
    (by linarith) (by linarith)
  refine ⟨y, ?_, H.trans (le_of_eq (by ring))⟩
  rw [Fl.fn_some hf]
  exact hy

theorem nearVals_get {v : List XReal} {w : List (Fl R)} (h : NearVals D R v w) {i : Nat} {a : ℝ}
    (hi : v[i]? = some (some a)) : ∃ x y, w[i]? = some x ∧ x.val = some y ∧ |y - a| ≤ D * R.eps := by
  induction h generalizing i with
  | nil => simp at hi
  | @cons c d v w h1 _ ih =>
    cases i with
    | zero =>
      obtain ⟨x, y, rfl, h2, h3⟩ := h1
      simp only [List.getElem?_cons_zero, Option.some.injEq] at hi
      cases hi
      exact ⟨d, y, by simp, h2, h3⟩
    | succ i => simpa using ih (i := i) (by simpa using hi)

/-- The evaluation with floating point numbers is near the exact value `a`. -/
def Accurate (D : ℝ) (v : List XReal) (e : Expr XReal) (a : ℝ) : Prop :=
  ∃ C δ T : ℝ, 0 ≤ C ∧ 0 < δ ∧ ∀ R, Fine δ T R → ∀ d w, NearExpr D R e d → NearVals D R v w → ∀ o,
    ∃ x y, eval o w d = .ok x ∧ x.val = some y ∧ |y - a| ≤ C * R.eps

theorem Spec.Fine.mono {δ' T' : ℝ} (h : Fine δ T R) (hd : δ ≤ δ') (ht : T' ≤ T) : Fine δ' T' R :=
  ⟨h.pos, h.eps.trans hd, h.eta, ht.trans h.top⟩

theorem accurate {o : Order XReal} {v : List XReal} {e : Expr XReal} (D : ℝ) (he : Arith e) : ∀ {a : ℝ},
    eval o v e = .ok (some a) → (∀ s, Sub (.un (.fn .sqrt) s) e → eval o v s ≠ .ok (some 0)) → Accurate D v e a := by
  induction he with
  | const c =>
    intro a h _
    cases h
    refine ⟨|D|, 1, 0, abs_nonneg _, one_pos, fun R hF d w hd _ o => ?_⟩
    cases hd with
    | const hd =>
      obtain ⟨x, y, h1, h2, h3⟩ := hd
      cases h1
      exact ⟨_, y, rfl, h2, h3.trans (mul_le_mul_of_nonneg_right (le_abs_self D) hF.pos)⟩
  | var i =>
    intro a h _
    refine ⟨|D|, 1, 0, abs_nonneg _, one_pos, fun R hF d w hd hw o => ?_⟩
    cases hd
    have hi : v[i]? = some (some a) := by
      rw [eval] at h
      split at h
      · rename_i hi; cases h; exact hi
      · cases h
    obtain ⟨x, y, h1, h2, h3⟩ := nearVals_get hw hi
    exact ⟨x, y, by simp [eval, h1], h2, h3.trans (mul_le_mul_of_nonneg_right (le_abs_self D) hF.pos)⟩
  | @fn f e _ ih =>
    intro a h hq
    rw [eval, Res.bind_eq_ok] at h
    obtain ⟨u, hu, h⟩ := h
    have hu' : ∃ c, u = some c := by
      cases u with
      | some c => exact ⟨c, rfl⟩
      | none => cases f <;> cases h
    obtain ⟨c, rfl⟩ := hu'
    have hfn : XReal.fn f (some c) = some a := by cases f <;> exact Res.ok.inj h
    obtain ⟨C, δ, T, hC, hδ, H⟩ := ih hu fun s hs => hq s (.un hs)
    by_cases hid : f = .id
    · subst hid
      cases hfn
      refine ⟨C, δ, T, hC, hδ, fun R hF d w hd hw o => ?_⟩
      cases hd with
      | fn hd =>
        obtain ⟨x, y, h1, h2, h3⟩ := H R hF _ _ hd hw o
        exact ⟨x, y, by simp [eval, h1, applyU, applyFn], h2, h3⟩
    obtain ⟨L, r, hL, hr, hT⟩ := tame_fn hfn (by
      rintro rfl rfl
      exact hq e .refl hu)
    have ha := abs_nonneg a
    refine ⟨3 * |a| + 4 * (L * C) + 3, min (min δ 1) (r / (C + 1)), max T (2 * |a| + 2 * (L * C) + 1), by positivity,
      by positivity, fun R hF d w hd hw o => ?_⟩
    cases hd with
    | fn hd =>
      obtain ⟨x, y, h1, h2, h3⟩ := H R (hF.mono ((min_le_left _ _).trans (min_le_left _ _)) (le_max_left _ _)) _ _ hd hw o
      have hy : |y - c| ≤ r := by
        refine h3.trans ?_
        have h4 : R.eps ≤ r / (C + 1) := hF.eps.trans (min_le_right _ _)
        calc C * R.eps ≤ C * (r / (C + 1)) := mul_le_mul_of_nonneg_left h4 hC
          _ = r * (C / (C + 1)) := by ring
          _ ≤ r * 1 := by gcongr; rw [div_le_one (by positivity)]; linarith
          _ = r := mul_one r
      obtain ⟨z, hz1, hz2⟩ := hT y hy
      obtain ⟨y', g1, g2⟩ := lib_step (b := a) (C := L * C) (hF.mono (min_le_left _ _) (le_max_right _ _))
        (min_le_right _ _) (by positivity) hz1 (by
          calc |z - a| ≤ L * |y - c| := hz2
            _ ≤ L * (C * R.eps) := mul_le_mul_of_nonneg_left h3 hL
            _ = _ := by ring) le_rfl
      refine ⟨Fl.fn R f (some y), y', ?_, g1, g2⟩
      rw [eval, h1]
      have : applyFn f x = Fl.fn R f (some y) := by
        cases f <;> first | exact absurd rfl hid | (simp only [applyFn, Num.fn, h2])
      simp [applyU, this]
  | @bin op l r hop _ _ ihl ihr =>
    intro c h hq
    rw [eval, Res.both_eq_ok] at h
    obtain ⟨u, w, hu, hw, h⟩ := h
    rw [applyB_eq_arith hop] at h
    have h := Res.ok.inj h
    obtain ⟨a, b, rfl, rfl⟩ : ∃ a b, u = some a ∧ w = some b := by
      cases u <;> cases w <;> first | exact ⟨_, _, rfl, rfl⟩ | (rcases hop with rfl | rfl | rfl | rfl <;> cases h)
    obtain ⟨C, δ, T, hC, hδ, H⟩ := ihl hu fun s hs => hq s (.binL hs)
    obtain ⟨C', δ', T', hC', hδ', H'⟩ := ihr hw fun s hs => hq s (.binR hs)
    obtain ⟨L, ρ, hL, hρ, hT⟩ := tame_arith hop h
    have hc := abs_nonneg c
    have hM : 0 ≤ max C C' := le_max_of_le_left hC
    refine ⟨|c| + 2 * (L * max C C') + 1, min (min (min δ δ') 1) (ρ / (max C C' + 1)),
      max (max T T') (|c| + L * max C C'), by positivity, by positivity, fun R hF d w hd hw o => ?_⟩
    cases hd with
    | @bin _ _ _ m s _ hdl hdr =>
      obtain ⟨x, y, h1, h2, h3⟩ := H R (hF.mono ((min_le_left _ _).trans ((min_le_left _ _).trans (min_le_left _ _)))
        ((le_max_left _ _).trans (le_max_left _ _))) _ _ hdl hw o
      obtain ⟨x', y', h1', h2', h3'⟩ := H' R (hF.mono ((min_le_left _ _).trans ((min_le_left _ _).trans
        (min_le_right _ _))) ((le_max_right _ _).trans (le_max_left _ _))) _ _ hdr hw o
      have h4 : R.eps ≤ ρ / (max C C' + 1) := hF.eps.trans (min_le_right _ _)
      have h5 : max C C' * R.eps ≤ ρ := by
        calc max C C' * R.eps ≤ max C C' * (ρ / (max C C' + 1)) := mul_le_mul_of_nonneg_left h4 hM
          _ = ρ * (max C C' / (max C C' + 1)) := by ring
          _ ≤ ρ * 1 := by gcongr; rw [div_le_one (by positivity)]; linarith
          _ = ρ := mul_one ρ
      have h6 : |y - a| ≤ max C C' * R.eps := h3.trans (mul_le_mul_of_nonneg_right (le_max_left _ _) hF.pos)
      have h6' : |y' - b| ≤ max C C' * R.eps := h3'.trans (mul_le_mul_of_nonneg_right (le_max_right _ _) hF.pos)
      obtain ⟨z, hz1, hz2⟩ := hT y y' (h6.trans h5) (h6'.trans h5)
      obtain ⟨t, g1, g2⟩ := round_step (z := z) (b := c) (C := L * max C C')
        (hF.mono ((min_le_left _ _).trans (min_le_right _ _)) (le_max_right _ _)) le_rfl (by positivity) (by
          calc |z - c| ≤ L * max |y - a| |y' - b| := hz2
            _ ≤ L * (max C C' * R.eps) := mul_le_mul_of_nonneg_left (max_le h6 h6') hL
            _ = _ := by ring) le_rfl
      refine ⟨Fl.of R z, t, ?_, g1, g2⟩
      have : arith op x x' = Fl.of R z := by
        have : arith op x x' = Fl.lift R (arith op x.val x'.val) := by rcases hop with rfl | rfl | rfl | rfl <;> rfl
        rw [this, h2, h2', hz1, Fl.lift]
      rw [eval, Res.both_eq_ok]
      exact ⟨x, x', h1, h1', by rw [applyB_eq_arith hop, this]⟩

end VM
