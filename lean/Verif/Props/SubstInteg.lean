import Verif.Rt.SubstIntegLemmas
import Verif.Rt.ScopedLemmas
import Verif.Spec.RealInt
import Verif.NumRat
import Mathlib.Analysis.SpecialFunctions.Integrals.Basic
/-
Property C20: substitution and bound integration variables.
-/
namespace VM.Props
open Spec MeasureTheory

/-- C20, what holds for every expression: `substitute(x_i, r, e)` returns an expression with the value that `e` has if every
`x_i` outside of integration bounds stands for `r`, evaluated where it is written.  So the integration variable is replaced
like any other variable, bounds are not reached, and integration variables capture variables of `r`. -/
theorem C20_scoped {K : Type} [Num K] [SimpLaws K] (I : Interp K)
    (hI : ∀ x, I.good x → ¬ SimpLaws.bad x) (n : Nat) (hn : 0 < n) (ρ : Nat → Option K) (i : Nat)
    (r e : Expr K) (a : K) (hwr : WellFormed r) (hwe : WellFormed e) (hdr : VecDim n r) (hde : VecDim n e)
    (he : Scoped I i r ρ e a) (hb : ¬ SimpLaws.bad a) :
    ∃ t, substitute (.var i) r e = .ok t ∧ Val I ρ t a := by
  have hv : Val I ρ (rp i r e) a := scoped_val he
  have hw : WellFormed (rp i r e) := by
    clear * - hwr hwe
    induction hwe with
    | const c => exact .const c
    | var j => simp only [rp]; split; exact hwr; exact .var j
    | fsym j t => exact .fsym j t
    | un op _ ih => exact .un op ih
    | integ x h1 h2 _ _ _ ih => exact .integ x h1 h2 ih
    | bin ho _ _ ihl ihr => exact .bin ho ihl ihr
    | vec _ ih => simp only [rp, rpL_eq_map]; exact .vec (by simpa using ih)
  have hd : VecDim n (rp i r e) := by
    clear * - hdr hde
    induction hde with
    | const c => exact .const c
    | var j => simp only [rp]; split; exact hdr; exact .var j
    | fsym j t => exact .fsym j t
    | un op _ ih => exact .un op ih
    | integ x h1 h2 _ _ _ ih => exact .integ x h1 h2 ih
    | bin ho _ _ ihl ihr => exact .bin ho ihl ihr
    | vec hl _ ih => simp only [rp, rpL_eq_map]; exact .vec (by simpa using hl) (by simpa using ih)
  obtain ⟨t, ht⟩ := simplified_ok hn hw hd
  exact ⟨t, by simp [substitute, substE_var, ht], simplified_val ht hI hv hb⟩

/-- C20, the part that holds.  Let `x_i` neither be an integration variable of `e` nor occur in an
integration bound, and let no integration variable of `e` occur in `r`.  Then `substitute(x_i, r, e)`
returns an expression whose value is that of `e` with `x_i` having the value of `r`.  For every meaning `I`
of "integral" whose integrands are defined.

Missing: the other two cases.  There the claim is false: `C20_bound_variable`, `C20_bounds`,
`C20_capture`. -/
theorem C20_free_variable_partial {K : Type} [Num K] [SimpLaws K] (I : Interp K)
    (hI : ∀ x, I.good x → ¬ SimpLaws.bad x) (n : Nat) (hn : 0 < n) (ρ : Nat → Option K) (i : Nat)
    (r e : Expr K) (a b : K) (hwr : WellFormed r) (hwe : WellFormed e) (hdr : VecDim n r) (hde : VecDim n e)
    (hi : ¬ InInterval i e) (hc : ∀ lo hi x f, SubV (.integ lo hi x f) e → ¬ Occurs x r)
    (hr : Val I ρ r b) (he : Val I (upd ρ i b) e a) (hb : ¬ SimpLaws.bad a) :
    ∃ t, substitute (.var i) r e = .ok t ∧ Val I ρ t a := by
  have hv : Val I ρ (rp i r e) a := rp_val he (fun j hj => by simp [upd, hj]) (by simp [upd]) hr hi hc
  have hw : WellFormed (rp i r e) := by
    clear * - hwr hwe
    induction hwe with
    | const c => exact .const c
    | var j => simp only [rp]; split; exact hwr; exact .var j
    | fsym j t => exact .fsym j t
    | un op _ ih => exact .un op ih
    | integ x h1 h2 _ _ _ ih => exact .integ x h1 h2 ih
    | bin ho _ _ ihl ihr => exact .bin ho ihl ihr
    | vec _ ih => simp only [rp, rpL_eq_map]; exact .vec (by simpa using ih)
  have hd : VecDim n (rp i r e) := by
    clear * - hdr hde
    induction hde with
    | const c => exact .const c
    | var j => simp only [rp]; split; exact hdr; exact .var j
    | fsym j t => exact .fsym j t
    | un op _ ih => exact .un op ih
    | integ x h1 h2 _ _ _ ih => exact .integ x h1 h2 ih
    | bin ho _ _ ihl ihr => exact .bin ho ihl ihr
    | vec hl _ ih => simp only [rp, rpL_eq_map]; exact .vec (by simpa using hl) (by simpa using ih)
  obtain ⟨t, ht⟩ := simplified_ok hn hw hd
  exact ⟨t, by simp [substitute, substE_var, ht], simplified_val ht hI hv hb⟩

/-- Values of an integral over `[a, b]` whose integrand is defined by `g` are the real integral of `g`. -/
theorem val_integ {ρ : Nat → Option XReal} {lo hi e : Expr XReal} {x : Nat} {a b : ℝ} {g : ℝ → ℝ} {c : XReal}
    (hlo : ∀ z, Val realInt ρ lo z ↔ z = some a) (hhi : ∀ z, Val realInt ρ hi z ↔ z = some b)
    (he : ∀ (t : ℝ) z, Val realInt (upd ρ x (some t)) e z ↔ z = some (g t)) (hg : Continuous g) :
    Val realInt ρ (.integ lo hi x e) c ↔ c = some (∫ t in a..b, g t) := by
  constructor
  · intro h
    cases h with | integ f h1 h2 h3 h4 h5 =>
    cases (hlo _).1 h1; cases (hhi _).1 h2
    obtain ⟨a', b', g', ha, hb, hg', hi, rfl⟩ := h5
    cases ha; cases hb
    congr 1
    refine intervalIntegral.integral_congr fun t ht => ?_
    have h6 := (he t _).1 (h3 (some t) ⟨a, b, t, rfl, rfl, rfl, ht⟩)
    rw [hg' t ht] at h6
    exact Option.some.inj h6
  · rintro rfl
    refine .integ (fun t => t.map g) ((hlo _).2 rfl) ((hhi _).2 rfl) ?_ ?_ ⟨a, b, g, rfl, rfl, ?_, ?_, rfl⟩
    · rintro t ⟨_, _, t', _, _, rfl, _⟩; exact (he t' _).2 rfl
    · rintro t ⟨_, _, t', _, _, rfl, _⟩; simp [realInt]
    · intro t _; rfl
    · exact hg.intervalIntegrable a b

theorem val_const {I : Interp XReal} {ρ : Nat → Option XReal} {c z : XReal} :
    Val I ρ (.const c) z ↔ z = c :=
  ⟨fun h => by cases h; rfl, fun h => h ▸ .const⟩

theorem val_var {I : Interp XReal} {ρ : Nat → Option XReal} {i : Nat} {c z : XReal} (h : ρ i = some c) :
    Val I ρ (.var i) z ↔ z = c :=
  ⟨fun h' => by cases h' with | var h' => rw [h] at h'; exact (Option.some.inj h').symm, fun h' => .var (h' ▸ h)⟩

/-- `∫_0^x1 x0 * x2 dx0` with `x2 := x1` at `x1 = 3`: hypotheses of the partial theorem. -/
example : ∃ a : XReal, ¬ SimpLaws.bad a ∧
    ¬ InInterval 2 (.integ (.const (some 0)) (.var 1) 0 (.bin .mult (.var 0) (.var 2)) : Expr XReal) ∧
    Val realInt (fun _ => some (some 3)) (.var 1 : Expr XReal) (some 3) ∧
    Val realInt (upd (fun _ => some (some 3)) 2 (some 3))
      (.integ (.const (some 0)) (.var 1) 0 (.bin .mult (.var 0) (.var 2)) : Expr XReal) a := by
  refine ⟨some (∫ t in (0:ℝ)..3, t * 3), by simp [SimpLaws.bad], ?_, .var rfl, ?_⟩
  · intro h
    cases h with
    | lo h => cases h
    | hi h => cases h
    | integ h => cases h with
      | binL h => cases h
      | binR h => cases h
  · refine (val_integ (fun _ => val_const) (fun _ => val_var (by simp [upd])) (fun t z => ?_) (by fun_prop)).2 rfl
    constructor
    · intro h
      cases h with | bin h1 h2 h3 =>
      rw [(val_var (c := some t) (by simp [upd])).1 h1, (val_var (c := some 3) (by simp [upd])).1 h2] at h3
      exact (Option.some.inj h3).symm
    · rintro rfl
      exact .bin (.var (a := some t) (by simp [upd])) (.var (a := some 3) (by simp [upd])) rfl

/-- C20, negation for the integration variable: substituting `x0 := 2` in `∫_0^1 x0 dx0`, whose value is
1/2, yields an expression with the value 2. -/
theorem C20_bound_variable :
    let e : Expr XReal := .integ (.const (some 0)) (.const (some 1)) 0 (.var 0)
    ∃ t, substitute (.var 0) (.const (some 2)) e = .ok t ∧
      ∀ ρ, (∀ c, Val realInt ρ e c ↔ c = some (1 / 2)) ∧ (∀ c, Val realInt ρ t c ↔ c = some 2) := by
  refine ⟨.integ (.const (some 0)) (.const (some 1)) 0 (.const (some 2)), ?_, fun ρ => ⟨fun c => ?_, fun c => ?_⟩⟩
  · rw [substitute, substE_var]
    simp [rp, simplified_eq, canSimplify]
  · rw [val_integ (g := fun t => t) (fun _ => val_const) (fun _ => val_const)
      (fun t z => val_var (by simp [upd])) continuous_id]
    simp
  · rw [val_integ (g := fun _ => 2) (fun _ => val_const) (fun _ => val_const)
      (fun t z => val_const) continuous_const]
    simp

/-- C20, negation for bounds: substituting `x1 := 3` in `∫_0^x1 1 dx0` changes nothing; the result still has
the value of `x1`. -/
theorem C20_bounds :
    let e : Expr XReal := .integ (.const (some 0)) (.var 1) 0 (.const (some 1))
    substitute (.var 1) (.const (some 3)) e = .ok e ∧
      ∀ (ρ : Nat → Option XReal) (x : ℝ), ρ 1 = some (some x) → ∀ c, Val realInt ρ e c ↔ c = some x := by
  refine ⟨?_, fun ρ x hx c => ?_⟩
  · rw [substitute, substE_var]
    simp [rp, simplified_eq, canSimplify]
  · rw [val_integ (g := fun _ => 1) (fun _ => val_const) (fun _ => val_var hx)
      (fun t z => val_const) continuous_const]
    simp

/-- C20, negation for capture: substituting `x1 := x0` in `∫_0^1 x1 dx0`, whose value is that of `x1`, yields
`∫_0^1 x0 dx0`, whose value is 1/2 whatever `x0` is. -/
theorem C20_capture :
    let e : Expr XReal := .integ (.const (some 0)) (.const (some 1)) 0 (.var 1)
    ∃ t, substitute (.var 1) (.var 0) e = .ok t ∧
      ∀ (ρ : Nat → Option XReal) (x : ℝ), ρ 0 = some (some x) →
        (∀ c, Val realInt (upd ρ 1 (some x)) e c ↔ c = some x) ∧ (∀ c, Val realInt ρ t c ↔ c = some (1 / 2)) := by
  refine ⟨.integ (.const (some 0)) (.const (some 1)) 0 (.var 0), ?_, fun ρ x hx => ⟨fun c => ?_, fun c => ?_⟩⟩
  · rw [substitute, substE_var]
    simp [rp, simplified_eq, canSimplify]
  · rw [val_integ (g := fun _ => x) (fun _ => val_const) (fun _ => val_const)
      (fun t z => val_var (by simp [upd])) continuous_const]
    simp
  · rw [val_integ (g := fun t => t) (fun _ => val_const) (fun _ => val_const)
      (fun t z => val_var (by simp [upd])) continuous_id]
    simp

/-- `∫_x1^3 x1 dx1` with `x1 := x1 * x1` at `x1 = 0`: the bound is not changed, the integrand is. -/
example : ∃ t, substitute (.var 1) (.bin .mult (.var 1) (.var 1))
      (.integ (.var 1) (.const (some 3)) 1 (.var 1) : Expr XReal) = .ok t ∧
    Val realInt (fun _ => some (some 0)) t (some (∫ t in (0:ℝ)..3, t * t)) := by
  refine C20_scoped realInt ?_ 1 (by decide) _ 1 _ _ _ (.bin (by simp [IsArithOp]) (.var 1) (.var 1))
    (.integ 1 (.var 1) (.const _) (.var 1)) (.bin _ (.var 1) (.var 1)) (.integ 1 (.var 1) (.const _) (.var 1)) ?_ ?_
  · intro x hx hb
    simp_all [realInt, SimpLaws.bad]
  · refine .integ (a := some 0) (b := some 3) (fun t => t.map fun t => t * t) (.var rfl) .const ?_ ?_
      ⟨0, 3, fun t => t * t, rfl, rfl, ?_, ?_, rfl⟩
    · rintro t ⟨_, _, t', _, _, rfl, _⟩
      exact .this (.bin (.var (a := some t') (by simp [upd])) (.var (a := some t') (by simp [upd])) rfl)
    · rintro t ⟨_, _, t', _, _, rfl, _⟩; simp [realInt]
    · intro t _; rfl
    · exact (by fun_prop : Continuous fun t : ℝ => t * t).intervalIntegrable 0 3
  · simp [SimpLaws.bad]

end VM.Props
