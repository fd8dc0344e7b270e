import Verif.Rt.IteratedLemmas
import Verif.Rt.SubstIntegLemmas
import Mathlib.Analysis.Calculus.Deriv.Prod
/-
Substitution in smooth expressions and the derivative of the result.
-/
namespace VM
open Spec Filter Topology
variable {n : ℕ}

theorem rp_reg {p : Fin n → ℝ} {i : Fin n} {g : Expr XReal} {e : Expr XReal} (hg : Reg p g)
    (he : Reg (Function.update p i (rv p g)) e) :
    Reg p (rp i g e) ∧ rv p (rp i g e) = rv (Function.update p i (rv p g)) e := by
  induction e using Expr.ind with
  | const c => exact ⟨he, rfl⟩
  | var j =>
    have hj : j < n := he
    by_cases h : i.1 = j
    · subst h; simpa [rp, rv] using hg
    · have : (⟨j, hj⟩ : Fin n) ≠ i := fun h' => h (by rw [← h'])
      simp [rp, h, rv, hj, Reg, Function.update_of_ne this]
  | un op e ih =>
    cases op with
    | fn f =>
      obtain ⟨h1, h2⟩ := ih he.1
      exact ⟨⟨h1, by rw [h2]; exact he.2⟩, by simp only [rv, h2, rp]⟩
    | _ => exact he.elim
  | bin op l r ihl ihr =>
    obtain ⟨h1, h2⟩ := ihl he.1
    obtain ⟨h3, h4⟩ := ihr he.2.1
    exact ⟨⟨h1, h3, by rw [h4]; exact he.2.2⟩, by simp [rv, h2, h4, rp]⟩
  | _ => exact he.elim

theorem rp_smooth {i : Nat} {g e : Expr XReal} (hg : Smooth g) (he : Smooth e) : Smooth (rp i g e) := by
  induction he with
  | const c => exact .const c
  | var j => by_cases h : i = j <;> simp only [rp, h, if_true, if_false]; exacts [hg, .var j]
  | fn hf _ ih => exact .fn hf ih
  | bin ho _ _ ihl ihr => exact .bin ho ihl ihr

theorem substitute_smooth (i : Nat) {g e : Expr XReal} (hg : Smooth g) (he : Smooth e) :
    ∃ t, substitute (.var i) g e = .ok t ∧ Smooth t := by
  have h := rp_smooth (i := i) hg he
  obtain ⟨t, ht⟩ := simplified_ok_arith h.arith
  exact ⟨t, by simp [substitute, substE_var, ht],
    (simplified_induct (P := Smooth) (fun _ _ hp hx => hp.smooth hx) ht h).1⟩

theorem substitute_reg {p : Fin n → ℝ} {i : Fin n} {g e t : Expr XReal} (hg : Reg p g)
    (he : Reg (Function.update p i (rv p g)) e) (ht : substitute (.var i) g e = .ok t) :
    Reg p t ∧ rv p t = rv (Function.update p i (rv p g)) e := by
  obtain ⟨h1, h2⟩ := rp_reg hg he
  rw [substitute, substE_var] at ht
  obtain ⟨h3, h4⟩ := h1.simplified ht
  exact ⟨h3, h4.trans h2⟩

theorem substitute_deriv {p : Fin n → ℝ} {i j : Fin n} {g e t dt gj ei ej : Expr XReal} (hg : Reg p g)
    (he : Reg (Function.update p i (rv p g)) e) (ht : substitute (.var i) g e = .ok t)
    (hdt : diff (.var j) t = .ok dt) (hgj : diff (.var j) g = .ok gj) (hei : diff (.var i) e = .ok ei)
    (hej : diff (.var j) e = .ok ej) :
    rv p dt = rv (Function.update p i (rv p g)) ei * rv p gj +
      if j = i then 0 else rv (Function.update p i (rv p g)) ej := by
  set F : (Fin n → ℝ) → ℝ := fun q => rv q e with hF
  set p' := Function.update p i (rv p g) with hp'
  obtain ⟨k1, -⟩ := substitute_reg hg he ht
  have h1 := k1.hasDerivAt hdt
  have h2 := hg.hasDerivAt hgj
  let c : ℝ → Fin n → ℝ := fun t => Function.update (Function.update p j t) i (rv (Function.update p j t) g)
  have hc0 : c (p j) = p' := by simp [c, hp']
  let c' : Fin n → ℝ := rv p gj • Pi.single i 1 + if j = i then 0 else Pi.single j 1
  have hc : HasDerivAt c c' (p j) := by
    rw [hasDerivAt_pi]
    intro k
    by_cases hk : k = i
    · subst hk
      have : c' k = rv p gj := by
        by_cases hjk : j = k
        · simp [c', hjk]
        · simp [c', hjk]
      rw [this]
      simpa [c] using h2
    · by_cases hkj : k = j
      · subst hkj
        have : c' k = 1 := by simp [c', hk]
        rw [this]
        simpa [c, Function.update_of_ne hk] using hasDerivAt_id' (p k)
      · have : c' k = 0 := by
          by_cases hji : j = i <;> simp [c', hji, Pi.single_eq_of_ne hk, Pi.single_eq_of_ne hkj]
        rw [this]
        simpa [c, Function.update_of_ne hk, Function.update_of_ne hkj] using hasDerivAt_const (p j) (p k)
  have hdF : DifferentiableAt ℝ F p' := (he.contDiffAt (m := 1)).differentiableAt (by simp)
  have hcomp : HasDerivAt (fun t => F (c t)) (fderiv ℝ F p' c') (p j) := by
    have h3 : HasFDerivAt F (fderiv ℝ F p') (c (p j)) := by rw [hc0]; exact hdF.hasFDerivAt
    exact h3.comp_hasDerivAt (p j) hc
  have hev1 : ∀ᶠ t in 𝓝 (p j), Reg (c t) e := by
    have := he.eventually
    rw [← hc0] at this
    exact hc.continuousAt.eventually this
  have hev2 : ∀ᶠ t in 𝓝 (p j), Reg (Function.update p j t) g := by
    have := hg.eventually
    rw [← Function.update_eq_self j p] at this
    have hcu : ContinuousAt (fun t => Function.update p j t) (p j) :=
      (continuous_const.update j continuous_id).continuousAt
    exact hcu.eventually this
  have heq : (fun s => rv (Function.update p j s) t) =ᶠ[𝓝 (p j)] fun s => F (c s) := by
    filter_upwards [hev1, hev2] with s k2 k3
    exact (substitute_reg k3 k2 ht).2
  have h4 := h1.unique (hcomp.congr_of_eventuallyEq heq)
  have hi : fderiv ℝ F p' (Pi.single i 1) = rv p' ei := by
    rw [← partialDeriv_fderiv i hdF]; exact (he.hasDerivAt hei).deriv
  have hj : fderiv ℝ F p' (Pi.single j 1) = rv p' ej := by
    rw [← partialDeriv_fderiv j hdF]; exact (he.hasDerivAt hej).deriv
  rw [h4]
  by_cases hji : j = i
  · simp [c', hji, hi, mul_comm]
  · simp [c', hji, hi, hj, mul_comm]

end VM
