import Verif.Rt.IteratedLemmas
import Verif.Rt.SweepLemmas
import Mathlib.Analysis.Calculus.Taylor
import Mathlib.Analysis.Calculus.Deriv.MeanValue
/-
Values along lines, for Taylor's formula and the mean value theorem.
-/
namespace VM
open Spec Filter Topology
variable {n : ℕ}

theorem diffs_snoc {K : Type} [Num K] (is : List Nat) (i : Nat) : ∀ e : Expr K,
    diffs (is ++ [i]) e = (diffs is e).bind (diff (.var i)) := by
  induction is with
  | nil =>
    intro e
    simp only [List.nil_append, diffs, Res.bind_ok]
    cases h : diff (.var i) e <;> rfl
  | cons j is ih =>
    intro e
    simp only [List.cons_append, diffs]
    cases h : diff (.var j) e with
    | ok d => simp only [Res.bind_ok]; exact ih d
    | _ => rfl

theorem diffs_replicate_succ {K : Type} [Num K] {i k : Nat} {e d : Expr K}
    (h : diffs (List.replicate k i) e = .ok d) : diffs (List.replicate (k + 1) i) e = diff (.var i) d := by
  rw [List.replicate_succ', diffs_snoc, h, Res.bind_ok]

/-- Moving one coordinate keeps regular points regular for a while. -/
theorem Reg.eventually_update {p : Fin n → ℝ} {i : Fin n} {e : Expr XReal} {t : ℝ}
    (h : Reg (Function.update p i t) e) : ∀ᶠ s in 𝓝 t, Reg (Function.update p i s) e := by
  have hc : ContinuousAt (fun s => Function.update p i s) t := (continuous_const.update i continuous_id).continuousAt
  exact hc.eventually h.eventually

theorem Reg.hasDerivAt_update {p : Fin n → ℝ} {i : Fin n} {e e' : Expr XReal} {t : ℝ}
    (hd : VM.diff (.var i) e = .ok e') (h : Reg (Function.update p i t) e) :
    HasDerivAt (fun s => rv (Function.update p i s) e) (rv (Function.update p i t) e') t := by
  simpa using h.hasDerivAt hd

theorem Reg.contDiffAt_update {p : Fin n → ℝ} {i : Fin n} {e : Expr XReal} {t : ℝ} {m : WithTop ℕ∞}
    (h : Reg (Function.update p i t) e) : ContDiffAt ℝ m (fun s => rv (Function.update p i s) e) t :=
  ContDiffAt.comp t (g := fun q => rv q e) h.contDiffAt (contDiff_update m p i).contDiffAt

theorem Reg.iteratedDeriv {p : Fin n → ℝ} {i : Fin n} {e : Expr XReal} {d : ℕ → Expr XReal}
    (hd : ∀ k, diffs (List.replicate k i.1) e = .ok (d k)) (k : ℕ) : ∀ {t : ℝ}, Reg (Function.update p i t) e →
    Reg (Function.update p i t) (d k) ∧
    iteratedDeriv k (fun s => rv (Function.update p i s) e) =ᶠ[𝓝 t] fun s => rv (Function.update p i s) (d k) := by
  induction k with
  | zero =>
    intro t h
    have := hd 0
    simp only [List.replicate_zero, diffs, Res.ok.injEq] at this
    rw [← this]
    simp only [iteratedDeriv_zero]
    exact ⟨h, .rfl⟩
  | succ k ih =>
    intro t h
    have h1 : VM.diff (.var i.1) (d k) = .ok (d (k + 1)) := by
      rw [← hd (k + 1), diffs_replicate_succ (hd k)]
    refine ⟨(ih h).1.diff h1, ?_⟩
    rw [iteratedDeriv_succ]
    refine (ih h).2.deriv.trans ?_
    filter_upwards [(ih h).1.eventually_update] with s hs
    exact (hs.hasDerivAt_update h1).deriv

/-- Simplifying parts keeps regular points and values. -/
theorem Spec.PartsSimplified.reg {p : Fin n → ℝ} {e e' : Expr XReal}
    (h : PartsSimplified (fun a b => Simplifies a (.ok b)) e e') (hr : Reg p e) : Reg p e' ∧ rv p e' = rv p e := by
  induction h with
  | same => exact ⟨hr, rfl⟩
  | here h => exact hr.simplified (Simplifies_iff.1 h)
  | un op _ ih =>
    cases op <;> first
      | exact hr.elim
      | exact ⟨⟨(ih hr.1).1, by rw [(ih hr.1).2]; exact hr.2⟩, by simp only [rv, (ih hr.1).2]⟩
  | integ => exact hr.elim
  | bin op _ _ ihl ihr =>
    obtain ⟨h1, h2⟩ := ihl hr.1
    obtain ⟨h3, h4⟩ := ihr hr.2.1
    exact ⟨⟨h1, h3, by rw [h4]; exact hr.2.2⟩, by simp only [rv, h2, h4]⟩
  | again _ _ ih1 ih2 => exact ⟨(ih2 (ih1 hr).1).1, (ih2 (ih1 hr).1).2.trans (ih1 hr).2⟩

theorem Spec.PartsSimplified.smooth {K : Type} [Num K] {e e' : Expr K}
    (h : PartsSimplified (fun a b => Simplifies a (.ok b)) e e') (hs : Smooth e) : Smooth e' := by
  induction h with
  | same => exact hs
  | here h => exact (simplified_induct (P := Smooth) (fun _ _ hp hx => hp.smooth hx) (Simplifies_iff.1 h) hs).1
  | un op _ ih => cases hs with | fn hf h => exact .fn hf (ih h)
  | integ => cases hs
  | bin op _ _ ihl ihr => cases hs with | bin ho h1 h2 => exact .bin ho (ihl h1) (ihr h2)
  | again _ _ ih1 ih2 => exact ih2 (ih1 hs)

/-- The derivative along a line is the sum of the partial derivatives times the direction. -/
theorem Reg.hasDerivAt_line {p q : Fin n → ℝ} {e : Expr XReal} {d : Fin n → Expr XReal}
    (hd : ∀ i : Fin n, VM.diff (.var i.1) e = .ok (d i)) {t : ℝ} (h : Reg (p + t • (q - p)) e) :
    HasDerivAt (fun s : ℝ => rv (p + s • (q - p)) e) (∑ i, rv (p + t • (q - p)) (d i) * (q i - p i)) t := by
  have h1 : HasFDerivAt (fun x => rv x e) (fderiv ℝ (fun x => rv x e) (p + t • (q - p))) (p + t • (q - p)) :=
    ((h.contDiffAt (m := 1)).differentiableAt (by simp)).hasFDerivAt
  have h2 : HasDerivAt (fun s : ℝ => p + s • (q - p)) (q - p) t := by
    simpa using ((hasDerivAt_id t).smul_const (q - p)).const_add p
  have h3 := h1.comp_hasDerivAt t h2
  refine h3.congr_deriv ?_
  have h4 : ∀ i, rv (p + t • (q - p)) (d i) = fderiv ℝ (fun x => rv x e) (p + t • (q - p)) (Pi.single i 1) := by
    intro i
    rw [← partialDeriv_fderiv i ((h.contDiffAt (m := 1)).differentiableAt (by simp))]
    exact (h.hasDerivAt (hd i)).deriv.symm
  simp only [h4]
  generalize fderiv ℝ (fun x => rv x e) (p + t • (q - p)) = L
  conv_lhs => rw [← Finset.univ_sum_single (q - p), map_sum]
  refine Finset.sum_congr rfl fun i _ => ?_
  rw [show (Pi.single i ((q - p) i) : Fin n → ℝ) = (q i - p i) • Pi.single i 1 from by
    rw [← Pi.single_smul]; simp]
  rw [map_smul, smul_eq_mul, mul_comm]

end VM
