import Verif.Rt.RegularLemmas
/-
Repeated differentiation of smooth expressions.
-/
namespace VM
open Spec Filter Topology
variable {n : ℕ}

theorem denotes_reg {p : Fin n → ℝ} {e : Expr XReal} (h : Reg p e) : denotes e p = rv p e := by
  simp [denotes, h.eval]

theorem denotes_eventually {p : Fin n → ℝ} {e : Expr XReal} (h : Reg p e) :
    denotes e =ᶠ[𝓝 p] fun q => rv q e := h.eventually.mono fun _ => denotes_reg

theorem regularAt_iff {p : Fin n → ℝ} {e : Expr XReal} (hs : Smooth e) (o : Order XReal) :
    RegularAt o p e ↔ Reg p e := by
  constructor
  · rintro ⟨⟨a, h⟩, hq⟩
    exact .of_eval hs o h hq
  · exact fun h => ⟨⟨_, h.eval o⟩, fun s => h.sqrt_ne o⟩

theorem diffs_smooth (is : List Nat) : ∀ {e : Expr XReal}, Smooth e → ∃ e', diffs is e = .ok e' ∧ Smooth e' := by
  induction is with
  | nil => exact fun h => ⟨_, rfl, h⟩
  | cons i is ih =>
    intro e h
    obtain ⟨d, hd, -⟩ := Props.C11_derivative e i h
    obtain ⟨e', h1, h2⟩ := ih (h.diff hd)
    exact ⟨e', by simp [diffs, hd, h1], h2⟩

theorem diffs_reg {p : Fin n → ℝ} (is : List (Fin n)) : ∀ {e e' : Expr XReal}, Reg p e →
    diffs (is.map Fin.val) e = .ok e' →
    Reg p e' ∧ (fun q => rv q e') =ᶠ[𝓝 p] partialDerivs is fun q => rv q e := by
  induction is with
  | nil => intro e e' h hd; simp only [diffs, List.map_nil, Res.ok.injEq] at hd; subst hd; exact ⟨h, .rfl⟩
  | cons i is ih =>
    intro e e' h hd
    simp only [List.map_cons, diffs] at hd
    obtain ⟨d, h1, h2⟩ := Res.bind_eq_ok.1 hd
    obtain ⟨h3, h4⟩ := ih (h.diff h1) h2
    refine ⟨h3, h4.trans (partialDerivs_congr is ?_)⟩
    filter_upwards [h.eventually] with q hq
    exact (hq.hasDerivAt h1).deriv.symm

end VM
