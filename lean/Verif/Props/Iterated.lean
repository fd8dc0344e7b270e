import Verif.Rt.IteratedLemmas
/-
Property C54: repeated differentiation.
-/
namespace VM.Props
open Spec Filter Topology
variable {n : ℕ}

/-- C54.  For a smooth expression `e` and any list of variables, `diff` applied for one variable after the
other returns an expression `e'`.  At every point where `e` has a value and none of its square roots has
argument 0, `e` denotes a function that can be differentiated arbitrarily often, the same holds for `e'`,
and `e'` evaluates to the iterated partial derivative of that function. -/
theorem C54_iterated (e : Expr XReal) (is : List (Fin n)) (hs : Smooth e) :
    ∃ e', diffs (is.map Fin.val) e = .ok e' ∧ Smooth e' ∧
      ∀ (o : Order XReal) (p : Fin n → ℝ), RegularAt o p e →
        ContDiffAt ℝ ((⊤ : ℕ∞) : WithTop ℕ∞) (denotes e) p ∧ RegularAt o p e' ∧
        eval o (realPoint p) e' = .ok (some (partialDerivs is (denotes e) p)) := by
  obtain ⟨e', h1, h2⟩ := diffs_smooth (is.map Fin.val) hs
  refine ⟨e', h1, h2, fun o p hp => ?_⟩
  have hr := (regularAt_iff hs o).1 hp
  obtain ⟨h3, h4⟩ := diffs_reg is hr h1
  refine ⟨hr.contDiffAt.congr_of_eventuallyEq (denotes_eventually hr), (regularAt_iff h2 o).2 h3, ?_⟩
  rw [h3.eval, (partialDerivs_congr is (denotes_eventually hr)).eq_of_nhds, ← h4.eq_of_nhds]

/-- C54.  The order of differentiation does not matter: for two lists of variables that are permutations of
each other, the results evaluate to the same number at every point where `e` has a value and none of its
square roots has argument 0. -/
theorem C54_order (e : Expr XReal) (is js : List (Fin n)) (hs : Smooth e) (hp : is.Perm js) :
    ∃ d d', diffs (is.map Fin.val) e = .ok d ∧ diffs (js.map Fin.val) e = .ok d' ∧
      ∀ (o o' : Order XReal) (p : Fin n → ℝ), RegularAt o p e →
        ∃ a : ℝ, eval o (realPoint p) d = .ok (some a) ∧ eval o' (realPoint p) d' = .ok (some a) := by
  obtain ⟨d, h1, h2, h3⟩ := C54_iterated e is hs
  obtain ⟨d', h4, h5, h6⟩ := C54_iterated e js hs
  refine ⟨d, d', h1, h4, fun o o' p h => ?_⟩
  obtain ⟨h7, -, h8⟩ := h3 o p h
  obtain ⟨-, -, h9⟩ := h6 o' p ((regularAt_iff hs o').2 ((regularAt_iff hs o).1 h))
  rw [← (partialDerivs_perm hp h7).eq_of_nhds] at h9
  exact ⟨_, h8, h9⟩

/-- `exp(x0 * x1) / x0` at `(1, 2)`: the hypotheses hold for the second derivative by `x0` and `x1`. -/
example : ∃ (e : Expr XReal) (p : Fin 2 → ℝ), Smooth e ∧ RegularAt leftFirst p e ∧
    List.Perm ([0, 1, 0] : List (Fin 2)) [1, 0, 0] := by
  refine ⟨.bin .div (.un (.fn .exp) (.bin .mult (.var 0) (.var 1))) (.var 0), ![1, 2], ?_, ?_, .swap _ _ _⟩
  · exact .bin (.inr (.inr (.inr rfl))) (.fn (by decide) (.bin (.inr (.inr (.inl rfl))) (.var 0) (.var 1))) (.var 0)
  · rw [regularAt_iff (.bin (.inr (.inr (.inr rfl)))
      (.fn (by decide) (.bin (.inr (.inr (.inl rfl))) (.var 0) (.var 1))) (.var 0))]
    simp [Reg, fnOk, opOk, rv]

/-- The variables do matter: for `x0 * x1` at `(1, 2)` the two derivatives differ. -/
example : ∃ (e d d' : Expr XReal) (p : Fin 2 → ℝ), Smooth e ∧ RegularAt leftFirst p e ∧
    diffs [0] e = .ok d ∧ diffs [1] e = .ok d' ∧ eval leftFirst (realPoint p) d ≠ eval leftFirst (realPoint p) d' := by
  have hs : Smooth (.bin .mult (.var 0) (.var 1) : Expr XReal) := .bin (.inr (.inr (.inl rfl))) (.var 0) (.var 1)
  have hr : Reg ![1, 2] (.bin .mult (.var 0) (.var 1) : Expr XReal) := by simp [Reg, opOk]
  obtain ⟨d, h1, -⟩ := C11_derivative _ 0 hs
  obtain ⟨d', h2, -⟩ := C11_derivative _ 1 hs
  have k1 := hr.hasDerivAt (i := 0) h1
  have k2 := hr.hasDerivAt (i := 1) h2
  refine ⟨_, d, d', ![1, 2], hs, (regularAt_iff hs _).2 hr, by simp [diffs, h1], by simp [diffs, h2], ?_⟩
  rw [(hr.diff h1).eval, (hr.diff h2).eval]
  simp only [rv, opR] at k1 k2
  have e1 : HasDerivAt (fun t : ℝ => t * 2) 2 1 := by simpa using (hasDerivAt_id (1 : ℝ)).mul_const 2
  have e2 : HasDerivAt (fun t : ℝ => 1 * t) 1 2 := by simpa using (hasDerivAt_id (2 : ℝ)).const_mul 1
  have j1 := k1.unique (by simpa using e1)
  have j2 := k2.unique (by simpa using e2)
  rw [j1, j2]
  norm_num

end VM.Props
