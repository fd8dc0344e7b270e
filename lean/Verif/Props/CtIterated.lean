import Verif.Spec.CtIterated
import Verif.Rt.IteratedLemmas
import Verif.Props.Worlds
import Verif.Ct.NestedLemmas
import Verif.Ct.OverloadLemmas
import Mathlib.Analysis.Calculus.ContDiff.Operations
/-
Property C98: repeated differentiation at compile time.
-/
namespace VM.Props
open VM.Ct VM.Spec Filter Topology
variable {n : ℕ}

theorem startingWith_update (v : Nat → ℝ) (p : Fin n → ℝ) (i : Fin n) (t : ℝ) :
    startingWith v (Function.update p i t) = moved (startingWith v p) i t := by
  funext j
  by_cases h : j < n
  · by_cases hj : j = i
    · subst hj; simp [startingWith, moved]
    · have : (⟨j, h⟩ : Fin n) ≠ i := fun e => hj (by rw [← e])
      simp [startingWith, moved, h, hj, Function.update_of_ne this]
  · have : j ≠ (i : ℕ) := fun e => h (by rw [e]; exact i.2)
    simp [startingWith, moved, h, this]

theorem startingWith_contDiffAt (v : Nat → ℝ) (j : Nat) (p : Fin n → ℝ) :
    ContDiffAt ℝ ((⊤ : ℕ∞) : WithTop ℕ∞) (fun q : Fin n → ℝ => startingWith v q j) p := by
  by_cases h : j < n
  · simpa only [startingWith, h, dite_true] using contDiffAt_apply ℝ ℝ (⟨j, h⟩ : Fin n) p
  · simpa only [startingWith, h, dite_false] using contDiffAt_const

theorem cval_contDiffAt (v φ : Nat → ℝ) (p : Fin n → ℝ) : ∀ {e : CtExpr}, CDefined (startingWith v p) φ e →
    ContDiffAt ℝ ((⊤ : ℕ∞) : WithTop ℕ∞) (fun q => cval (startingWith v q) φ e) p
  | .const _, _ | .fsym _, _ => contDiffAt_const
  | .var j, _ => startingWith_contDiffAt v j p
  | .bin _ .plus _, h => (cval_contDiffAt v φ p h.1).add (cval_contDiffAt v φ p h.2)
  | .bin _ .minus _, h => (cval_contDiffAt v φ p h.1).sub (cval_contDiffAt v φ p h.2)
  | .bin _ .mult _, h => (cval_contDiffAt v φ p h.1).mul (cval_contDiffAt v φ p h.2)
  | .bin _ .div _, h => (cval_contDiffAt v φ p h.1).div (cval_contDiffAt v φ p h.2.1) h.2.2

theorem cdefined_near (v φ : Nat → ℝ) (p : Fin n → ℝ) : ∀ {e : CtExpr}, CDefined (startingWith v p) φ e →
    ∀ᶠ q in 𝓝 p, CDefined (startingWith v q) φ e
  | .const _, _ | .fsym _, _ | .var _, _ => .of_forall fun _ => trivial
  | .bin _ .plus _, h | .bin _ .minus _, h | .bin _ .mult _, h =>
    (cdefined_near v φ p h.1).and (cdefined_near v φ p h.2)
  | .bin _ .div _, h => (cdefined_near v φ p h.1).and ((cdefined_near v φ p h.2.1).and
    ((cval_contDiffAt v φ p h.2.1).continuousAt.eventually_ne h.2.2))

theorem run_iterated (v φ : Nat → ℝ) (p : Fin n → ℝ) : ∀ (l : List CtStep) (is : List (Fin n)) {e d : CtExpr},
    CtStep.byVars l = is.map Fin.val → CtStep.run l e = some d → NoSym e → CDefined (startingWith v p) φ e →
    CDefined (startingWith v p) φ d ∧
      (fun q => cval (startingWith v q) φ d) =ᶠ[𝓝 p] partialDerivs is fun q => cval (startingWith v q) φ e
  | [], is, e, d, hv, hr, _, hd => by
    cases is with
    | nil => cases hr; exact ⟨hd, .rfl⟩
    | cons _ _ => simp [CtStep.byVars] at hv
  | .simplify :: l, is, e, d, hv, hr, hn, hd => by
    obtain ⟨e', h1, h2⟩ := Option.bind_eq_some_iff.1 hr
    have hs := (C34_selected_partial (F := ℝ) h1).2.2
    obtain ⟨h3, h4⟩ := run_iterated v φ p l is hv h2 (ctSimplify_noSym h1 hn) (hs _ _ _ ⟨hd, rfl⟩).1
    refine ⟨h3, h4.trans (partialDerivs_congr is ?_)⟩
    filter_upwards [cdefined_near v φ p hd] with q hq
    exact (hs _ _ _ ⟨hq, rfl⟩).2
  | .expand :: l, is, e, d, hv, hr, hn, hd => by
    have hs := C37_value (F := ℝ) e
    obtain ⟨h3, h4⟩ := run_iterated v φ p l is hv hr (expand_noSym.1 e hn) (hs _ _ _ ⟨hd, rfl⟩).1
    refine ⟨h3, h4.trans (partialDerivs_congr is ?_)⟩
    filter_upwards [cdefined_near v φ p hd] with q hq
    exact (hs _ _ _ ⟨hq, rfl⟩).2
  | .diff i :: l, is, e, d, hv, hr, hn, hd => by
    cases is with
    | nil => simp [CtStep.byVars] at hv
    | cons k is =>
      simp only [CtStep.byVars, List.map_cons, List.cons.injEq] at hv
      obtain ⟨rfl, hv⟩ := hv
      obtain ⟨e', h1, h2⟩ := Option.bind_eq_some_iff.1 hr
      obtain ⟨e'', h5, h6⟩ := C38_derivative k e hn
      obtain rfl := Option.some.inj (h1.symm.trans h5)
      obtain ⟨h3, h4⟩ := run_iterated v φ p l is hv h2 (ctDiff_noSym h1) (h6 _ _ hd).1
      refine ⟨h3, h4.trans (partialDerivs_congr is ?_)⟩
      filter_upwards [cdefined_near v φ p hd] with q hq
      have h7 := (h6 _ _ hq).2.deriv
      simp only [partialDeriv, startingWith_update]
      rw [← h7]
      simp [startingWith]

/-- C98.  Whatever derivatives, simplifications and expansions are formed at compile time one after the other, the result is
defined wherever the expression is, and its value there is the iterated partial derivative, by the variables
differentiated by, of the function the expression denotes; that function can be differentiated arbitrarily often there. -/
theorem C98_iterated (l : List CtStep) (is : List (Fin n)) {e d : CtExpr} (hn : NoSym e)
    (hv : CtStep.byVars l = is.map Fin.val) (hr : CtStep.run l e = some d) (v φ : Nat → ℝ) (p : Fin n → ℝ)
    (hd : CDefined (startingWith v p) φ e) :
    ContDiffAt ℝ ((⊤ : ℕ∞) : WithTop ℕ∞) (fun q => cval (startingWith v q) φ e) p ∧
      CVal (startingWith v p) φ d (partialDerivs is (fun q => cval (startingWith v q) φ e) p) :=
  have h := run_iterated v φ p l is hv hr hn hd
  ⟨cval_contDiffAt v φ p hd, h.1, h.2.eq_of_nhds⟩

theorem exists_bound (l : List Nat) : ∃ n, ∀ i ∈ l, i < n := by
  induction l with
  | nil => exact ⟨0, by simp⟩
  | cons i l ih =>
    obtain ⟨n, h⟩ := ih
    refine ⟨n + i + 1, fun j hj => ?_⟩
    rcases List.mem_cons.1 hj with rfl | hj
    · omega
    · have := h j hj; omega

theorem exists_fin (l : List Nat) (h : ∀ i ∈ l, i < n) : ∃ is : List (Fin n), l = is.map Fin.val := by
  induction l with
  | nil => exact ⟨[], rfl⟩
  | cons i l ih =>
    obtain ⟨is, h1⟩ := ih fun j hj => h j (by simp [hj])
    exact ⟨⟨i, h i (by simp)⟩ :: is, by simp [h1]⟩

/-- C98.  The order of differentiation, and where in between one simplifies and expands, makes no difference to the value. -/
theorem C98_order (l l' : List CtStep) {e d d' : CtExpr} (hn : NoSym e)
    (hv : (CtStep.byVars l).Perm (CtStep.byVars l')) (hr : CtStep.run l e = some d) (hr' : CtStep.run l' e = some d')
    (v φ : Nat → ℝ) (hd : CDefined v φ e) : ∃ x, CVal v φ d x ∧ CVal v φ d' x := by
  obtain ⟨n, hN⟩ := exists_bound (CtStep.byVars l ++ CtStep.byVars l')
  obtain ⟨is, h1⟩ := exists_fin (n := n) (CtStep.byVars l) fun i hi => hN i (by simp [hi])
  obtain ⟨js, h2⟩ := exists_fin (n := n) (CtStep.byVars l') fun i hi => hN i (by simp [hi])
  have hp : is.Perm js := (List.map_perm_map_iff Fin.val_injective).1 (by rw [← h1, ← h2]; exact hv)
  have hw : startingWith v (fun j : Fin n => v j) = v := by
    funext j; by_cases h : j < n <;> simp [startingWith, h]
  obtain ⟨h3, h4⟩ := C98_iterated l is hn h1 hr v φ (fun j => v j) (by rw [hw]; exact hd)
  obtain ⟨-, h5⟩ := C98_iterated l' js hn h2 hr' v φ (fun j => v j) (by rw [hw]; exact hd)
  rw [← (partialDerivs_perm hp h3).eq_of_nhds] at h5
  rw [hw] at h4 h5
  exact ⟨_, h4, h5⟩

/-- C98.  Derivatives alone, of any order, always compile. -/
theorem C98_exists (is : List Nat) {e : CtExpr} (hn : NoSym e) : ∃ d, CtStep.run (is.map .diff) e = some d ∧ NoSym d := by
  induction is generalizing e with
  | nil => exact ⟨e, rfl, hn⟩
  | cons i is ih =>
    obtain ⟨e', h1⟩ := ctDiff_total i hn
    obtain ⟨d, h2, h3⟩ := ih (ctDiff_noSym h1)
    exact ⟨d, by simp [CtStep.run, h1, h2], h3⟩

/-! ### Concrete cases -/

/-- `x * y / z`, twice by `x` and `z` in between, simplified and expanded on the way. -/
example : NoSym ((.var 0 *' .var 1) /' .var 2) ∧ CDefined (fun j => (j + 1 : ℝ)) (fun _ => 0) ((.var 0 *' .var 1) /' .var 2) ∧
    (CtStep.byVars [.expand, .diff 0, .diff 2]).Perm (CtStep.byVars [.diff 2, .diff 0]) := by
  refine ⟨by simp [NoSym], by simp only [CDefined, cval]; norm_num, ?_⟩
  simp only [CtStep.byVars]
  exact .swap _ _ _

/-- `x * y` simplified, by `y`, simplified, by `x`, simplified: 1. -/
example : CtStep.run [.simplify, .diff 1, .simplify, .diff 0, .simplify] (.var 0 *' .var 1) = some ♯1 := by
  decide +kernel

/-- The variables matter: by `x` twice gives 0. -/
example : CtStep.run [.diff 0, .simplify, .diff 0, .simplify] (.var 0 *' .var 1) = some ♯0 := by
  decide +kernel

end VM.Props
