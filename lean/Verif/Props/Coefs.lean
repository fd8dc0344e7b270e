import Verif.Spec.Coefs
import Verif.Props.CtManip
import Verif.Props.Inverse
import Verif.Ct.OverloadLemmas
import Mathlib.Algebra.Polynomial.Inductions
import Mathlib.Algebra.CharZero.Infinite
import Mathlib.Algebra.Polynomial.Roots
import Mathlib.Algebra.Polynomial.Taylor
import Mathlib.Analysis.Calculus.Deriv.Polynomial
/-
Property C96: coefficients taken again and again are the coefficients of the polynomial.
-/
namespace VM.Props
open VM.Ct VM.Spec Polynomial

theorem coefImpl_poly {i : Nat} {e : CtExpr} : ∀ {c : CtExpr}, PolyIn i e → coefImpl (.var i) e = some c → PolyIn i c := by
  induction e with
  | const n => intro c _ h; simp [coefImpl] at h; subst h; trivial
  | fsym t => intro c _ h; simp [coefImpl] at h; subst h; trivial
  | var j =>
    intro c _ h
    by_cases hj : j = i
    · simp [coefImpl, hj, isBin] at h; subst h; trivial
    · simp [coefImpl, hj] at h; subst h; trivial
  | bin l op r ihl ihr =>
    intro c hp h
    cases op with
    | plus =>
      simp only [coefImpl, reduceCtorEq, if_false, Option.bind_eq_some_iff, Option.some.injEq] at h
      obtain ⟨a, h1, b, h2, rfl⟩ := h
      exact ⟨ihl hp.1 h1, ihr hp.2 h2⟩
    | minus =>
      simp only [coefImpl, reduceCtorEq, if_false, Option.bind_eq_some_iff, Option.some.injEq] at h
      obtain ⟨a, h1, b, h2, rfl⟩ := h
      exact ⟨ihl hp.1 h1, ihr hp.2 h2⟩
    | div =>
      simp only [coefImpl, reduceCtorEq, if_false, Option.bind_eq_some_iff, Option.some.injEq] at h
      obtain ⟨a, h1, rfl⟩ := h
      exact ⟨ihl hp.1 h1, hp.2⟩
    | mult =>
      rw [coefImpl, if_neg (by simp)] at h
      split at h
      · cases h; trivial
      split at h
      · cases h; exact hp.2
      split at h
      · cases h; exact hp.1
      simp only [Option.bind_eq_some_iff] at h
      obtain ⟨a, -, b, -, h⟩ := h
      split at h
      · cases h; trivial
      · simp only [Option.bind_eq_some_iff, Option.some.injEq] at h
        obtain ⟨x, h1, rfl⟩ := h
        exact ⟨ihl hp.1 h1, hp.2⟩
      · simp only [Option.bind_eq_some_iff, Option.some.injEq] at h
        obtain ⟨x, h1, rfl⟩ := h
        exact ⟨hp.1, ihr hp.2 h1⟩
      · simp only [Option.bind_eq_some_iff, Option.some.injEq] at h
        obtain ⟨x, h1, rfl⟩ := h
        exact ⟨ihl hp.1 h1, hp.2⟩

variable {F : Type} [Field F]

/-- An expression polynomial in x has the values of a polynomial. -/
theorem poly_exists {i : Nat} {e : CtExpr} (hp : PolyIn i e) (v φ : Nat → F) :
    ∃ P : F[X], ∀ t, cval (moved v i t) φ e = P.eval t := by
  induction e with
  | const n => exact ⟨C (n : F), fun t => by simp [cval]⟩
  | fsym t => exact ⟨C (φ t), fun t => by simp [cval]⟩
  | var j =>
    by_cases hj : j = i
    · exact ⟨X, fun t => by simp [cval, moved, hj]⟩
    · exact ⟨C (v j), fun t => by simp [cval, moved, hj]⟩
  | bin l op r ihl ihr =>
    cases op with
    | plus =>
      obtain ⟨P, h1⟩ := ihl hp.1; obtain ⟨Q, h2⟩ := ihr hp.2
      exact ⟨P + Q, fun t => by simp [cval, h1, h2]⟩
    | minus =>
      obtain ⟨P, h1⟩ := ihl hp.1; obtain ⟨Q, h2⟩ := ihr hp.2
      exact ⟨P - Q, fun t => by simp [cval, h1, h2]⟩
    | mult =>
      obtain ⟨P, h1⟩ := ihl hp.1; obtain ⟨Q, h2⟩ := ihr hp.2
      exact ⟨P * Q, fun t => by simp [cval, h1, h2]⟩
    | div =>
      obtain ⟨P, h1⟩ := ihl hp.1
      exact ⟨P * C (cval v φ r)⁻¹, fun t => by simp [cval, h1, cval_moved hp.2, div_eq_mul_inv]⟩

variable [CharZero F]

theorem coef_divX {i : Nat} {e c : CtExpr} (hp : PolyIn i e) (hc : coefficient (.var i) e = some c) {v φ : Nat → F}
    (hd : CDefined v φ e) : PolyIn i c ∧ CDefined v φ c ∧
    ∀ P : F[X], (∀ t, cval (moved v i t) φ e = P.eval t) → ∀ t, cval (moved v i t) φ c = P.divX.eval t := by
  have hpc : PolyIn i c := coefImpl_poly ((expand_poly i).1 e hp) hc
  obtain ⟨c', hc', h⟩ := C41_coefficient (F := F) hp
  obtain rfl := Option.some.inj (hc.symm.trans hc')
  refine ⟨hpc, (h v φ hd).1, fun P hP => ?_⟩
  obtain ⟨Q, hQ⟩ := poly_exists hpc v φ
  have key : Q * X + C (P.coeff 0) = P := by
    refine Polynomial.funext fun t => ?_
    have := (h (moved v i t) φ ((cdefined_poly hp v φ t).2 hd)).2
    rw [moved_moved, hQ, hP, hP] at this
    simp only [eval_add, eval_mul, eval_X, eval_C, coeff_zero_eq_eval_zero]
    simpa [moved] using this
  have : Q = P.divX := by
    have h2 := P.divX_mul_X_add
    conv_rhs at h2 => rw [← key]
    exact (mul_right_cancel₀ X_ne_zero (add_right_cancel h2)).symm
  intro t
  rw [hQ, this]

theorem coefs_divX {i : Nat} (k : Nat) {e : CtExpr} (hp : PolyIn i e) :
    ∃ c, coefs i k e = some c ∧ PolyIn i c ∧ ∀ v φ : Nat → F, CDefined v φ e → CDefined v φ c ∧
      ∀ P : F[X], (∀ t, cval (moved v i t) φ e = P.eval t) → ∀ t, cval (moved v i t) φ c = (divX^[k] P).eval t := by
  induction k generalizing e with
  | zero => exact ⟨e, rfl, hp, fun v φ hd => ⟨hd, fun P hP => hP⟩⟩
  | succ k ih =>
    obtain ⟨c₁, hc₁, -⟩ := C41_coefficient (F := F) hp
    have hp₁ : PolyIn i c₁ := coefImpl_poly ((expand_poly i).1 e hp) hc₁
    obtain ⟨c, h1, h2, h3⟩ := ih hp₁
    refine ⟨c, by simp only [coefs, hc₁, Option.bind_some, h1], h2, fun v φ hd => ?_⟩
    obtain ⟨-, h4, h5⟩ := coef_divX hp hc₁ hd
    obtain ⟨h6, h7⟩ := h3 v φ h4
    exact ⟨h6, fun P hP t => by rw [h7 _ (h5 P hP), Function.iterate_succ_apply]⟩

omit [CharZero F] in
theorem iterate_divX_coeff (P : F[X]) (k j : Nat) : (divX^[k] P).coeff j = P.coeff (j + k) := by
  induction k generalizing P with
  | zero => rfl
  | succ k ih => rw [Function.iterate_succ_apply, ih, coeff_divX]; exact congrArg _ (by omega)

omit [CharZero F] in
/-- The polynomial with the coefficients a 0, ..., a (n - 1). -/
theorem sum_poly (n : Nat) (a : Nat → F) : ∃ P : F[X], (∀ t, P.eval t = ∑ j ∈ Finset.range n, a j * t ^ j) ∧
    ∀ j, P.coeff j = if j < n then a j else 0 := by
  refine ⟨∑ j ∈ Finset.range n, C (a j) * X ^ j, fun t => by simp [eval_finsetSum], fun j => ?_⟩
  simp [coeff_C_mul, coeff_X_pow]

omit [CharZero F] in
/-- C96.  Where it is defined, an expression polynomial in x is the sum of powers of x with coefficients that do not depend
on x. -/
theorem C96_polynomial {i : Nat} {e : CtExpr} (hp : PolyIn i e) (v φ : Nat → F) :
    ∃ (n : Nat) (a : Nat → F), ∀ t, cval (moved v i t) φ e = ∑ j ∈ Finset.range n, a j * t ^ j := by
  obtain ⟨P, hP⟩ := poly_exists hp v φ
  exact ⟨P.natDegree + 1, P.coeff, fun t => by rw [hP, eval_eq_sum_range]⟩

/-- C96.  Taking the coefficient of x `k` times compiles and leaves out the first `k` coefficients: if the values of the
expression are a 0 + a 1 x + ..., those of the outcome are a k + a (k+1) x + ..., also at x = 0. -/
theorem C96_coefficients {i : Nat} {e : CtExpr} (hp : PolyIn i e) (k : Nat) :
    ∃ c, coefs i k e = some c ∧ PolyIn i c ∧ ∀ v φ : Nat → F, CDefined v φ e → CDefined v φ c ∧
      ∀ (n : Nat) (a : Nat → F), (∀ t, cval (moved v i t) φ e = ∑ j ∈ Finset.range n, a j * t ^ j) →
        ∀ t, cval (moved v i t) φ c = ∑ j ∈ Finset.range (n - k), a (j + k) * t ^ j := by
  obtain ⟨c, h1, h2, h3⟩ := coefs_divX (F := F) k hp
  refine ⟨c, h1, h2, fun v φ hd => ⟨(h3 v φ hd).1, fun n a ha t => ?_⟩⟩
  obtain ⟨P, hP, hPc⟩ := sum_poly n a
  obtain ⟨Q, hQ, hQc⟩ := sum_poly (n - k) fun j => a (j + k)
  rw [(h3 v φ hd).2 P (fun t => by rw [ha, hP]), ← hQ]
  congr 1
  ext j
  rw [iterate_divX_coeff, hPc, hQc]
  by_cases h : j + k < n
  · rw [if_pos h, if_pos (by omega)]
  · rw [if_neg h, if_neg (by omega)]

/-- C96.  The coefficient of the power `k` as an expression without x: drop_dependent_terms after coefficient, `k` times.
Missing for the full C96: drop_dependent_terms need not compile, see `C41_rejected`. -/
theorem C96_power_partial {i : Nat} {e c d : CtExpr} (hp : PolyIn i e) {k : Nat} (hc : coefs i k e = some c)
    (h : dropTerms strict (.var i) c = some d) :
    dropTerms narrow (.var i) c = some d ∧ ¬ Has i d ∧ ∀ v φ : Nat → F, CDefined v φ e →
      ∀ (n : Nat) (a : Nat → F), (∀ t, cval (moved v i t) φ e = ∑ j ∈ Finset.range n, a j * t ^ j) →
        CVal v φ d (if k < n then a k else 0) := by
  obtain ⟨c', h1, h2, h3⟩ := C96_coefficients (F := F) hp k
  obtain rfl := Option.some.inj (hc.symm.trans h1)
  obtain ⟨h4, c'', h5, h6, h7⟩ := C41_split_partial (F := F) h2 h
  refine ⟨h4, h7, fun v φ hd n a ha => ?_⟩
  obtain ⟨h8, h9⟩ := h3 v φ hd
  have h0 := h9 n a ha 0
  obtain ⟨hd0, hv0⟩ := h6 (moved v i 0) φ _ ⟨(cdefined_poly h2 v φ 0).2 h8, rfl⟩
  refine ⟨(cdefined_moved h7 v φ 0).1 hd0.2, ?_⟩
  simp only [cval, moved, if_true, mul_zero, zero_add] at hv0
  rw [← cval_moved h7 v φ 0]
  refine hv0.trans (h0.trans ?_)
  by_cases hk : k < n
  · rw [if_pos hk, Finset.sum_eq_single 0]
    · simp
    · intro b _ hb; simp [hb]
    · intro hh; simp at hh; omega
  · rw [if_neg hk, Nat.sub_eq_zero_of_le (by omega)]; simp

/-! ### Derivatives -/

theorem ctDiffs_derivative {i : Nat} (k : Nat) {e : CtExpr} (hn : NoSym e) (hp : PolyIn i e) :
    ∃ d, ctDiffs i k e = some d ∧ ∀ v φ : Nat → ℝ, CDefined v φ e → CDefined v φ d ∧
      ∀ P : ℝ[X], (∀ t, cval (moved v i t) φ e = P.eval t) →
        ∀ t, cval (moved v i t) φ d = (derivative^[k] P).eval t := by
  induction k generalizing e with
  | zero => exact ⟨e, rfl, fun v φ hd => ⟨hd, fun P hP => hP⟩⟩
  | succ k ih =>
    obtain ⟨d₁, h1⟩ := ctDiff_total i hn
    obtain ⟨d, h2, h3⟩ := ih (ctDiff_noSym h1) (ctDiff_poly h1 hp)
    refine ⟨d, by simp only [ctDiffs, h1, Option.bind_some, h2], fun v φ hd => ?_⟩
    have h4 := h3 v φ (ctDiff_sound i h1 v φ hd).1
    refine ⟨h4.1, fun P hP t => ?_⟩
    rw [h4.2 (derivative P), Function.iterate_succ_apply]
    intro t
    have h5 := cval_hasDerivAt h1 ((cdefined_poly hp v φ t).2 hd)
    simp only [hP] at h5
    exact h5.unique (P.hasDerivAt t)

/-- C96.  The compile-time derivative of order `k` at x = 0 is k! times the coefficient taken `k` times, at x = 0. -/
theorem C96_derivatives {i : Nat} {e : CtExpr} (hn : NoSym e) (hp : PolyIn i e) (k : Nat) :
    ∃ c d, coefs i k e = some c ∧ ctDiffs i k e = some d ∧ ∀ v φ : Nat → ℝ, CDefined v φ e →
      cval (moved v i 0) φ d = k.factorial * cval (moved v i 0) φ c := by
  obtain ⟨c, h1, -, h2⟩ := coefs_divX (F := ℝ) k hp
  obtain ⟨d, h3, h4⟩ := ctDiffs_derivative k hn hp
  refine ⟨c, d, h1, h3, fun v φ hd => ?_⟩
  obtain ⟨P, hP⟩ := poly_exists hp v φ
  rw [(h2 v φ hd).2 P hP, (h4 v φ hd).2 P hP, ← coeff_zero_eq_eval_zero, ← coeff_zero_eq_eval_zero, iterate_divX_coeff,
    coeff_iterate_derivative]
  simp [Nat.descFactorial_self]

/-- C96.  A polynomial is the sum of its Taylor series at x = 0, formed with compile-time derivatives. -/
theorem C96_taylor {i : Nat} {e : CtExpr} (hn : NoSym e) (hp : PolyIn i e) (v φ : Nat → ℝ) (hd : CDefined v φ e) :
    ∃ n, ∀ m, n ≤ m → ∃ d : Nat → CtExpr, (∀ k, ctDiffs i k e = some (d k)) ∧
      ∀ t, cval (moved v i t) φ e = ∑ k ∈ Finset.range m, cval (moved v i 0) φ (d k) / k.factorial * t ^ k := by
  choose d h1 h2 using fun k => ctDiffs_derivative (i := i) k hn hp
  obtain ⟨P, hP⟩ := poly_exists hp v φ
  refine ⟨P.natDegree + 1, fun m hm => ⟨d, h1, fun t => ?_⟩⟩
  rw [hP, eval_eq_sum_range' (by omega : P.natDegree < m)]
  refine Finset.sum_congr rfl fun k _ => ?_
  rw [(h2 k v φ hd).2 P hP, ← coeff_zero_eq_eval_zero, coeff_iterate_derivative]
  have : (k.factorial : ℝ) ≠ 0 := Nat.cast_ne_zero.2 k.factorial_ne_zero
  simp [Nat.descFactorial_self, this]

/-- y*x*x + 5*x + z/2 in x. -/
example : PolyIn 0 (.var 1 *' .var 0 *' .var 0 +' ♯5 *' .var 0 +' .var 2 /' ♯2) ∧
    NoSym (.var 1 *' .var 0 *' .var 0 +' ♯5 *' .var 0 +' .var 2 /' ♯2) ∧
    coefs 0 1 (.var 1 *' .var 0 *' .var 0 +' ♯5 *' .var 0 +' .var 2 /' ♯2) = some (.var 1 *' .var 0 +' ♯5 +' ♯0 /' ♯2) := by
  refine ⟨by simp [PolyIn, Has], by simp [NoSym], ?_⟩
  have h : expand (.var 1 *' .var 0 *' .var 0 +' ♯5 *' .var 0 +' .var 2 /' ♯2) =
      .var 1 *' .var 0 *' .var 0 +' ♯5 *' .var 0 +' .var 2 /' ♯2 := by simp [expand_mul, expandProduct, hasPM]
  simp only [coefs, coefficient, h]
  decide +kernel

/-- The coefficient of x in y*x*x + 5*x is 5. -/
example : coefs 0 1 (.var 1 *' .var 0 *' .var 0 +' ♯5 *' .var 0) = some (.var 1 *' .var 0 +' ♯5) ∧
    dropTerms strict (.var 0) (.var 1 *' .var 0 +' ♯5) = some (♯5) := by
  have h : expand (.var 1 *' .var 0 *' .var 0 +' ♯5 *' .var 0) = .var 1 *' .var 0 *' .var 0 +' ♯5 *' .var 0 := by
    simp [expand_mul, expandProduct, hasPM]
  have h' : expand (.var 1 *' .var 0 +' ♯5) = .var 1 *' .var 0 +' ♯5 := by simp [expand_mul, expandProduct, hasPM]
  simp only [coefs, coefficient, dropTerms, h, h']
  decide +kernel

end VM.Props
