import Verif.Ct.ManipLemmas
import Verif.Ct.OccurLemmas
import Mathlib.Analysis.SpecialFunctions.Integrals.Basic
import Mathlib.Analysis.Calculus.Deriv.Inv
import Mathlib.Analysis.Calculus.Deriv.Add
import Mathlib.Analysis.Calculus.Deriv.Mul
namespace VM.Ct
open VM.Spec

/-! ### Differentiation -/

theorem ctDiff_total (i : Nat) {e : CtExpr} (h : NoSym e) : ∃ e', ctDiff i e = some e' := by
  induction e with
  | const n => exact ⟨_, rfl⟩
  | var j => by_cases hj : j = i <;> simp [ctDiff, hj]
  | fsym t => exact h.elim
  | bin l op r ihl ihr =>
    obtain ⟨l', hl⟩ := ihl h.1
    obtain ⟨r', hr⟩ := ihr h.2
    cases op <;> simp [ctDiff, hl, hr]

theorem ctDiff_sound (i : Nat) {e e' : CtExpr} (h : ctDiff i e = some e') (v φ : Nat → ℝ)
    (hd : CDefined v φ e) :
    CDefined v φ e' ∧ HasDerivAt (fun t => cval (moved v i t) φ e) (cval v φ e') (v i) := by
  induction e generalizing e' with
  | const n =>
    cases h
    exact ⟨trivial, by simpa [cval] using hasDerivAt_const (v i) ((n : ℤ) : ℝ)⟩
  | var j =>
    simp only [ctDiff] at h
    by_cases hj : j = i
    · rw [if_pos hj] at h; cases h
      refine ⟨trivial, ?_⟩
      simpa [cval, moved, hj] using hasDerivAt_id' (v i)
    · rw [if_neg hj] at h; cases h
      refine ⟨trivial, ?_⟩
      simpa [cval, moved, hj] using hasDerivAt_const (v i) (v j)
  | fsym t => cases h
  | bin l op r ihl ihr =>
    cases op with
    | plus =>
      simp only [ctDiff, Option.bind_eq_some_iff, Option.some.injEq] at h
      obtain ⟨l', hl, r', hr, rfl⟩ := h
      obtain ⟨h1, h2⟩ := ihl hl hd.1
      obtain ⟨h3, h4⟩ := ihr hr hd.2
      exact ⟨⟨h1, h3⟩, h2.add h4⟩
    | minus =>
      simp only [ctDiff, Option.bind_eq_some_iff, Option.some.injEq] at h
      obtain ⟨l', hl, r', hr, rfl⟩ := h
      obtain ⟨h1, h2⟩ := ihl hl hd.1
      obtain ⟨h3, h4⟩ := ihr hr hd.2
      exact ⟨⟨h1, h3⟩, h2.sub h4⟩
    | mult =>
      simp only [ctDiff, Option.bind_eq_some_iff, Option.some.injEq] at h
      obtain ⟨l', hl, r', hr, rfl⟩ := h
      obtain ⟨h1, h2⟩ := ihl hl hd.1
      obtain ⟨h3, h4⟩ := ihr hr hd.2
      refine ⟨⟨⟨h1, hd.2⟩, hd.1, h3⟩, ?_⟩
      have := h2.mul h4
      simp only [moved_self] at this
      exact this
    | div =>
      simp only [ctDiff, Option.bind_eq_some_iff, Option.some.injEq] at h
      obtain ⟨l', hl, r', hr, rfl⟩ := h
      obtain ⟨h1, h2⟩ := ihl hl hd.1
      obtain ⟨h3, h4⟩ := ihr hr hd.2.1
      have hr0 := hd.2.2
      refine ⟨⟨⟨⟨h1, hd.2.1⟩, hd.1, h3⟩, ⟨hd.2.1, hd.2.1⟩, mul_ne_zero hr0 hr0⟩, ?_⟩
      have := h2.div h4 (by simpa only [moved_self] using hr0)
      simp only [moved_self, pow_two] at this
      exact this

/-! ### Integration -/

theorem powN_fuel (t : CtExpr) : ∀ k m n : Nat, n ≤ k → n ≤ m → powN t k n = powN t m n := by
  intro k
  induction k with
  | zero =>
    intro m n hk hm
    obtain rfl : n = 0 := by omega
    cases m <;> simp [powN]
  | succ k ih =>
    intro m n hk hm
    match m with
    | 0 => obtain rfl : n = 0 := by omega
           simp [powN]
    | m + 1 =>
      unfold powN
      split_ifs with h0 h1 h2
      · rfl
      · rfl
      · rfl
      · rw [ih m (n / 2) (by omega) (by omega), ih m (n - n / 2) (by omega) (by omega)]

/-- The specialisations of `pow`: the bound is never reached. -/
theorem powC_eq (t : CtExpr) (n : Nat) : powC t n =
    if n = 0 then ♯1 else if n = 1 then t else if n = 2 then t *' t
    else powC t (n / 2) *' powC t (n - n / 2) := by
  unfold powC
  match n with
  | 0 => rfl
  | n + 1 =>
    conv_lhs => unfold powN
    split_ifs
    all_goals try rfl
    · omega
    · rw [powN_fuel t n ((n + 1) / 2) _ (by omega) le_rfl,
        powN_fuel t n (n + 1 - (n + 1) / 2) _ (by omega) le_rfl]

theorem powC_val {F : Type*} [Field F] (v φ : Nat → F) (t : CtExpr) (n : Nat) :
    (CDefined v φ t → CDefined v φ (powC t n)) ∧ cval v φ (powC t n) = cval v φ t ^ n := by
  induction n using Nat.strongRecOn with
  | _ n ih =>
    rw [powC_eq]
    split_ifs with h0 h1 h2
    · subst h0; simp [CDefined, cval]
    · subst h1; simp
    · subst h2; exact ⟨fun h => ⟨h, h⟩, by simp only [cval, pow_two]⟩
    · obtain ⟨h3, h4⟩ := ih (n / 2) (by omega)
      obtain ⟨h5, h6⟩ := ih (n - n / 2) (by omega)
      refine ⟨fun h => ⟨h3 h, h5 h⟩, ?_⟩
      simp only [cval, h4, h6, ← pow_add]
      congr 1; omega

theorem monomial_val {F : Type*} [Field F] [CharZero F] {v φ : Nat → F} {t m : CtExpr} {n : Nat}
    (h : monomial t n = some m) (hd : CDefined v φ t) :
    CVal v φ m (cval v φ t ^ (n + 1) / (n + 1)) := by
  unfold monomial at h
  split_ifs at h with h0 h1
  · obtain rfl : n = 0 := by omega
    cases h; exact ⟨hd, by simp⟩
  · cases h
    have hn : ((n : ℤ) + 1).toNat = n + 1 := by omega
    obtain ⟨h2, h3⟩ := powC_val v φ t (n + 1)
    rw [hn]
    refine ⟨⟨h2 hd, trivial, ?_⟩, ?_⟩
    · simp only [cval]; push_cast; exact Nat.cast_add_one_ne_zero n
    · simp only [cval, h3]; push_cast; rfl

theorem polyDegree_zero {i : Nat} {e : CtExpr} (h : ¬ Has i e) {k : Int}
    (hk : polyDegree (.var i) e = some k) : k = 0 := by
  induction e generalizing k with
  | const n => simp [polyDegree] at hk; exact hk.symm
  | var j => have hj : j ≠ i := h; simp [polyDegree, hj] at hk; exact hk.symm
  | fsym t => simp [polyDegree] at hk; exact hk.symm
  | bin l op r ihl ihr =>
    obtain ⟨h1, h2⟩ := not_or.1 h
    cases op with
    | plus => simp [polyDegree] at hk
    | minus => simp [polyDegree] at hk
    | mult =>
      simp only [polyDegree, reduceCtorEq, if_false, Option.bind_eq_some_iff, Option.some.injEq] at hk
      obtain ⟨a, ha, b, hb, rfl⟩ := hk
      simp [ihl h1 ha, ihr h2 hb]
    | div =>
      simp only [polyDegree, reduceCtorEq, if_false, Option.bind_eq_some_iff, Option.some.injEq] at hk
      obtain ⟨a, ha, b, hb, rfl⟩ := hk
      simp [ihl h1 ha, ihr h2 hb]

/-- A product of the degree `k` is `x^k` times its value at `x = 1`. -/
theorem polyDegree_val {F : Type*} [Field F] {i : Nat} {e : CtExpr} (hp : PolyIn i e) {k : Int}
    (hk : polyDegree (.var i) e = some k) : ∃ n : Nat, k = n ∧ ∀ (v φ : Nat → F) (t : F),
      cval (moved v i t) φ e = t ^ n * cval (moved v i 1) φ e := by
  induction e generalizing k with
  | const n => simp [polyDegree] at hk; exact ⟨0, by simp [← hk], by simp [cval]⟩
  | var j =>
    by_cases hj : j = i
    · simp [polyDegree, hj] at hk; exact ⟨1, by simp [← hk], by simp [cval, hj]⟩
    · simp [polyDegree, hj] at hk; exact ⟨0, by simp [← hk], by simp [cval, moved, hj]⟩
  | fsym t => simp [polyDegree] at hk; exact ⟨0, by simp [← hk], by simp [cval]⟩
  | bin l op r ihl ihr =>
    cases op with
    | plus => simp [polyDegree] at hk
    | minus => simp [polyDegree] at hk
    | mult =>
      simp only [polyDegree, reduceCtorEq, if_false, Option.bind_eq_some_iff, Option.some.injEq] at hk
      obtain ⟨a, ha, b, hb, rfl⟩ := hk
      obtain ⟨n, rfl, hn⟩ := ihl hp.1 ha
      obtain ⟨m, rfl, hm⟩ := ihr hp.2 hb
      refine ⟨n + m, by push_cast; rfl, fun v φ t => ?_⟩
      simp only [cval]
      rw [hn v φ t, hm v φ t, pow_add]; ring
    | div =>
      simp only [polyDegree, reduceCtorEq, if_false, Option.bind_eq_some_iff, Option.some.injEq] at hk
      obtain ⟨a, ha, b, hb, rfl⟩ := hk
      obtain ⟨n, rfl, hn⟩ := ihl hp.1 ha
      obtain rfl := polyDegree_zero hp.2 hb
      refine ⟨n, by simp, fun v φ t => ?_⟩
      simp only [cval, cval_moved hp.2]
      rw [hn v φ t]; ring

theorem poly_continuous {i : Nat} {e : CtExpr} (hp : PolyIn i e) (v φ : Nat → ℝ) :
    Continuous fun t => cval (moved v i t) φ e := by
  induction e with
  | const n => exact continuous_const
  | var j =>
    by_cases hj : j = i
    · simpa [cval, moved, hj] using continuous_id'
    · simpa [cval, moved, hj] using continuous_const
  | fsym t => exact continuous_const
  | bin l op r ihl ihr =>
    cases op with
    | plus => exact (ihl hp.1).add (ihr hp.2)
    | minus => exact (ihl hp.1).sub (ihr hp.2)
    | mult => exact (ihl hp.1).mul (ihr hp.2)
    | div =>
      simp only [cval, cval_moved hp.2]
      exact (ihl hp.1).div_const _

theorem ctSimplify_sound {F : Type*} [Field F] [CharZero F] {cv : Conv} (hcv : cv.Exact) {e e' : CtExpr}
    (h : ctSimplify cv e = some e') {v φ : Nat → F} {x : F} (hx : CVal v φ e x) : CVal v φ e' x :=
  simplifyAny_sound hcv (ctSimplify_any _ le_rfl h) hx

theorem integrateImpl_sound {cv : Conv} (hcv : cv.Exact) (i : Nat) {a b : CtExpr} {v φ : Nat → ℝ}
    (ha : CDefined v φ a) (hb : CDefined v φ b) {e r : CtExpr} (hp : PolyIn i e) (hn : NoLone i e)
    (hd : CDefined v φ e) (h : integrateImpl cv a b (.var i) e = some r) :
    CVal v φ r (∫ t in cval v φ a..cval v φ b, cval (moved v i t) φ e) := by
  have hint : ∀ e, PolyIn i e → IntervalIntegrable (fun t => cval (moved v i t) φ e)
      MeasureTheory.volume (cval v φ a) (cval v φ b) :=
    fun e he => (poly_continuous he v φ).intervalIntegrable _ _
  induction e generalizing r with
  | const n =>
    refine ctSimplify_sound hcv h ⟨⟨trivial, hb, ha⟩, ?_⟩
    simp only [cval, intervalIntegral.integral_const, smul_eq_mul]; ring
  | var j =>
    have hj : j = i := hn
    subst hj
    refine ctSimplify_sound hcv h ⟨⟨⟨⟨hb, hb⟩, trivial, ?_⟩, ⟨ha, ha⟩, trivial, ?_⟩, ?_⟩
    · simp [cval]
    · simp [cval]
    · simp only [cval, moved_same, integral_id]; push_cast; ring
  | fsym t => cases h
  | bin l op r' ihl ihr =>
    cases op with
    | plus =>
      simp only [integrateImpl, Option.bind_eq_some_iff] at h
      obtain ⟨l₁, hl, r₁, hr, h⟩ := h
      obtain ⟨h1, h2⟩ := ihl hp.1 hn.1 hd.1 hl
      obtain ⟨h3, h4⟩ := ihr hp.2 hn.2 hd.2 hr
      refine ctSimplify_sound hcv h ⟨⟨h1, h3⟩, ?_⟩
      simp only [cval]
      rw [intervalIntegral.integral_add (hint _ hp.1) (hint _ hp.2), h2, h4]
    | minus =>
      simp only [integrateImpl, Option.bind_eq_some_iff] at h
      obtain ⟨l₁, hl, r₁, hr, h⟩ := h
      obtain ⟨h1, h2⟩ := ihl hp.1 hn.1 hd.1 hl
      obtain ⟨h3, h4⟩ := ihr hp.2 hn.2 hd.2 hr
      refine ctSimplify_sound hcv h ⟨⟨h1, h3⟩, ?_⟩
      simp only [cval]
      rw [intervalIntegral.integral_sub (hint _ hp.1) (hint _ hp.2), h2, h4]
    | div =>
      simp only [integrateImpl, Option.bind_eq_some_iff] at h
      obtain ⟨l₁, hl, h⟩ := h
      obtain ⟨h1, h2⟩ := ihl hp.1 hn hd.1 hl
      refine ctSimplify_sound hcv h ⟨⟨h1, hd.2⟩, ?_⟩
      simp only [cval, cval_moved hp.2]
      rw [intervalIntegral.integral_div, h2]
    | mult =>
      simp only [integrateImpl, Option.bind_eq_some_iff] at h
      obtain ⟨c, hc, k, hk, mb, hmb, ma, hma, u, hu, w, hw, h⟩ := h
      obtain ⟨n, rfl, hval⟩ := polyDegree_val (F := ℝ) hp hk
      have hc' : CVal v φ c (cval (moved v i 1) φ (l *' r')) := by
        refine ctSimplify_sound hcv hc ⟨?_, ?_⟩
        · rw [cdefined_subst]
          exact ⟨(cdefined_poly hp _ _ _).2 hd, fun _ => trivial⟩
        · rw [cval_subst]; simp [cval]
      have hmb' := monomial_val hmb hb
      have hma' := monomial_val hma ha
      obtain ⟨h1, h2⟩ := ctSimplify_sound hcv hu (v := v) (φ := φ) ⟨⟨hmb'.1, hc'.1⟩, rfl⟩
      obtain ⟨h3, h4⟩ := ctSimplify_sound hcv hw (v := v) (φ := φ) ⟨⟨hma'.1, hc'.1⟩, rfl⟩
      refine ctSimplify_sound hcv h ⟨⟨h1, h3⟩, ?_⟩
      rw [show (fun t => cval (moved v i t) φ (l *' r')) = _ from funext (hval v φ)]
      rw [intervalIntegral.integral_mul_const, integral_pow]
      change cval v φ u - cval v φ w = _
      rw [h2, h4, cval_mul, cval_mul, hmb'.2, hma'.2, hc'.2]
      ring

theorem NoLone.of_onlyVar {i : Nat} {e : CtExpr} (h : OnlyVar i e) : NoLone i e := by
  induction e with
  | const n => trivial
  | var j => exact h j rfl
  | fsym t => trivial
  | bin l op r ihl ihr =>
    have hl := ihl fun j hj => h j (.inl hj)
    have hr := ihr fun j hj => h j (.inr hj)
    cases op <;> simp [NoLone, hl, hr]

/-- The conversion only matters for whether the program compiles. -/
theorem integrateImpl_ext {c d : Conv} (hcd : c.Extends d) {a b x e r : CtExpr}
    (h : integrateImpl c a b x e = some r) : integrateImpl d a b x e = some r := by
  induction e generalizing r with
  | const n => exact ctSimplify_ext hcd h
  | var j => exact ctSimplify_ext hcd h
  | fsym t => cases h
  | bin l op r' ihl ihr =>
    cases op with
    | plus =>
      simp only [integrateImpl, Option.bind_eq_some_iff] at h ⊢
      obtain ⟨l₁, hl, r₁, hr, h⟩ := h
      exact ⟨l₁, ihl hl, r₁, ihr hr, ctSimplify_ext hcd h⟩
    | minus =>
      simp only [integrateImpl, Option.bind_eq_some_iff] at h ⊢
      obtain ⟨l₁, hl, r₁, hr, h⟩ := h
      exact ⟨l₁, ihl hl, r₁, ihr hr, ctSimplify_ext hcd h⟩
    | div =>
      simp only [integrateImpl, Option.bind_eq_some_iff] at h ⊢
      obtain ⟨l₁, hl, h⟩ := h
      exact ⟨l₁, ihl hl, ctSimplify_ext hcd h⟩
    | mult =>
      simp only [integrateImpl, Option.bind_eq_some_iff] at h ⊢
      obtain ⟨e₁, hc, k, hk, mb, hmb, ma, hma, u, hu, w, hw, h⟩ := h
      exact ⟨e₁, ctSimplify_ext hcd hc, k, hk, mb, hmb, ma, hma, u, ctSimplify_ext hcd hu, w,
        ctSimplify_ext hcd hw, ctSimplify_ext hcd h⟩

end VM.Ct
