import Verif.Ct.IntegrateLemmas
import Verif.Ct.RatLemmas
import Mathlib.Tactic.NormNum
/-
Properties C37, C38, C39, C41 and C42: expansion, differentiation, substitution, coefficients and integration
of compile-time expressions.
-/
namespace VM.Props
open VM.Ct VM.Spec

variable {F : Type*} [Field F]

/-! ### C37 -/

/-- `expand` keeps the value wherever the expression is defined, in every field. -/
theorem C37_value (e : CtExpr) : SameVal F e (expand e) := by
  rintro v φ x ⟨hd, rfl⟩
  exact (expand_value v φ).1 e hd

/-- Outside of denominators, no product in the result contains a sum or a difference.
Missing for the full C37: the denominators of quotients that are factors, see `C37_denominator`. -/
theorem C37_shape_partial (e : CtExpr) : Expanded (expand e) := expand_shape.1 e

/-- If the denominators below products are expanded in `e` (in particular without division), then no factor
of a product in the result is a sum or a difference anywhere. -/
theorem C37_no_sum_factor_partial (e : CtExpr) (h : ProductDens e) : ¬ SumFactor (expand e) :=
  not_sumFactor ((expandedAll_iff _).2 ⟨expand_shape.1 e, expand_dens.1 e h⟩)

/-- C37 is false of the code: (x / ((y+1)*z)) * w is left as it is. -/
theorem C37_denominator : ∃ e, expand e = e ∧ SumFactor (expand e) := by
  have h : expand ((.var 0 /' ((.var 1 +' ♯1) *' .var 2)) *' .var 3) =
      (.var 0 /' ((.var 1 +' ♯1) *' .var 2)) *' .var 3 := by
    simp [expand_mul, expandProduct, hasPM]
  exact ⟨_, h, by rw [h]; simp [SumFactor, IsSum]⟩

example : ProductDens ((.var 0 +' ♯1) *' ((.var 1 -' ♯2) /' .var 2)) ∧
    expand ((.var 0 +' ♯1) *' ((.var 1 -' ♯2) /' .var 2)) =
      ((.var 1 *' .var 0 -' ♯2 *' .var 0) /' .var 2) +' ((.var 1 *' ♯1 -' ♯2 *' ♯1) /' .var 2) := by
  refine ⟨by simp [ProductDens, DensExpanded, ExpandedAll], ?_⟩
  have h : ∀ n : CtExpr, hasPM n = false →
      expand (n *' ((.var 1 -' ♯2) /' .var 2)) = (.var 1 *' n -' ♯2 *' n) /' .var 2 := by
    intro n hn
    simp only [expand_mul, expandProduct, hn, hasPM]
    rw [expandWith_quot _ _ _ rfl, expandWith_sub, expandWith_flat _ _ rfl, expandWith_flat _ _ rfl]
  rw [expand_mul, ← h _ rfl, ← h _ rfl, ← expand_add, ← expandWith_flat (.var 0) _ rfl,
    ← expandWith_flat ♯1 _ rfl, ← expandWith_add]
  rfl

/-! ### C38 -/

/-- For expressions of constants, variables and + - * / the derivative exists as an expression, is defined
wherever the expression is, and is the partial derivative there. -/
theorem C38_derivative (i : Nat) (e : CtExpr) (h : NoSym e) :
    ∃ e', ctDiff i e = some e' ∧ ∀ v φ : Nat → ℝ, CDefined v φ e →
      CDefined v φ e' ∧ HasDerivAt (fun t => cval (moved v i t) φ e) (cval v φ e') (v i) := by
  obtain ⟨e', he⟩ := ctDiff_total i h
  exact ⟨e', he, fun v φ hd => ctDiff_sound i he v φ hd⟩

example : NoSym (.var 0 *' .var 0 /' (.var 1 -' ♯3)) ∧
    CDefined (fun _ => (2 : ℝ)) (fun _ => 0) (.var 0 *' .var 0 /' (.var 1 -' ♯3)) :=
  ⟨by simp [NoSym], by simp [CDefined, cval]; norm_num⟩

/-! ### C39 -/

/-- Where `r` is defined, `substitute(x, r, e)` is defined at a point exactly if `e` is defined at the point
with `x` moved to the value of `r`, and has that value. -/
theorem C39_value (i : Nat) (r e : CtExpr) (v φ : Nat → F) (hr : CDefined v φ r) (x : F) :
    CVal v φ (ctSubst (.var i) r e) x ↔ CVal (moved v i (cval v φ r)) φ e x := by
  unfold CVal
  rw [cval_subst, cdefined_subst]
  tauto

/-- Where `r` is not defined, the result is defined only if `x` does not occur in `e`, and then it is `e`. -/
theorem C39_undefined (i : Nat) (r e : CtExpr) (v φ : Nat → F) (hr : ¬ CDefined v φ r) (x : F) :
    CVal v φ (ctSubst (.var i) r e) x ↔ ¬ Has i e ∧ CVal v φ e x := by
  unfold CVal
  rw [cval_subst, cdefined_subst]
  by_cases h : Has i e
  · simp [h, hr]
  · simp [h, cdefined_moved h, cval_moved h]

/-- A replaced variable is gone. -/
theorem C39_removed (i : Nat) (r e : CtExpr) (hr : ¬ Has i r) : ¬ Has i (ctSubst (.var i) r e) :=
  not_has_subst hr e

example : ctSubst (.var 0) (.var 0 +' .var 1) (.var 0 *' (.var 1 /' .var 0)) =
    (.var 0 +' .var 1) *' (.var 1 /' (.var 0 +' .var 1)) := by decide
example : ¬ CDefined (fun _ => (0 : ℚ)) (fun _ => 0) (♯1 /' .var 0) := by simp [CDefined, cval]

/-! ### C41 -/

/-- The coefficient of `x` in a polynomial in `x` always compiles, and coefficient * x plus the value at x = 0
is the value of the expression. -/
theorem C41_coefficient {i : Nat} {e : CtExpr} (hp : PolyIn i e) :
    ∃ c, coefficient (.var i) e = some c ∧ ∀ v φ : Nat → F, CDefined v φ e →
      CDefined v φ c ∧ cval v φ c * v i + cval (moved v i 0) φ e = cval v φ e := by
  obtain ⟨c, h1, h2⟩ := coefImpl_splits (F := F) i (expand_shape.1 e) ((expand_poly i).1 e hp)
  refine ⟨c, h1, fun v φ hd => ?_⟩
  obtain ⟨h3, h4⟩ := (expand_value v φ).1 e hd
  obtain ⟨h5, h6⟩ := h2 v φ h3
  refine ⟨h5, ?_⟩
  have h7 := ((expand_value (moved v i 0) φ).1 e ((cdefined_poly hp v φ 0).2 hd)).2
  rw [h7, h4] at h6
  exact h6

/-- If `drop_dependent_terms` compiles and no number left the range of `int`, then coefficient * x + rest has
the value of the expression, and the rest does not contain x.
Missing for the full C41: `drop_dependent_terms` need not compile, see `C41_rejected`, and simplification can
truncate numbers. -/
theorem C41_split_partial [CharZero F] {i : Nat} {e d : CtExpr} (hp : PolyIn i e)
    (h : dropTerms strict (.var i) e = some d) :
    dropTerms narrow (.var i) e = some d ∧
    ∃ c, coefficient (.var i) e = some c ∧ SameVal F e (c *' .var i +' d) ∧ ¬ Has i d := by
  obtain ⟨c, hc, hv⟩ := C41_coefficient (F := F) hp
  refine ⟨ctSimplify_ext strict_narrow h, c, hc, ?_,
    fun hh => not_has_subst (by simp [Has]) _ ((ctSimplify_has i h).1 hh)⟩
  rintro v φ x ⟨hd, rfl⟩
  obtain ⟨h1, h2⟩ := hv v φ hd
  obtain ⟨h3, h4⟩ := (expand_value (moved v i 0) φ).1 e ((cdefined_poly hp v φ 0).2 hd)
  have h5 : CVal v φ d (cval (moved v i 0) φ e) := by
    refine ctSimplify_sound strict_exact h ⟨?_, ?_⟩
    · rw [cdefined_subst]; simp only [cval, Int.cast_zero]; exact ⟨h3, fun _ => trivial⟩
    · rw [cval_subst]; simp only [cval, Int.cast_zero]; exact h4
  exact ⟨⟨⟨h1, trivial⟩, h5.1⟩, by simp only [cval, h5.2]; exact h2⟩

/-- Without division there is no condition on the numbers. -/
theorem C41_split_division_free_partial [CharZero F] (cv : Conv) {i : Nat} {e d : CtExpr} (hf : DivFree e)
    (h : dropTerms cv (.var i) e = some d) :
    ∃ c, coefficient (.var i) e = some c ∧ SameVal F e (c *' .var i +' d) ∧ ¬ Has i d := by
  have hp : PolyIn i e := by
    clear h
    induction e with
    | bin l op r ihl ihr =>
      cases op with
      | div => exact hf.elim
      | _ => exact ⟨ihl hf.1, ihr hf.2⟩
    | _ => trivial
  obtain ⟨c, hc, hv⟩ := C41_coefficient (F := F) hp
  have hs := (simplifyAny_divFree (cv' := strict) (ctSimplify_any _ le_rfl h)
    (divFree_subst (r := ♯0) trivial (expand_divFree.1 e hf))).1
  refine ⟨c, hc, ?_, fun hh => not_has_subst (by simp [Has]) _ ((ctSimplify_has i h).1 hh)⟩
  rintro v φ x ⟨hd, rfl⟩
  obtain ⟨h1, h2⟩ := hv v φ hd
  obtain ⟨h3, h4⟩ := (expand_value (moved v i 0) φ).1 e ((cdefined_poly hp v φ 0).2 hd)
  have h5 : CVal v φ d (cval (moved v i 0) φ e) := by
    refine simplifyAny_sound strict_exact hs ⟨?_, ?_⟩
    · rw [cdefined_subst]; simp only [cval, Int.cast_zero]; exact ⟨h3, fun _ => trivial⟩
    · rw [cval_subst]; simp only [cval, Int.cast_zero]; exact h4
  exact ⟨⟨⟨h1, trivial⟩, h5.1⟩, by simp only [cval, h5.2]; exact h2⟩

/-- C41 is false of the code: drop_dependent_terms(x, 5 - x) and drop_dependent_terms(x, x * (x/2)) do not
compile. -/
theorem C41_rejected : dropTerms narrow (.var 0) (♯5 -' .var 0) = none ∧
    dropTerms narrow (.var 0) (.var 0 *' (.var 0 /' ♯2)) = none := by
  have h : expand (.var 0 *' (.var 0 /' ♯2)) = .var 0 *' (.var 0 /' ♯2) := by
    simp [expand_mul, expandProduct, hasPM]
  simp only [dropTerms, expand_sub, expand_const, expand_var, h]
  exact ⟨by decide +kernel, by decide +kernel⟩

example : PolyIn 0 (.var 1 /' ♯2 +' .var 0 *' (.var 2 +' ♯1)) ∧
    dropTerms strict (.var 0) (.var 1 /' ♯2 +' .var 0 *' (.var 2 +' ♯1)) = some (.var 1 /' ♯2) := by
  refine ⟨by simp [PolyIn, Has], ?_⟩
  have : expand (.var 1 /' ♯2 +' .var 0 *' (.var 2 +' ♯1)) =
      .var 1 /' ♯2 +' (.var 2 *' .var 0 +' ♯1 *' .var 0) := by
    simp only [expand_add, expand_quot, expand_var, expand_const, expand_mul, expandProduct, hasPM]
    rw [expandWith_add, expandWith_flat _ _ rfl, expandWith_flat _ _ rfl]
  unfold dropTerms
  rw [this]
  decide +kernel
example : DivFree (.var 1 -' .var 0 *' .var 2) ∧
    dropTerms narrow (.var 0) (.var 1 -' .var 0 *' .var 2) = some (.var 1) := by
  refine ⟨by simp [DivFree], ?_⟩
  unfold dropTerms
  have : expand (.var 1 -' .var 0 *' .var 2) = .var 1 -' .var 0 *' .var 2 := by
    simp [expand_mul, expandProduct, hasPM]
  rw [this]
  decide +kernel

/-! ### C42 -/

/-- The integral of a polynomial in the only variable x is exact, for all bounds at all points where they are
defined, if the program compiles and no number left the range of `int`.
Missing for the full C42: other variables, see `C42_parameter_ignored`; and integration need not compile, see
`C42_rejected`. -/
theorem C42_single_variable_partial {i : Nat} {a b e r : CtExpr} (hp : PolyIn i e) (ho : OnlyVar i e)
    (h : ctIntegrate strict a b e (.var i) = some r) :
    ctIntegrate narrow a b e (.var i) = some r ∧
    ∀ v φ : Nat → ℝ, CDefined v φ a → CDefined v φ b → CDefined v φ e →
      CVal v φ r (∫ t in cval v φ a..cval v φ b, cval (moved v i t) φ e) := by
  cases e with
  | const n =>
    exact ⟨integrateImpl_ext strict_narrow h,
      fun v φ ha hb hd => integrateImpl_sound strict_exact i ha hb hp trivial hd h⟩
  | var j =>
    exact ⟨integrateImpl_ext strict_narrow h,
      fun v φ ha hb hd => integrateImpl_sound strict_exact i ha hb hp (ho j rfl) hd h⟩
  | fsym t => cases h
  | bin l op r' =>
    simp only [ctIntegrate, Option.bind_eq_some_iff] at h ⊢
    obtain ⟨p, hs, h⟩ := h
    have hx : ∀ j, Has j p → j = i := fun j hj =>
      ho j ((expand_has j).1 _ ((ctSimplify_has j hs).1 hj))
    have hpp : PolyIn i p := (ctSimplify_has i hs).2 ((expand_poly i).1 _ hp)
    refine ⟨⟨p, ctSimplify_ext strict_narrow hs, integrateImpl_ext strict_narrow h⟩,
      fun v φ ha hb hd => ?_⟩
    have hv : ∀ w : Nat → ℝ, CDefined w φ (.bin l op r') → CVal w φ p (cval w φ (.bin l op r')) :=
      fun w hw => ctSimplify_sound strict_exact hs ((expand_value w φ).1 _ hw)
    have hm : (fun t => cval (moved v i t) φ (.bin l op r')) = fun t => cval (moved v i t) φ p :=
      funext fun t => (hv _ ((cdefined_poly hp v φ t).2 hd)).2.symm
    rw [hm]
    exact integrateImpl_sound strict_exact i ha hb hpp (NoLone.of_onlyVar hx) (hv v hd).1 h

/-- With parameters, the integral is exact if no addend of the expanded and simplified integrand, and no
numerator of one, is a single parameter. -/
theorem C42_parameters_partial {i : Nat} {a b e p r : CtExpr} (hp : PolyIn i e)
    (hs : ctSimplify strict (expand e) = some p) (hl : NoLone i p)
    (h : ctIntegrate strict a b e (.var i) = some r) :
    ctIntegrate narrow a b e (.var i) = some r ∧
    ∀ v φ : Nat → ℝ, CDefined v φ a → CDefined v φ b → CDefined v φ e →
      CVal v φ r (∫ t in cval v φ a..cval v φ b, cval (moved v i t) φ e) := by
  cases e with
  | const n =>
    exact ⟨integrateImpl_ext strict_narrow h,
      fun v φ ha hb hd => integrateImpl_sound strict_exact i ha hb hp trivial hd h⟩
  | var j =>
    rw [expand_var] at hs
    have : p = .var j := by
      rw [ctSimplify_eq] at hs; simp [simplifyImpl] at hs; exact hs.symm
    subst this
    exact ⟨integrateImpl_ext strict_narrow h,
      fun v φ ha hb hd => integrateImpl_sound strict_exact i ha hb hp hl hd h⟩
  | fsym t => cases h
  | bin l op r' =>
    simp only [ctIntegrate, Option.bind_eq_some_iff] at h ⊢
    obtain ⟨p', hs', h⟩ := h
    obtain rfl : p = p' := by rw [hs] at hs'; exact Option.some.inj hs'
    have hpp : PolyIn i p := (ctSimplify_has i hs).2 ((expand_poly i).1 _ hp)
    refine ⟨⟨p, ctSimplify_ext strict_narrow hs, integrateImpl_ext strict_narrow h⟩,
      fun v φ ha hb hd => ?_⟩
    have hv : ∀ w : Nat → ℝ, CDefined w φ (.bin l op r') → CVal w φ p (cval w φ (.bin l op r')) :=
      fun w hw => ctSimplify_sound strict_exact hs ((expand_value w φ).1 _ hw)
    have hm : (fun t => cval (moved v i t) φ (.bin l op r')) = fun t => cval (moved v i t) φ p :=
      funext fun t => (hv _ ((cdefined_poly hp v φ t).2 hd)).2.symm
    rw [hm]
    exact integrateImpl_sound strict_exact i ha hb hpp hl (hv v hd).1 h

/-- C42 is false of the code: a single variable is integrated as if it were x, whichever it is. -/
theorem C42_parameter_ignored (cv : Conv) (a b : CtExpr) (i j : Nat) :
    ctIntegrate cv a b (.var j) (.var i) = ctIntegrate cv a b (.var i) (.var i) := rfl

/-- The integral of y from 0 to 2 in x comes out as 2, not as 2*y. -/
theorem C42_parameter_wrong : ∃ r, ctIntegrate narrow ♯0 ♯2 (.var 1) (.var 0) = some r ∧
    ∃ v φ : Nat → ℝ, ¬ CVal v φ r (∫ t in (cval v φ ♯0)..(cval v φ ♯2), cval (moved v 0 t) φ (.var 1)) := by
  refine ⟨♯2, by decide +kernel, fun _ => 0, fun _ => 0, fun h => ?_⟩
  have := h.2
  simp [cval, moved] at this

/-- The integral of 5 from 0 to 2 and the integral of 3*x from 0 to 1 do not compile. -/
theorem C42_rejected : ctIntegrate narrow ♯0 ♯2 ♯5 (.var 0) = none ∧
    ctIntegrate narrow ♯0 ♯1 (♯3 *' .var 0) (.var 0) = none := by
  have h : expand (.bin ♯3 .mult (.var 0)) = ♯3 *' .var 0 := by simp [expand_mul, expandProduct, hasPM]
  refine ⟨by decide +kernel, ?_⟩
  simp only [ctIntegrate, h]
  decide +kernel

/-- x*x*x - x from 1 to y. -/
example : PolyIn 0 (.var 0 *' .var 0 *' .var 0 -' .var 0) ∧ OnlyVar 0 (.var 0 *' .var 0 *' .var 0 -' .var 0) ∧
    (ctIntegrate strict ♯1 (.var 1) (.var 0 *' .var 0 *' .var 0 -' .var 0) (.var 0)).isSome := by
  refine ⟨by simp [PolyIn], ?_, ?_⟩
  · intro j hj; simp [Has] at hj; exact hj.symm
  · simp only [ctIntegrate]
    rw [show expand (.bin (.var 0 *' .var 0 *' .var 0) .minus (.var 0)) =
      .var 0 *' .var 0 *' .var 0 -' .var 0 by simp [expand_mul, expandProduct, hasPM]]
    decide +kernel

/-- y*x + x*x*y from 0 to 1. -/
example : ∃ p, ctSimplify strict (expand (.var 1 *' .var 0 +' .var 0 *' .var 0 *' .var 1)) = some p ∧
    NoLone 0 p ∧
    (ctIntegrate strict ♯0 ♯1 (.var 1 *' .var 0 +' .var 0 *' .var 0 *' .var 1) (.var 0)).isSome := by
  have h : expand (.var 1 *' .var 0 +' .var 0 *' .var 0 *' .var 1) =
      .var 1 *' .var 0 +' .var 0 *' .var 0 *' .var 1 := by
    simp [expand_mul, expandProduct, hasPM]
  have h' : ctSimplify strict (.var 1 *' .var 0 +' .var 0 *' .var 0 *' .var 1) =
      some (.var 1 *' .var 0 +' .var 0 *' .var 0 *' .var 1) := by decide +kernel
  refine ⟨.var 1 *' .var 0 +' .var 0 *' .var 0 *' .var 1, by rw [h, h'], by simp [NoLone], ?_⟩
  simp only [ctIntegrate, h]
  decide +kernel

end VM.Props
