import Verif.Ct.NestedLemmas
import Verif.Props.CtManip
import Verif.Props.CtNormal
import Mathlib.MeasureTheory.Integral.Prod
/-
Property C95: integrals of integrals at compile time are iterated integrals.
-/
namespace VM.Props
open VM.Ct VM.Spec

theorem integrals_parts {cv : Conv} {l : List Span} {e r : CtExpr} (he : PolyAll e)
    (hb : ∀ s ∈ l, PolyAll s.lo ∧ PolyAll s.hi) (h : ctIntegrals cv l e = some r) : PolyAll r := by
  induction l generalizing r with
  | nil => cases h; exact he
  | cons s l ih =>
    simp only [ctIntegrals, Option.bind_eq_some_iff] at h
    obtain ⟨q, hq, h⟩ := h
    have hpq := ih (fun s hs => hb s (.tail _ hs)) hq
    have := hb s (.head _)
    exact fun j => (ctIntegrate_parts (hpq _) h).2.2.1 j (this.1 j) (this.2 j) (hpq j)

/-- C95.  Integrating a polynomial in one variable after the other, between bounds that are polynomials and may contain the
variables of the outer integrals, gives at every point the iterated integral, if no integrand on the way (expanded and
simplified) has an addend, or a numerator of one, that is a single other variable.
Missing for the full C95: such addends, see `C95_lone_wrong`; and integration need not compile, see `C42_rejected`. -/
theorem C95_iterated_partial {l : List Span} {e r : CtExpr} (he : PolyAll e)
    (hb : ∀ s ∈ l, PolyAll s.lo ∧ PolyAll s.hi)
    (hl : NoLoneAlong l e)
    (h : ctIntegrals strict l e = some r) :
    ctIntegrals narrow l e = some r ∧
    ∀ v φ : Nat → ℝ, CDefined v φ e → (∀ s ∈ l, CDefined v φ s.lo ∧ CDefined v φ s.hi) →
      CVal v φ r (iterated φ l e v) := by
  induction l generalizing r with
  | nil => cases h; exact ⟨rfl, fun v φ hd _ => ⟨hd, rfl⟩⟩
  | cons s l ih =>
    simp only [ctIntegrals, Option.bind_eq_some_iff] at h ⊢
    obtain ⟨q, hq, h⟩ := h
    have hb' : ∀ s ∈ l, PolyAll s.lo ∧ PolyAll s.hi := fun s hs => hb s (.tail _ hs)
    obtain ⟨h1, h2⟩ := ih hb' (fun o s' i q p hs => hl (s :: o) s' i q p (by rw [hs]; rfl)) hq
    have hpq := integrals_parts he hb' hq
    have hs : ∃ p, ctSimplify strict (expand q) = some p := by
      cases q with
      | bin a op b =>
        simp only [ctIntegrate, Option.bind_eq_some_iff] at h
        obtain ⟨p, hp, -⟩ := h
        exact ⟨p, hp⟩
      | const n => exact ⟨_, by rw [expand_const, ctSimplify_eq]; rfl⟩
      | var i => exact ⟨_, by rw [expand_var, ctSimplify_eq]; rfl⟩
      | fsym t => cases h
    obtain ⟨p, hs⟩ := hs
    obtain ⟨h3, h4⟩ := C42_parameters_partial (hpq _) hs (hl [] s l q p rfl hq hs) h
    refine ⟨⟨q, h1, h3⟩, fun v φ hd hbd => ?_⟩
    have hv : ∀ w, CVal w φ q (iterated φ l e w) := fun w => h2 w φ (PolyAll.defined he hd) fun s hs =>
      ⟨PolyAll.defined (hb' s hs).1 (hbd s (.tail _ hs)).1, PolyAll.defined (hb' s hs).2 (hbd s (.tail _ hs)).2⟩
    have := h4 v φ (hbd s (.head _)).1 (hbd s (.head _)).2 (hv v).1
    simp only [fun t => (hv (moved v s.var t)).2] at this
    exact this

theorem integrals_closed {cv : Conv} {l : List Span} {e r : CtExpr} (he : PolyAll e)
    (hb : ∀ s ∈ l, PolyAll s.lo ∧ PolyAll s.hi) {b : Nat → Prop} (hc : Closed b l e) (h : ctIntegrals cv l e = some r) :
    NoSym r ∧ ∀ j, Has j r → b j := by
  induction l generalizing r b with
  | nil => cases h; exact hc
  | cons s l ih =>
    simp only [ctIntegrals, Option.bind_eq_some_iff] at h
    obtain ⟨q, hq, h⟩ := h
    have hb' : ∀ s ∈ l, PolyAll s.lo ∧ PolyAll s.hi := fun s hs => hb s (.tail _ hs)
    obtain ⟨h1, h2⟩ := ih hb' hc.2.2.2 hq
    obtain ⟨-, h3, -, h4⟩ := ctIntegrate_parts (integrals_parts he hb' hq _) h
    refine ⟨h4 hc.1 hc.2.1 h1, fun j hj => ?_⟩
    rcases h3 j hj with h5 | h5 | ⟨h5, h6⟩
    · exact hc.2.2.1 j (.inl h5)
    · exact hc.2.2.1 j (.inr h5)
    · exact (h2 j h5).resolve_right h6

/-- C95.  If all variables are integrated out, each bound containing variables of outer integrals only, the outcome is a
number: an integer, or a quotient of integers other than 0, the denominator not 1. -/
theorem C95_number {cv : Conv} {l : List Span} {e r : CtExpr} (hne : l ≠ []) (he : PolyAll e)
    (hb : ∀ s ∈ l, PolyAll s.lo ∧ PolyAll s.hi) (hc : Closed (fun _ => False) l e) (h : ctIntegrals cv l e = some r) :
    (∃ n, r = ♯n) ∨ ∃ n d, r = ♯n /' ♯d ∧ n ≠ 0 ∧ d ≠ 0 ∧ d ≠ 1 := by
  obtain ⟨h1, h2⟩ := integrals_closed he hb hc h
  obtain ⟨s, l, rfl⟩ := List.exists_cons_of_ne_nil hne
  simp only [ctIntegrals, Option.bind_eq_some_iff] at h
  obtain ⟨q, hq, h⟩ := h
  have hb' : ∀ s ∈ l, PolyAll s.lo ∧ PolyAll s.hi := fun s hs => hb s (.tail _ hs)
  obtain ⟨⟨t, ht⟩, -⟩ := ctIntegrate_parts (integrals_parts he hb' hq _) h
  exact C46_numbers_fold (C46_idempotent ht) (numeric_of_closed h1 h2)

/-! ### The order of integration -/

theorem poly_joint {e : CtExpr} (hp : PolyAll e) (v φ : Nat → ℝ) (i j : Nat) :
    Continuous fun p : ℝ × ℝ => cval (moved (moved v i p.1) j p.2) φ e := by
  induction e with
  | const n => exact continuous_const
  | fsym t => exact continuous_const
  | var k =>
    simp only [cval, moved]
    split_ifs
    · exact continuous_snd
    · exact continuous_fst
    · exact continuous_const
  | bin l op r ihl ihr =>
    cases op with
    | plus => exact (ihl fun j => (hp j).1).add (ihr fun j => (hp j).2)
    | minus => exact (ihl fun j => (hp j).1).sub (ihr fun j => (hp j).2)
    | mult => exact (ihl fun j => (hp j).1).mul (ihr fun j => (hp j).2)
    | div =>
      have : ∀ p : ℝ × ℝ, cval (moved (moved v i p.1) j p.2) φ r = cval v φ r := fun p =>
        cval_has fun k hk => ((hp k).2 hk).elim
      simp only [cval, this]
      exact (ihl fun j => (hp j).1).div_const _

/-- C95.  Over a rectangle the order does not matter: if the bounds contain neither of the variables, integrating in `x` and
then in `y` gives, where defined, the value that integrating in `y` and then in `x` gives (both compiling, under the
condition of `C95_iterated_partial`). -/
theorem C95_order_partial {s t : Span} {e r r' : CtExpr} (hst : s.var ≠ t.var) (he : PolyAll e)
    (hs : PolyAll s.lo ∧ PolyAll s.hi) (ht : PolyAll t.lo ∧ PolyAll t.hi)
    (hos : ¬ Has t.var s.lo ∧ ¬ Has t.var s.hi) (hot : ¬ Has s.var t.lo ∧ ¬ Has s.var t.hi)
    (h : ctIntegrals strict [s, t] e = some r) (hl : NoLoneAlong [s, t] e)
    (h' : ctIntegrals strict [t, s] e = some r') (hl' : NoLoneAlong [t, s] e) (v φ : Nat → ℝ)
    (hd : CDefined v φ e) (hds : CDefined v φ s.lo ∧ CDefined v φ s.hi) (hdt : CDefined v φ t.lo ∧ CDefined v φ t.hi) :
    ∃ x, CVal v φ r x ∧ CVal v φ r' x := by
  have h1 := (C95_iterated_partial he (by simp [hs, ht]) hl h).2 v φ hd (by simp [hds, hdt])
  have h2 := (C95_iterated_partial he (by simp [hs, ht]) hl' h').2 v φ hd (by simp [hds, hdt])
  refine ⟨_, h1, ?_⟩
  convert h2 using 1
  simp only [iterated, cval_moved hos.1, cval_moved hos.2, cval_moved hot.1, cval_moved hot.2]
  rw [MeasureTheory.intervalIntegral_intervalIntegral_swap]
  · congr 1; funext y; congr 1; funext x; congr 1; funext k
    simp only [moved]
    split_ifs with h3 h4
    · exact absurd (h4.symm.trans h3) hst
    all_goals rfl
  · have hc := poly_joint he v φ s.var t.var
    exact (hc.continuousOn.integrableOn_compact (isCompact_uIcc.prod isCompact_uIcc)).mono_set
      (Set.prod_mono Set.uIoc_subset_uIcc Set.uIoc_subset_uIcc)

/-! ### Concrete cases -/

theorem two_integrals {s t : Span} {e q r : CtExpr} (h1 : ctIntegrate strict t.lo t.hi e (.var t.var) = some q)
    (h2 : ctIntegrate strict s.lo s.hi q (.var s.var) = some r) : ctIntegrals strict [s, t] e = some r := by
  simp only [ctIntegrals, Option.bind_some, h1, h2]

theorem noLone_two {s t : Span} {e q w p : CtExpr} (h1 : ctIntegrate strict t.lo t.hi e (.var t.var) = some q)
    (h2 : ctSimplify strict (expand q) = some w) (h3 : NoLone s.var w) (h4 : ctSimplify strict (expand e) = some p)
    (h5 : NoLone t.var p) : NoLoneAlong [s, t] e := by
  intro outer s' inner q' p' hl hq hp
  match outer, hl with
  | [], hl =>
    cases hl
    obtain rfl := Option.some.inj (h1.symm.trans hq)
    obtain rfl := Option.some.inj (h2.symm.trans hp)
    exact h3
  | [_], hl =>
    cases hl
    cases hq
    obtain rfl := Option.some.inj (h4.symm.trans hp)
    exact h5
  | _ :: _ :: _, hl => simp at hl

/-- The triangle with corners (0, 0), (1, 0) and (0, 1). -/
abbrev triangle : List Span := [⟨♯0, ♯1, 0⟩, ⟨♯0, ♯1 -' .var 0, 1⟩]

theorem triangle_inner : expand (.var 0 *' .var 0) = .var 0 *' .var 0 ∧
    ctIntegrate strict ♯0 (♯1 -' .var 0) (.var 0 *' .var 0) (.var 1) = some ((♯1 -' .var 0) *' (.var 0 *' .var 0)) ∧
    expand ((♯1 -' .var 0) *' (.var 0 *' .var 0)) = ♯1 *' (.var 0 *' .var 0) -' .var 0 *' (.var 0 *' .var 0) := by
  have h1 : expand (.var 0 *' .var 0) = .var 0 *' .var 0 := by simp [expand_mul, expandProduct, hasPM]
  refine ⟨h1, ?_, ?_⟩
  · simp only [ctIntegrate, h1]; decide +kernel
  · simp only [expand_mul, expandProduct, hasPM, expandWith_sub, Bool.or_false]
    rw [expandWith_flat _ _ rfl, expandWith_flat _ _ rfl]

/-- The example of the manual: x*x over the triangle gives 1/12. -/
example : ctIntegrals narrow triangle (.var 0 *' .var 0) = some (♯1 /' ♯12) ∧
    ∫ x in (0 : ℝ)..1, ∫ _ in (0 : ℝ)..1 - x, x * x = 1 / 12 := by
  obtain ⟨h1, h2, h3⟩ := triangle_inner
  have h : ctIntegrals strict triangle (.var 0 *' .var 0) = some (♯1 /' ♯12) := by
    refine two_integrals (s := ⟨♯0, ♯1, 0⟩) (t := ⟨♯0, ♯1 -' .var 0, 1⟩) h2 ?_
    simp only [ctIntegrate, h3]
    decide +kernel
  have h4 := C95_iterated_partial (l := triangle) (by simp [PolyAll, PolyIn]) (by simp [PolyAll, PolyIn])
    (noLone_two h2 (w := .var 0 *' .var 0 -' .var 0 *' (.var 0 *' .var 0)) (by rw [h3]; decide +kernel)
      (by simp [NoLone]) (p := .var 0 *' .var 0) (by rw [h1]; decide +kernel) trivial) h
  have h5 := (h4.2 (fun _ => 0) (fun _ => 0) ⟨trivial, trivial⟩ (by simp [CDefined])).2
  refine ⟨h4.1, ?_⟩
  simpa [cval, iterated, moved] using h5.symm

example : PolyAll (.var 0 *' .var 0) ∧ (∀ s ∈ triangle, PolyAll s.lo ∧ PolyAll s.hi) ∧
    Closed (fun _ => False) triangle (.var 0 *' .var 0) := by
  refine ⟨by simp [PolyAll, PolyIn], by simp [PolyAll, PolyIn], by simp [NoSym], by simp [NoSym], by simp [Has],
    by simp [NoSym], by simp [NoSym], ?_, by simp [NoSym], ?_⟩ <;> simp +contextual [Has, eq_comm]

/-- The conversion to `int` only matters for whether the program compiles. -/
theorem integrals_ext {l : List Span} {e r : CtExpr} (h : ctIntegrals strict l e = some r) : ctIntegrals narrow l e = some r := by
  induction l generalizing r with
  | nil => exact h
  | cons s l ih =>
    simp only [ctIntegrals, Option.bind_eq_some_iff] at h ⊢
    obtain ⟨q, hq, h⟩ := h
    refine ⟨q, ih hq, ?_⟩
    cases q with
    | bin a op b =>
      simp only [ctIntegrate, Option.bind_eq_some_iff] at h ⊢
      obtain ⟨p, hs, h⟩ := h
      exact ⟨p, ctSimplify_ext strict_narrow hs, integrateImpl_ext strict_narrow h⟩
    | _ => exact integrateImpl_ext strict_narrow h

/-- C95 is false of the code: x, integrated over the triangle between the diagonal and the x-axis, gives 1/6, not 1/3. -/
theorem C95_lone_wrong : ctIntegrals narrow [⟨♯0, ♯1, 0⟩, ⟨♯0, .var 0, 1⟩] (.var 0) = some (♯1 /' ♯6) ∧
    (∀ v φ : Nat → ℝ, iterated φ [⟨♯0, ♯1, 0⟩, ⟨♯0, .var 0, 1⟩] (.var 0) v = 1 / 3) ∧
    ∀ v φ : Nat → ℝ, cval v φ (♯1 /' ♯6) ≠ 1 / 3 := by
  refine ⟨integrals_ext ?_, fun v φ => ?_, fun v φ => ?_⟩
  · have h1 : ctIntegrate strict ♯0 (.var 0) (.var 0) (.var 1) = some ((.var 0 *' .var 0) /' ♯2) := by decide +kernel
    have h2 : expand ((.var 0 *' .var 0) /' ♯2) = (.var 0 *' .var 0) /' ♯2 := by simp [expand_mul, expandProduct, hasPM]
    refine two_integrals (s := ⟨♯0, ♯1, 0⟩) (t := ⟨♯0, .var 0, 1⟩) h1 ?_
    simp only [ctIntegrate, h2]
    decide +kernel
  · have : iterated φ [⟨♯0, ♯1, 0⟩, ⟨♯0, .var 0, 1⟩] (.var 0) v = ∫ x in (0 : ℝ)..1, x ^ 2 := by
      simp [iterated, cval, moved, pow_two]
    rw [this, integral_pow]
    norm_num
  · simp only [cval]; norm_num

/-- x*y*y over the unit square, in either order. -/
example : ∃ r r' : CtExpr, ctIntegrals strict [⟨♯0, ♯1, 0⟩, ⟨♯0, ♯1, 1⟩] (.var 0 *' .var 1 *' .var 1) = some r ∧
    NoLoneAlong [⟨♯0, ♯1, 0⟩, ⟨♯0, ♯1, 1⟩] (.var 0 *' .var 1 *' .var 1) ∧
    ctIntegrals strict [⟨♯0, ♯1, 1⟩, ⟨♯0, ♯1, 0⟩] (.var 0 *' .var 1 *' .var 1) = some r' ∧
    NoLoneAlong [⟨♯0, ♯1, 1⟩, ⟨♯0, ♯1, 0⟩] (.var 0 *' .var 1 *' .var 1) := by
  have he : expand (.var 0 *' .var 1 *' .var 1) = .var 0 *' .var 1 *' .var 1 := by
    simp [expand_mul, expandProduct, hasPM]
  have h1 : ctIntegrate strict ♯0 ♯1 (.var 0 *' .var 1 *' .var 1) (.var 1) = some (.var 0 /' ♯3) := by
    simp only [ctIntegrate, he]; decide +kernel
  have h2 : ctIntegrate strict ♯0 ♯1 (.var 0 *' .var 1 *' .var 1) (.var 0) =
      some ((.var 1 *' .var 1) /' ♯2) := by
    simp only [ctIntegrate, he]; decide +kernel
  have h3 : expand (.var 0 /' ♯3) = .var 0 /' ♯3 := by simp
  have h4 : expand ((.var 1 *' .var 1) /' ♯2) = (.var 1 *' .var 1) /' ♯2 := by simp [expand_mul, expandProduct, hasPM]
  refine ⟨♯1 /' ♯6, ♯1 /' ♯6, ?_, ?_, ?_, ?_⟩
  · refine two_integrals (s := ⟨♯0, ♯1, 0⟩) (t := ⟨♯0, ♯1, 1⟩) h1 ?_
    simp only [ctIntegrate, h3]
    decide +kernel
  · exact noLone_two h1 (w := .var 0 /' ♯3) (by rw [h3]; decide +kernel) rfl (p := .var 0 *' .var 1 *' .var 1)
      (by rw [he]; decide +kernel) trivial
  · refine two_integrals (s := ⟨♯0, ♯1, 1⟩) (t := ⟨♯0, ♯1, 0⟩) h2 ?_
    simp only [ctIntegrate, h4]
    decide +kernel
  · exact noLone_two h2 (w := (.var 1 *' .var 1) /' ♯2) (by rw [h4]; decide +kernel) trivial
      (p := .var 0 *' .var 1 *' .var 1) (by rw [he]; decide +kernel) trivial

end VM.Props
