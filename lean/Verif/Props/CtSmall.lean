import Verif.Ct.SmallLemmas
import Mathlib.Tactic.NormNum
/-
Property C104: compile-time simplification of expressions with small numbers.
-/
namespace VM.Props
open VM.Ct VM.Spec

variable {F : Type*} [Field F] [CharZero F]

/-- C104: if the magnitude of the expression is at most `2 ^ 31`, simplification keeps the value, whichever matching
specialisations are taken and whatever a compiler does with numbers that do not fit into `int`; the magnitude does not
grow. -/
theorem C104_exact {cv : Conv} (hcv : ∀ x, InInt x → cv x = some x) {e e' : CtExpr} (hb : ctMagnitude e ≤ 2 ^ 31)
    (h : SimplifyAny cv e e') : SameVal F e e' ∧ ctMagnitude e' ≤ ctMagnitude e := by
  have hx : Conv.Extends strict cv := by
    intro x y hxy
    have := strict_exact x y hxy
    subst this
    unfold strict at hxy
    split at hxy
    · exact hcv _ ‹_›
    · cases hxy
  obtain ⟨h1, h2⟩ := simplifyAny_small hx h hb
  exact ⟨fun _ _ _ => simplifyAny_sound strict_exact h1, h2⟩

/-- C104, for what C++ selects and compilers compute: no number leaves the range of `int`, whether it compiles or
not. -/
theorem C104_selected {e : CtExpr} (hb : ctMagnitude e ≤ 2 ^ 31) :
    ctSimplify narrow e = ctSimplify strict e ∧
      ∀ e', ctSimplify narrow e = some e' → SameVal F e e' ∧ ctMagnitude e' ≤ ctMagnitude e := by
  obtain ⟨h1, -⟩ := ctSimplify_small strict_narrow _ e le_rfl hb
  refine ⟨h1, fun e' h => C104_exact (cv := strict) (fun x hx => if_pos hx) hb ?_⟩
  rw [h1] at h
  exact ctSimplify_any _ le_rfl h

/-- C104: a compile error is not due to overflow.  It comes from an expression, reached by turns of the loop of
`simplify`, in which there is a division by zero or a part for which several specialisations match and none is the
most specialised. -/
theorem C104_rejected {e : CtExpr} (hb : ctMagnitude e ≤ 2 ^ 31) (h : ctSimplify narrow e = none) :
    ∃ e₁, Turned narrow e e₁ ∧ ((∃ t, Part t e₁ ∧ Ambiguous t) ∨ ZeroDivisor e₁) :=
  (ctSimplify_small strict_narrow _ e le_rfl hb).2 h

/-- C104: the bound is nearly the best possible.  There is an expression whose magnitude is larger than `2 ^ 31` by less
than `0.02` percent and whose value is changed. -/
theorem C104_threshold : ∃ e e', ctMagnitude e ≤ 2 ^ 31 + 2 ^ 19 ∧ ctSimplify narrow e = some e' ∧
    (∀ v φ : Nat → F, CVal v φ e (2147488281 / 4)) ∧ ¬ SameVal F e e' := by
  have hv : ∀ v φ : Nat → F, CVal v φ ((♯46341 /' ♯2) *' (♯46341 /' ♯2)) (2147488281 / 4) := by
    intro v φ
    refine ⟨by simp [CDefined, cval], ?_⟩
    simp only [cval]; push_cast; norm_num
  refine ⟨(♯46341 /' ♯2) *' (♯46341 /' ♯2), ♯(-2147479015) /' ♯4, by decide +kernel, by decide +kernel, hv,
    fun hs => ?_⟩
  have := (hs (fun _ => 0) (fun _ => 0) _ (hv _ _)).2
  simp only [cval] at this
  push_cast at this
  rw [div_eq_div_iff (by norm_num) (by norm_num)] at this
  norm_num at this

/-- `(((0 - x) + y) * (20/4 + 1)) / (7/3 - 5)` has magnitude 6600. -/
example : ctMagnitude ((((♯0 -' .var 0) +' .var 1) *' (♯20 /' ♯4 +' ♯1)) /' (♯7 /' ♯3 -' ♯5)) = 6600 ∧
    ctSimplify narrow ((((♯0 -' .var 0) +' .var 1) *' (♯20 /' ♯4 +' ♯1)) /' (♯7 /' ♯3 -' ♯5)) =
      some (((.var 1 -' .var 0) *' ♯6) /' (♯(-8) /' ♯3)) := by
  constructor <;> decide +kernel

/-- `(1/2) * (1/3)` does not compile, the specialisations of lines 335-346 and 493-511 both matching, and neither does
`(0/3 + 0/0) * x`. -/
example : ctMagnitude ((♯1 /' ♯2) *' (♯1 /' ♯3)) ≤ 2 ^ 31 ∧ ctSimplify narrow ((♯1 /' ♯2) *' (♯1 /' ♯3)) = none ∧
    ctMagnitude ((♯0 /' ♯3 +' ♯0 /' ♯0) *' .var 0) ≤ 2 ^ 31 ∧
    ctSimplify narrow ((♯0 /' ♯3 +' ♯0 /' ♯0) *' .var 0) = none := by
  refine ⟨?_, ?_, ?_, ?_⟩ <;> decide +kernel

end VM.Props
