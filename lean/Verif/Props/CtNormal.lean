import Verif.Ct.NormalLemmas
import Verif.Ct.IntegrateLemmas
/-
C46: the form of a compile-time simplified expression.
-/
namespace VM.Props
open VM.Ct VM.Spec

/-- C46: in the result of compile-time simplify no part is an operation with a neutral or absorbing constant,
and no part is an operation on two numbers (integers or quotients of integers) but a quotient of two integers. -/
theorem C46_no_trivial_operation {cv : Conv} {e e' : CtExpr} (h : ctSimplify cv e = some e') {s : CtExpr}
    (hs : Part s e') : ¬ TrivialOp s ∧ ¬ NumericOp s := by
  obtain ⟨_, h0⟩ := ctSimplify_zero h
  exact ⟨part_trivial h0 hs, part_numeric h0 hs⟩

/-- C46: an expression without variables is simplified to an integer or a quotient of two integers, the
denominator being neither 0 nor 1. -/
theorem C46_numbers_fold {cv : Conv} {e e' : CtExpr} (h : ctSimplify cv e = some e') (hn : Numeric e) :
    (∃ n, e' = ♯n) ∨ ∃ n d, e' = ♯n /' ♯d ∧ n ≠ 0 ∧ d ≠ 0 ∧ d ≠ 1 := by
  have hn' := simplifyAny_numeric (ctSimplify_any _ (Nat.le_refl _) h) hn
  have hp := fun s (hs : Part s e') => C46_no_trivial_operation h hs
  rcases number_cases (numeric_number hn' fun s hs => (hp s hs).2) with h1 | ⟨n, d, rfl⟩
  · exact .inl h1
  · have := (hp _ .self).1
    simp only [TrivialOp, CtExpr.const.injEq, not_or] at this
    exact .inr ⟨n, d, rfl, this⟩

/-- C46: simplifying again changes nothing. -/
theorem C46_idempotent {cv : Conv} {e e' : CtExpr} (h : ctSimplify cv e = some e') :
    ctSimplify cv e' = some e' := by
  obtain ⟨e'', h0⟩ := ctSimplify_zero h
  rw [ctSimplify_eq, h0]; rfl

/-- C46: dividing by the constant 0 does not compile, whatever is divided. -/
theorem C46_zero_divisor_rejected (cv : Conv) (l : CtExpr) : ctSimplify cv (l /' ♯0) = none := by
  rw [ctSimplify_eq, impl_zero_divisor]; rfl

/-- 1*(x + 0*y) - (2/3 + 1/3)*z has all of it. -/
example : ctSimplify narrow (♯1 *' (.var 0 +' ♯0 *' .var 1) -' (♯2 /' ♯3 +' ♯1 /' ♯3) *' .var 2) =
    some (.var 0 -' .var 2) := by decide +kernel

example : Numeric ((♯2 /' ♯3 +' ♯1 /' ♯6) *' ♯3) ∧
    ctSimplify narrow ((♯2 /' ♯3 +' ♯1 /' ♯6) *' ♯3) = some (♯5 /' ♯2) := by
  refine ⟨by simp [Numeric], by decide +kernel⟩

end VM.Props
