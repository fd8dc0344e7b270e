import Verif.Spec.CtDegree
/-
Vocabulary of C46: a division by 0 that cannot be simplified away.
-/
namespace VM.Spec
open VM.Ct

/-- The expression is a quotient with divisor 0, or a sum, a difference, a multiple or a quotient (by an integer that is not
0) of such. -/
def ByZero : CtExpr → Prop
  | .bin l .plus r => ByZero l ∨ ByZero r
  | .bin l .minus r => ByZero l ∨ ByZero r
  | .bin l .mult r => ((∃ c, c ≠ 0 ∧ l = ♯c) ∧ ByZero r) ∨ (ByZero l ∧ ∃ c, c ≠ 0 ∧ r = ♯c)
  | .bin l .div r => r = ♯0 ∨ (ByZero l ∧ ∃ c, c ≠ 0 ∧ r = ♯c)
  | _ => False

end VM.Spec
