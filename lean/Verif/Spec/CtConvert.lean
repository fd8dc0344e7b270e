import Verif.Spec.Ct
import Verif.Num
/-
What it means to evaluate a compile-time expression at a vector of numbers.
-/
namespace VM.Spec
open VM.Ct
variable {K : Type} [Num K]

/-- The number the expression stands for, `p i` being the number for variable `i`. -/
def numAt (p : Nat → K) : CtExpr → K
  | .const n => Num.lit n
  | .var i => p i
  | .fsym _ => Num.lit 0
  | .bin l .plus r => Num.add (numAt p l) (numAt p r)
  | .bin l .minus r => Num.sub (numAt p l) (numAt p r)
  | .bin l .mult r => Num.mul (numAt p l) (numAt p r)
  | .bin l .div r => Num.div (numAt p l) (numAt p r)

/-- The outcome is an exception because of a variable of the expression that the vector does not have. -/
def OutOfRange (v : List K) (e : CtExpr) (res : Res K) : Prop :=
  ∃ i, Has i e ∧ v.length ≤ i ∧ res = .throw (.indexOutOfBounds i v.length)

end VM.Spec
