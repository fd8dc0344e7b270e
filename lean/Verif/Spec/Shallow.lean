import Verif.Rt.Expr
import Verif.Rt.Scalar
/-
Expressions of one kind.
-/
namespace VM.Spec
variable {K : Type}

/-- The kinds of expressions a user distinguishes: nine classes of objects. -/
inductive Sort9 where
  | double | float | int | long | variable | symbol | unary | binary | vector
  deriving DecidableEq

/-- The kind of an expression. -/
def sort9 : TExpr K → Sort9
  | .const (.dbl _) => .double
  | .const (.flt _) => .float
  | .const (.int _) => .int
  | .const (.long _) => .long
  | .var _ => .variable
  | .fsym _ _ => .symbol
  | .un _ _ => .unary
  | .integ _ _ _ _ => .unary
  | .bin _ _ _ => .binary
  | .vec _ => .vector

/-- The expression has operands or entries. -/
def Composite : TExpr K → Prop
  | .un _ _ => True
  | .integ _ _ _ _ => True
  | .bin _ _ _ => True
  | .vec _ => True
  | _ => False

end VM.Spec
