import Verif.Spec.Written
/-
Which expressions formulas stand for.
-/
namespace VM.Spec
open VM.Ct

/-- Numbers, variables, sums, differences, products, quotients and the mathematical functions, and nothing else. -/
def Writable {K : Type} : Expr K → Prop
  | .const _ | .var _ => True
  | .un (.fn f) e => f ≠ .id ∧ Writable e
  | .bin op l r => (op = .plus ∨ op = .minus ∨ op = .mult ∨ op = .div) ∧ Writable l ∧ Writable r
  | _ => False

/-- The language never computes with numbers alone: each operator has an operand that is not a number, and no
function is applied to a number. -/
def NoNumbers : Written → Prop
  | .bin _ a b => ¬ (IsNumber a ∧ IsNumber b) ∧ NoNumbers a ∧ NoNumbers b
  | .fn _ t => ¬ IsNumber t ∧ NoNumbers t
  | .expr t => NoNumbers t
  | _ => True

/-- The formula read as a tree; `expr(...)` adds nothing. -/
def treeOf : Written → Expr XReal
  | .num x | .rc x => .const (some x)
  | .cc n => .const (some n)
  | .cv i | .rv i => .var i
  | .expr t => treeOf t
  | .bin .plus a b => .bin .plus (treeOf a) (treeOf b)
  | .bin .minus a b => .bin .minus (treeOf a) (treeOf b)
  | .bin .mult a b => .bin .mult (treeOf a) (treeOf b)
  | .bin .div a b => .bin .div (treeOf a) (treeOf b)
  | .fn f t => .un (.fn f) (treeOf t)

end VM.Spec
