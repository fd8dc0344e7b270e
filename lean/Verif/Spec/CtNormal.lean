import Verif.Ct.Expr
/-
What a simplified compile-time expression looks like.
-/
namespace VM.Spec
open VM.Ct

/-- `s` is a part of the expression. -/
inductive Part (s : CtExpr) : CtExpr → Prop
  | self : Part s s
  | left {l op r} : Part s l → Part s (.bin l op r)
  | right {l op r} : Part s r → Part s (.bin l op r)

/-- An operation with a neutral or an absorbing constant:
x+0, 0+x, x-0, x*0, 0*x, x*1, 1*x, 0/x, x/0, x/1. -/
def TrivialOp : CtExpr → Prop
  | .bin l .plus r => l = .const 0 ∨ r = .const 0
  | .bin _ .minus r => r = .const 0
  | .bin l .mult r => l = .const 0 ∨ r = .const 0 ∨ l = .const 1 ∨ r = .const 1
  | .bin l .div r => l = .const 0 ∨ r = .const 0 ∨ r = .const 1
  | _ => False

/-- An integer or a quotient of two integers. -/
def Number : CtExpr → Prop
  | .const _ => True
  | .bin (.const _) .div (.const _) => True
  | _ => False

/-- An operation on two numbers, other than the quotient of two integers. -/
def NumericOp : CtExpr → Prop
  | .bin l op r => Number l ∧ Number r ∧ ¬ (op = .div ∧ (∃ a, l = .const a) ∧ ∃ b, r = .const b)
  | _ => False

/-- Built from integers only, without variables and function symbols. -/
def Numeric : CtExpr → Prop
  | .const _ => True
  | .bin l _ r => Numeric l ∧ Numeric r
  | _ => False

end VM.Spec
