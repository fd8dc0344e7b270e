import Verif.Spec.Syntax
/-
What the text of an exception says, and whether it is true of an expression.
-/
namespace VM.Spec
variable {K : Type}

/-- What can be wrong with an expression. -/
inductive Fault where
  /-- `unbound`: a variable, where a number is needed -/
  | symbol | vector | gradient | divergence | partialDeriv | integral | symbolicIntegral | unbound | modulus
  /-- a binary node with a unary operator, as made by assigning a number to it (C24) -/
  | malformed

/-- The expression has this kind of node, somewhere outside integration bounds. -/
inductive HasNode : Fault → Expr K → Prop
  | symbol {i t e} : SubV (.fsym i t) e → HasNode .symbol e
  | vector {es e} : SubV (.vec es) e → HasNode .vector e
  | gradient {f e} : SubV (.un .grad f) e → HasNode .gradient e
  | divergence {f e} : SubV (.un .divg f) e → HasNode .divergence e
  | partialDeriv {i f e} : SubV (.un (.pd i) f) e → HasNode .partialDeriv e
  | integral {lo hi x f e} : SubV (.integ lo hi x f) e → HasNode .integral e
  | symbolicIntegral {k f e} : SubV (.un (.symInt k) f) e → HasNode .symbolicIntegral e
  | unbound {i e} : SubV (.var i) e → HasNode .unbound e
  | modulus {f e} : SubV (.un (.fn .fabs) f) e → HasNode .modulus e
  | malformed {l r e} : SubV (.bin .uid l r) e → HasNode .malformed e

/-- What a text of the library says about the expression it is thrown for. -/
inductive Says : String → Fault → Prop
  | symbol : Says "Cannot evaluate rt_function_symbol!" .symbol
  | symbolNumber : Says "Cannot evaluate rt_function_symbol to a number!" .symbol
  | symbolDiff : Says "Cannot differentiate rt_function_symbol!" .symbol
  | vector : Says "Cannot evaluate a rt_vector_expr!" .vector
  | vectorNumber : Says "Cannot unwrap a rt_vector_expr!" .vector
  | gradient : Says "Cannot evaluate formal gradient. Use transformations first." .gradient
  | gradientDiff : Says "Cannot differentiate gradient operator!" .gradient
  | divergence : Says "Cannot evaluate formal divergence. Use transformations first." .divergence
  | divergenceDiff : Says "Cannot differentiate divergence operator!" .divergence
  | partialDeriv : Says "Cannot evaluate formal partial derivative. Use transformations first." .partialDeriv
  | integral : Says "The current release of ViennaMath does not support analytic integrations at runtime." .integral
  | symbolicIntegral :
    Says "The evaluation of an integral with a symbolic integration domain is not possible." .symbolicIntegral
  | integralDiff : Says "Cannot differentiate runtime integration (yet)!" .integral
  | symbolicIntegralDiff : Says "Cannot differentiate runtime integration (yet)!" .symbolicIntegral
  | unbound : Says "Expression cannot be unwrapped!" .unbound
  | modulus : Says "modulus operation not differentiable!" .modulus
  | malformed : Says "Error due to wrong use of class 'op_interface': A right hand side argument was provided to an unary operator." .malformed

/-- The text names something that is there. -/
def TrueOf (t : String) (e : Expr K) : Prop := ∃ f, Says t f ∧ HasNode f e

end VM.Spec
