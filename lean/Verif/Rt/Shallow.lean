import Verif.Rt.Scalar
/-
The comparison and the text that look at the outermost node only.
-/
namespace VM.Typed
variable {K : Type}

/-- `shallow_equal(other)`: one `dynamic_cast` to the class of `*this`.  constant.hpp 123-126 (the class of a constant
includes its scalar type), variable.hpp 222-225, function_symbol.hpp 130-133, unary_expr.hpp 308-311 (integrals are
unary nodes), binary_expr.hpp 409-412, vector_expr.hpp 154-157.  The first argument is `*this`. -/
def shallowEq : TExpr K → TExpr K → Bool
  | .const (.dbl _), .const (.dbl _) => true
  | .const (.flt _), .const (.flt _) => true
  | .const (.int _), .const (.int _) => true
  | .const (.long _), .const (.long _) => true
  | .var _, .var _ => true
  | .fsym _ _, .fsym _ _ => true
  | .un _ _, .un _ _ => true
  | .un _ _, .integ _ _ _ _ => true
  | .integ _ _ _ _, .un _ _ => true
  | .integ _ _ _ _, .integ _ _ _ _ => true
  | .bin _ _ _, .bin _ _ _ => true
  | .vec _, .vec _ => true
  | _, _ => false

/-- `shallow_str()`: unary_expr.hpp 258-261, binary_expr.hpp 349-352, vector_expr.hpp 109-112; constants, variables and
function symbols inherit expression_interface.hpp 52, which is `deep_str()`. -/
def shallowStr (fmt : K → Txt) : TExpr K → Txt
  | .un _ _ => t!"unary_expr"
  | .integ _ _ _ _ => t!"unary_expr"
  | .bin _ _ _ => t!"binary_expr"
  | .vec _ => t!"vector_expr"
  | e => deepStr (Scalar.txt fmt) e

end VM.Typed
