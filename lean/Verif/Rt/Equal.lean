import Verif.Rt.Eval
/-
Structural equality `deep_equal`.
-/
namespace VM
variable {K : Type} [Num K]

/-- `op_->equal(other)` for unary operators: runtime/unary_operators.hpp 121-128 with
`unary_op_equal`, 67 (generic: same operator class, parameters ignored, so all symbolic integrals
are equal) and compiletime/unary_op_tags.hpp 247-248 (partial derivatives compare the variable). -/
def UOp.equal : UOp → UOp → Bool
  | .fn f, .fn g => decide (f = g)
  | .grad, .grad => true
  | .divg, .divg => true
  | .pd i, .pd j => decide (i = j)
  | .symInt _, .symInt _ => true
  | _, _ => false

mutual
/-- `deep_equal(other)`: constant.hpp 113-120, variable.hpp 212-219, function_symbol.hpp 120-127,
unary_expr.hpp 295-305 (both kinds of unary node; the argument is compared before the operator, and
the operators of two integrals over concrete intervals are always equal), binary_expr.hpp 395-406,
vector_expr.hpp 137-151. -/
def deepEq : Expr K → Expr K → Res Bool
  | .const c, .const d => .ok (Num.eqb d c)
  | .var i, .var j => .ok (decide (j = i))
  | .fsym i t, .fsym j u => .ok (decide (j = i) && decide (u = t))
  | .un op e, .un op' e' => (deepEq e e').map fun b => b && UOp.equal op' op
  | .integ _ _ _ e, .integ _ _ _ e' => deepEq e e'
  | .un _ e, .integ _ _ _ e' => (deepEq e e').map fun _ => false
  | .integ _ _ _ e, .un _ e' => (deepEq e e').map fun _ => false
  | .bin op l r, .bin op' l' r' =>
    (deepEq l l').bind fun b =>
      if b && decide (op = op') then deepEq r r' else .ok false
  | .vec es, .vec fs => deepEqL es fs
  | _, _ => .ok false
/-- The loop of vector_expr.hpp 144-146: it runs over the entries of `other`; reading past the end of
`*this` is undefined.  Once an entry differs nothing is compared any more. -/
def deepEqL : List (Expr K) → List (Expr K) → Res Bool
  | _, [] => .ok true
  | [], _ :: _ => .ub
  | e :: es, f :: fs => (deepEq e f).bind fun b => if b then deepEqL es fs else .ok false
end

end VM
