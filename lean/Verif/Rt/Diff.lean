import Verif.Rt.Equal
import Verif.Rt.Simplify
/-
Run-time differentiation.
-/
namespace VM
variable {K : Type} [Num K]

/-- What to differentiate with respect to: an `rt_variable` or an `rt_function_symbol`
(the `diff_var` argument; manipulation/diff.hpp 39-74 and 148-186). -/
inductive DVar where
  | var (i : Nat)
  | fsym (i tag : Nat)
  deriving DecidableEq, Repr

/-- `diff_impl(e, op, diff_var)` of the mathematical functions, `d` is `e->diff(diff_var)`:
detail/unary_operations.hpp 41-45 (id), 51-57 (exp), 116-122 (sin), 189-198 (cos), 263-275 (tan),
340-345 (fabs), 411-422 (sqrt), 487-494 (log), 564-574 (log10).  `rt_unary_expr(e->clone())` without
an operator is the identity (runtime/unary_expr.hpp, default operator). -/
def diffFn (f : Fn) (e : Expr K) (d : Res (Expr K)) : Res (Expr K) :=
  match f with
  | .id => d
  | .exp => d.map fun d => .bin .mult (.un (.fn .exp) e) d
  | .sin => d.map fun d => .bin .mult (.un (.fn .cos) e) d
  | .cos => d.map fun d =>
      .bin .mult (.un (.fn .sin) e) (.bin .mult (.const (Num.lit (-1))) d)
  | .tan => d.map fun d =>
      .bin .div d (.bin .mult (.un (.fn .cos) e) (.un (.fn .cos) e))
  | .fabs => .throw .notDifferentiable
  | .sqrt => d.map fun d =>
      .bin .div d (.bin .mult (.const (Num.lit 2)) (.un (.fn .sqrt) e))
  | .log => d.map fun d => .bin .div d (.un (.fn .id) e)
  | .log10 => d.map fun d =>
      .bin .div d (.bin .mult (.const (Num.fn .log (Num.lit 10))) (.un (.fn .id) e))

/-- `diff_impl(lhs, op, rhs, diff_var)`: detail/binary_operations.hpp 40-46 (plus), 108-114 (minus),
182-193 (mult), 284-300 (div); op_interface.hpp 66-68 for the ill-formed node.  The order of the two
calls is fixed here (left first); it only matters for which exception leaves an ill-formed tree. -/
def diffBin (op : BOp) (l r : Expr K) (dl dr : Res (Expr K)) : Res (Expr K) :=
  match op with
  | .plus => dl.bind fun l' => dr.map fun r' => .bin .plus l' r'
  | .minus => dl.bind fun l' => dr.map fun r' => .bin .minus l' r'
  | .mult => dl.bind fun l' => dr.map fun r' => .bin .plus (.bin .mult l' r) (.bin .mult l r')
  | .div => dl.bind fun l' => dr.map fun r' =>
      .bin .div (.bin .minus (.bin .mult l' r) (.bin .mult l r')) (.bin .mult r r)
  | .uid => .throw .rhsForUnary

mutual
/-- `diff(diff_var)` of the node classes: constant.hpp 129-132, variable.hpp 228-239,
function_symbol.hpp 136-152, unary_expr.hpp (`op_->diff`), detail/unary_operations.hpp 641-664 (gradient),
685-690 (divergence), 744-749 (partial derivative), 755-768 (integrals), binary_expr.hpp (`op_->diff`),
vector_expr.hpp 213-221. -/
def diffE (x : DVar) : Expr K → Res (Expr K)
  | .const _ => .ok (.const (Num.lit 0))
  | .var i => .ok (.const (Num.lit (if x = .var i then 1 else 0)))
  | .fsym i t =>
    match x with
    | .var _ => .throw .notDifferentiable
    | .fsym j u => .ok (.const (Num.lit (if j = i ∧ u = t then 1 else 0)))
  | .un (.fn f) e => diffFn f e (diffE x e)
  | .un .grad e =>
    match x with
    | .var _ => .throw .notDifferentiable
    | .fsym _ _ => (diffE x e).bind fun d =>
        (deepEq d (.const (Num.lit 0))).map fun b =>
          if b then .const (Num.lit 0) else .un .grad d
  | .un .divg _ => .throw .notDifferentiable
  | .un (.pd _) _ => .throw .notDifferentiable
  | .un (.symInt _) _ => .throw .notDifferentiable
  | .integ _ _ _ _ => .throw .notDifferentiable
  | .bin op l r => diffBin op l r (diffE x l) (diffE x r)
  | .vec es => (diffEL x es).map .vec
/-- The loop over the entries, vector_expr.hpp 217-218. -/
def diffEL (x : DVar) : List (Expr K) → Res (List (Expr K))
  | [] => .ok []
  | e :: es => (diffE x e).bind fun d => (diffEL x es).map (d :: ·)
end

/-- `diff(e, x)`, manipulation/diff.hpp 39-111 (variables) and 160-186 (function symbols): differentiate,
then `inplace_simplify`. -/
def diff (x : DVar) (e : Expr K) : Res (Expr K) := (diffE x e).bind simplified

/-- `diff(function symbol, variable)`, manipulation/diff.hpp 118-142: the formal derivative.  This
overload is chosen when the static type of the argument is `rt_function_symbol`; inside an `rt_expr` the
member function above is called instead. -/
def diffSymbol (i t x : Nat) : Expr K := .un (.pd x) (.fsym i t)

end VM
