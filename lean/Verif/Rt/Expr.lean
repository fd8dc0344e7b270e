import Verif.Num
/-
Run-time expression trees.
-/
namespace VM

/-- Operators of a binary node.  `plus` ... `div` are `op_binary<op_plus>` ... `op_binary<op_div>`
(runtime/binary_operators.hpp).  `uid` is the ill-formed operator `op_unary<op_id>` that
`rt_binary_expr::operator=` installs when a number is assigned
(runtime/binary_expr.hpp 189-197, 208-229). -/
inductive BOp where
  | plus | minus | mult | div | uid
  deriving DecidableEq, Repr

/-- Operators of a unary node except the integral over a concrete interval:
mathematical functions (unary_op_tags.hpp 38-166), gradient (177-187), divergence (200-210),
formal partial derivative with respect to variable `i` (221-248), integral over the symbolic interval
`id` (runtime/integral.hpp 150-186). -/
inductive UOp where
  | fn (f : Fn)
  | grad
  | divg
  | pd (i : Nat)
  | symInt (id : Nat)
  deriving DecidableEq, Repr

/-- Run-time expressions.  One constructor per node class:
`rt_constant` (runtime/constant.hpp), `rt_variable` (variable.hpp), `rt_function_symbol`
(function_symbol.hpp; the tag distinguishes unknown/test functions), `rt_unary_expr` (unary_expr.hpp;
the integral over a concrete interval, integral.hpp 41-95, carries expressions and is a constructor
of its own: lower bound, upper bound, integration variable, integrand), `rt_binary_expr`
(binary_expr.hpp), `rt_vector_expr` (vector_expr.hpp).
Simplification: the scalar type parameter of `rt_constant` is always the numeric type. -/
inductive Expr (K : Type) where
  | const (c : K)
  | var (i : Nat)
  | fsym (i tag : Nat)
  | un (op : UOp) (e : Expr K)
  | integ (lo hi : Expr K) (x : Nat) (e : Expr K)
  | bin (op : BOp) (l r : Expr K)
  | vec (es : List (Expr K))
  deriving Repr

namespace Expr
variable {K : Type}

/-- Induction on expressions with the entries of vectors. -/
theorem ind {P : Expr K → Prop}
    (const : ∀ c, P (.const c)) (var : ∀ i, P (.var i)) (fsym : ∀ i t, P (.fsym i t))
    (un : ∀ op e, P e → P (.un op e))
    (integ : ∀ lo hi x e, P lo → P hi → P e → P (.integ lo hi x e))
    (bin : ∀ op l r, P l → P r → P (.bin op l r))
    (vec : ∀ es, (∀ e ∈ es, P e) → P (.vec es)) : ∀ e, P e := by
  intro e
  exact Expr.rec (motive_1 := P) (motive_2 := fun es => ∀ e ∈ es, P e)
    const var fsym un integ bin vec
    (by intro e he; cases he)
    (by
      intro h t hh ht e he
      cases he with
      | head => exact hh
      | tail _ h' => exact ht e h') e

end Expr
end VM
