import Verif.Rt.Simplify
/-
Recursive traversal and recursive manipulation of run-time expressions.
-/
namespace VM
variable {K σ : Type}

/-- A traversal functor (functor_wrapper.hpp 77-88).  `operator()` is `const` but may change things it
refers to, so it acts on a state; it may throw. -/
structure Visitor (K σ : Type) where
  /-- `operator()` -/
  visit : Expr K → σ → Res σ
  /-- `step_into` -/
  stepInto : Expr K → σ → Bool

/-- `recursive_traversal(fw)`: default `fw(this)` (expression_interface.hpp 77; constants, variables,
function symbols, vectors), unary_expr.hpp 330-334 (both kinds of unary node), binary_expr.hpp 432-442. -/
def traverse (V : Visitor K σ) : Expr K → σ → Res σ
  | .un op e, s => (V.visit (.un op e) s).bind (traverse V e)
  | .integ lo hi x e, s => (V.visit (.integ lo hi x e) s).bind (traverse V e)
  | .bin op l r, s =>
    if V.stepInto (.bin op l r) s then
      (traverse V l s).bind fun s => (V.visit (.bin op l r) s).bind (traverse V r)
    else V.visit (.bin op l r) s
  | e, s => V.visit e s

/-- A manipulation functor (functor_wrapper.hpp 36-47). -/
structure Manip (K : Type) where
  /-- `operator()`: the new expression -/
  apply : Expr K → Res (Expr K)
  /-- `modifies` -/
  modifies : Expr K → Bool

/-- `recursive_manipulation(fw)`: default `fw(this)` (expression_interface.hpp 75: leaves and vectors,
`modifies` is not asked), unary_expr.hpp 320-327, binary_expr.hpp 421-429 (the order of the two calls is
fixed here to left first; it only matters for which exception leaves). -/
def manipulate (F : Manip K) : Expr K → Res (Expr K)
  | .un op e => if F.modifies (.un op e) then F.apply (.un op e) else (manipulate F e).map (.un op)
  | .integ lo hi x e =>
    if F.modifies (.integ lo hi x e) then F.apply (.integ lo hi x e)
    else (manipulate F e).map (.integ lo hi x)
  | .bin op l r =>
    if F.modifies (.bin op l r) then F.apply (.bin op l r)
    else (manipulate F l).bind fun l' => (manipulate F r).map (.bin op l')
  | e => F.apply e

/-- `detail::integral_substitution_functor`, manipulation/substitute.hpp 295-338, for the interval
`[lo, hi]` and the integration variable `x`: every integral over a symbolic interval, whatever its id,
becomes an integral over `[lo, hi]`; its integrand is copied. -/
def symIntFunctor (lo hi : Expr K) (x : Nat) : Manip K where
  apply
    | .un (.symInt _) e => .ok (.integ lo hi x e)
    | e => .ok e
  modifies
    | .un (.symInt _) _ => true
    | _ => false

/-- `substitute(symbolic interval, (interval, variable), e)`, manipulation/substitute.hpp 347-362: the
searched interval is an unnamed parameter; no simplification. -/
def substituteInterval (_search : Nat) (lo hi : Expr K) (x : Nat) (e : Expr K) : Res (Expr K) :=
  manipulate (symIntFunctor lo hi x) e

end VM
