import Verif.Rt.ManipState
/-
`recursive_traversal` with functors that have a state.
-/
namespace VM
open Spec (Dir)
variable {K σ : Type}

/-- A traversal functor with a state (functor_wrapper.hpp 77-88: both functions are `const`, but they may change things
they refer to).  They get the address of a node, so what they do may depend on where in the expression the node is
(`List Dir`), on the node, and on the state; they may change the state, and throw. -/
structure Walker (K σ : Type) where
  /-- `operator()` -/
  visit : List Dir → Expr K → σ → Res Unit × σ
  /-- `step_into` -/
  stepInto : List Dir → Expr K → σ → Res Bool × σ

/-- `recursive_traversal(fw)` on the node at position `p`: expression_interface.hpp 77 (leaves and vectors),
unary_expr.hpp 330-334 (both kinds of unary node; `step_into` is not asked), binary_expr.hpp 432-442. -/
def walk (V : Walker K σ) : List Dir → Expr K → σ → Res Unit × σ
  | p, .un op e, s => andThen (V.visit p (.un op e) s) fun _ s => walk V (p ++ [.arg]) e s
  | p, .integ lo hi x e, s => andThen (V.visit p (.integ lo hi x e) s) fun _ s => walk V (p ++ [.arg]) e s
  | p, .bin op l r, s =>
    andThen (V.stepInto p (.bin op l r) s) fun b s =>
      if b then
        andThen (walk V (p ++ [.left]) l s) fun _ s =>
          andThen (V.visit p (.bin op l r) s) fun _ s => walk V (p ++ [.right]) r s
      else V.visit p (.bin op l r) s
  | p, e, s => V.visit p e s

/-- `e.get()->recursive_traversal(fw)` -/
def recursiveTraversal (V : Walker K σ) (e : Expr K) (s : σ) : Res Unit × σ := walk V [] e s

end VM
