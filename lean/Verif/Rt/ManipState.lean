import Verif.Rt.Traverse
import Verif.Spec.Traverse
/-
`recursive_manipulation` with functors that have a state.
-/
namespace VM
open Spec (Dir)
variable {K σ α β : Type}

/-- A manipulation functor with a state (functor_wrapper.hpp 36-47: both functions are `const`, but they may change
things they refer to).  They get the address of a node, so their answers may depend on where in the expression the node
is (`List Dir`), on the node, and on the state; they may change the state, and throw. -/
structure Editor (K σ : Type) where
  /-- `operator()` -/
  apply : List Dir → Expr K → σ → Res (Expr K) × σ
  /-- `modifies` -/
  modifies : List Dir → Expr K → σ → Res Bool × σ

/-- Go on with a result; an exception leaves with the state as it is. -/
def andThen (r : Res α × σ) (f : α → σ → Res β × σ) : Res β × σ :=
  match r with
  | (.ok a, s) => f a s
  | (.throw x, s) => (.throw x, s)
  | (.ub, s) => (.ub, s)

/-- `recursive_manipulation(fw)` on the node at position `p`: expression_interface.hpp 75 (leaves and vectors: `modifies`
is not asked), unary_expr.hpp 320-327, binary_expr.hpp 421-429.  The calls for the two operands of a binary expression
are arguments of a constructor: C++ leaves it to the compiler which one is made first (`o`: the left one). -/
def edit (F : Editor K σ) (o : List Dir → Bool) : List Dir → Expr K → σ → Res (Expr K) × σ
  | p, .un op e, s =>
    andThen (F.modifies p (.un op e) s) fun b s =>
      if b then F.apply p (.un op e) s
      else andThen (edit F o (p ++ [.arg]) e s) fun e' s => (.ok (.un op e'), s)
  | p, .integ lo hi x e, s =>
    andThen (F.modifies p (.integ lo hi x e) s) fun b s =>
      if b then F.apply p (.integ lo hi x e) s
      else andThen (edit F o (p ++ [.arg]) e s) fun e' s => (.ok (.integ lo hi x e'), s)
  | p, .bin op l r, s =>
    andThen (F.modifies p (.bin op l r) s) fun b s =>
      if b then F.apply p (.bin op l r) s
      else if o p then
        andThen (edit F o (p ++ [.left]) l s) fun l' s =>
          andThen (edit F o (p ++ [.right]) r s) fun r' s => (.ok (.bin op l' r'), s)
      else
        andThen (edit F o (p ++ [.right]) r s) fun r' s =>
          andThen (edit F o (p ++ [.left]) l s) fun l' s => (.ok (.bin op l' r'), s)
  | p, e, s => F.apply p e s

/-- `e.get()->recursive_manipulation(fw)` -/
def recursiveManipulation (F : Editor K σ) (o : List Dir → Bool) (e : Expr K) (s : σ) : Res (Expr K) × σ :=
  edit F o [] e s

end VM
