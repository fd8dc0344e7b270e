import Verif.Rt.Timed
import Verif.Rt.Quadrature
/-
Counting the calls of member functions (see Timed) in substitution of lists and in numerical quadrature.
-/
namespace VM
open Timed
variable {K : Type} [Num K]

/-- The search loop of the list version, as in `findRepl`. -/
def findReplT (e : Expr K) : List (Expr K) → List (Expr K) → Timed (Option (Expr K))
  | [], _ => ret (.ok none)
  | s :: ss, [] => (deepEqT e s).bind fun b => if b then ret .ub else findReplT e ss []
  | s :: ss, r :: rs => (deepEqT e s).bind fun b => if b then ret (.ok (some r)) else findReplT e ss rs

mutual
/-- `substitute(e[], repl[])` of the node classes, as in `substM`. -/
def substMT (ss rs : List (Expr K)) : Expr K → Timed (Expr K)
  | .un op e => tick <| (findReplT (.un op e) ss rs).bind fun
      | some r => ret (.ok r)
      | none => (substMT ss rs e).map (.un op)
  | .integ lo hi x e => tick <| (findReplT (.integ lo hi x e) ss rs).bind fun
      | some r => ret (.ok r)
      | none => (substMT ss rs e).map (.integ lo hi x)
  | .bin op e f => tick <| (findReplT (.bin op e f) ss rs).bind fun
      | some r => ret (.ok r)
      | none => (substMT ss rs e).bind fun e' => (substMT ss rs f).map (.bin op e')
  | .vec es => tick <| (findReplT (.vec es) ss rs).bind fun
      | some r => ret (.ok r)
      | none => (substMLT ss rs es).map .vec
  | e => tick <| (findReplT e ss rs).map fun o => o.getD e
/-- The loop over the entries, vector_expr.hpp 185-186. -/
def substMLT (ss rs : List (Expr K)) : List (Expr K) → Timed (List (Expr K))
  | [] => ret (.ok [])
  | e :: es => (substMT ss rs e).bind fun e' => (substMLT ss rs es).map (e' :: ·)
end

/-- `substitute(std::vector search, std::vector repl, e)`, as in `substituteMany`. -/
def substituteManyT (ss rs : List (Expr K)) (e : Expr K) : Timed (Expr K) :=
  if ss.length = rs.length then (substMT ss rs e).bind simplifiedT else ret .ub

/-- `eval(numeric_type)`, as in `evalS`. -/
def evalST (o : Order K) (s : K) : Expr K → Timed K
  | .un op e => tick ((evalST o s e).bind fun x => ret (applyU op x))
  | .integ _ _ _ e => tick ((evalST o s e).bind fun _ => ret (.throw .analyticIntegration))
  | .bin op l r => tick (both (o l r) (evalST o s l) (evalST o s r) (applyB op))
  | e => tick (ret (evalS o s e))

/-- `rt_gauss_quad_1::eval`, as in `gaussQuad1`, with the calls the assertion makes. -/
def gaussQuad1T (o : Order K) (lo hi : Expr K) (x : Nat) (e : Expr K) : Timed K :=
  (bothConstT lo hi).bind fun c =>
    if c then
      (both (o lo hi) (evalST o (Num.lit 0) lo) (evalST o (Num.lit 0) hi)
          fun a b => .ok (Num.div (Num.add a b) (Num.lit 2))).bind fun m =>
        (substituteT (.var x) (.const m) e).bind fun tmp =>
          both (o tmp (.bin .minus hi lo)) (unwrapT o tmp)
            (evalST o (Num.lit 0) (.bin .minus hi lo)) fun u w => .ok (Num.mul u w)
    else ret .ub

/-- The test for a constant zero, as in `zeroCheck`.  The expression is evaluated twice, numerical_quadrature.hpp 170
(the second evaluation, which does not happen if the number is positive, is always counted). -/
def zeroCheckT (o : Order K) (e : Expr K) (rest : Timed K) : Timed K :=
  (isConstT e).bind fun c =>
    if c then
      (evalST o (Num.lit 0) e).bind fun _ => (evalST o (Num.lit 0) e).bind fun c =>
        if Num.eqb c (Num.lit 0) then ret (.ok (Num.lit 0)) else rest
    else rest

/-- Sums and differences, as in `quadBin`. -/
def quadBinT (first : Bool) (ql qr : Timed K) : BOp → Timed K
  | .plus => both first ql qr fun a b => .ok (Num.add a b)
  | .minus => both first ql qr fun a b => .ok (Num.sub a b)
  | _ => ret (.throw .noIntegral)

/-- `rt_numerical_quadrature::operator()(e)` with the one-point rule, as in `quadOf`. -/
def quadOfT (o : Order K) : Expr K → Timed K
  | .integ lo hi x e => gaussQuad1T o lo hi x e
  | .un (.symInt _) _ => ret .ub
  | .un _ _ => ret (.throw .noIntegral)
  | .bin op l r => zeroCheckT o (.bin op l r) (quadBinT (o l r) (quadOfT o l) (quadOfT o r) op)
  | e => zeroCheckT o e (ret (.throw .noIntegral))

end VM
