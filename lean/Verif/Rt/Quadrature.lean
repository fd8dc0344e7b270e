import Verif.Rt.Subst
/-
Numerical quadrature.
-/
namespace VM
variable {K : Type} [Num K]

/-- A quadrature rule (`numerical_quadrature_interface::eval`, numerical_quadrature.hpp 36-51): interval
bounds, integration variable, integrand. -/
abbrev Rule (K : Type) := Expr K → Expr K → Nat → Expr K → Res K

/-- `rt_gauss_quad_1::eval`, numerical_quadrature.hpp 69-80.  The bounds are evaluated at the scalar `0`,
the integration variable is replaced by the midpoint (manipulation/substitute.hpp 188-198, with
simplification) and the result unwrapped. -/
def gaussQuad1 (o : Order K) : Rule K := fun lo hi x e =>
  if isConst lo && isConst hi then
    (Res.both (o lo hi) (evalS o (Num.lit 0) lo) (evalS o (Num.lit 0) hi)
        fun a b => .ok (Num.div (Num.add a b) (Num.lit 2))).bind fun m =>
      (substitute (.var x) (.const m) e).bind fun tmp =>
        Res.both (o tmp (.bin .minus hi lo)) (unwrap o tmp)
          (evalS o (Num.lit 0) (.bin .minus hi lo)) fun u w => .ok (Num.mul u w)
  else .ub

/-- The test for a constant zero, numerical_quadrature.hpp 168-172; `rest` is what follows. -/
def zeroCheck (o : Order K) (e : Expr K) (rest : Res K) : Res K :=
  if isConst e then
    (evalS o (Num.lit 0) e).bind fun c => if Num.eqb c (Num.lit 0) then .ok (Num.lit 0) else rest
  else rest

/-- Sums and differences, numerical_quadrature.hpp 174-202; `first`: the left operand is treated first. -/
def quadBin (first : Bool) (ql qr : Res K) : BOp → Res K
  | .plus => Res.both first ql qr fun a b => .ok (Num.add a b)
  | .minus => Res.both first ql qr fun a b => .ok (Num.sub a b)
  | _ => .throw .noIntegral

/-- `rt_numerical_quadrature::operator()(e)`, numerical_quadrature.hpp 131-206, with the rule already
there.  For a symbolic integral, line 155 reads through the pointer `op_tmp`, which is null there. -/
def quadOf (o : Order K) (q : Rule K) : Expr K → Res K
  | .integ lo hi x e => q lo hi x e
  | .un (.symInt _) _ => .ub
  | .un _ _ => .throw .noIntegral
  | .bin op l r => zeroCheck o (.bin op l r) (quadBin (o l r) (quadOf o q l) (quadOf o q r) op)
  | e => zeroCheck o e (.throw .noIntegral)

/-- `operator()(interval, e, var)`, numerical_quadrature.hpp 209-223. -/
def quadOver (q : Rule K) (lo hi : Expr K) (x : Nat) (e : Expr K) : Res K := q lo hi x e

end VM
