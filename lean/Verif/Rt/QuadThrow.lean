import Verif.Rt.Throw
import Verif.Rt.Quadrature
/-
What a failing numerical integration throws.
-/
namespace VM
variable {K : Type} [Num K]

/-- `integration_without_integral_exception`, exception.hpp 31-34, thrown at numerical_quadrature.hpp 162 and 202: a struct
with a public `what()`. -/
def noIntegralOffer : Offer := .struct "Cannot integrate an expression if there is no integral."

/-- The object thrown by `rt_gauss_quad_1::eval`, if one is; the lines of `gaussQuad1` (numerical_quadrature.hpp 69-80).  The
bounds are constant and the simplification does not unwrap anything but constants, so only `tmp.get()->unwrap()` throws;
an exception in the bounds, which takes an ill-formed node (C24), is left out. -/
def gaussOffer (o : Order K) (lo hi : Expr K) (x : Nat) (e : Expr K) : Option Offer :=
  if isConst lo && isConst hi then
    match Res.both (o lo hi) (evalS o (Num.lit 0) lo) (evalS o (Num.lit 0) hi)
        fun a b => .ok (Num.div (Num.add a b) (Num.lit 2)) with
    | .ok m =>
      match substitute (.var x) (.const m) e with
      | .ok tmp => (unwrapSite o tmp).map Site.offer
      | _ => none
    | _ => none
  else none

/-- The test for a constant zero, numerical_quadrature.hpp 168-172; `rest` is what is thrown afterwards. -/
def zeroOffer (o : Order K) (e : Expr K) (rest : Option Offer) : Option Offer :=
  if isConst e then
    match evalS o (Num.lit 0) e with
    | .ok c => if Num.eqb c (Num.lit 0) then none else rest
    | _ => none
  else rest

/-- The object thrown by `rt_numerical_quadrature::operator()(e)`, if one is; the lines of `quadOf`
(numerical_quadrature.hpp 131-206) with the one-point rule.  In a sum the second operand is not reached if the first one
throws. -/
def quadOffer (o : Order K) : Expr K → Option Offer
  | .integ lo hi x e => gaussOffer o lo hi x e
  | .un (.symInt _) _ => none
  | .un _ _ => some noIntegralOffer
  | .bin op l r => zeroOffer o (.bin op l r) <|
    match op with
    | .plus | .minus =>
      if o l r then
        match quadOf o (gaussQuad1 o) l with
        | .ok _ => quadOffer o r
        | _ => quadOffer o l
      else
        match quadOf o (gaussQuad1 o) r with
        | .ok _ => quadOffer o l
        | _ => quadOffer o r
    | _ => some noIntegralOffer
  | e => zeroOffer o e (some noIntegralOffer)

end VM
