import Verif.Ct.Expand
import Verif.Ct.Simplify
/-
Substitution, differentiation, extraction of coefficients and integration of compile-time expressions.
`none` is a compile error.
-/
namespace VM.Ct

/-- `result_of::substitute<S, R, E>::type`, manipulation/substitute.hpp 38-135.  The specialisations for a
match (98-135) are more specialised than those that descend (48-92). -/
def ctSubst (s r : CtExpr) (e : CtExpr) : CtExpr :=
  if e = s then r
  else match e with
    | .bin l op r' => .bin (ctSubst s r l) op (ctSubst s r r')
    | .const n => .const n
    | .var i => .var i
    | .fsym t => .fsym t

/-- `result_of::diff<E, ct_variable<i> >::result_type`, manipulation/diff.hpp 236-321.  There is no
specialisation for function symbols. -/
def ctDiff (i : Nat) : CtExpr → Option CtExpr
  | .bin u .plus v => (ctDiff i u).bind fun u' => (ctDiff i v).bind fun v' => some (u' +' v')
  | .bin u .minus v => (ctDiff i u).bind fun u' => (ctDiff i v).bind fun v' => some (u' -' v')
  | .bin u .mult v => (ctDiff i u).bind fun u' => (ctDiff i v).bind fun v' =>
      some ((u' *' v) +' (u *' v'))
  | .bin u .div v => (ctDiff i u).bind fun u' => (ctDiff i v).bind fun v' =>
      some (((u' *' v) -' (u *' v')) /' (v *' v))
  | .var j => if j = i then some ♯1 else some ♯0
  | .const _ => some ♯0
  | .fsym _ => none

/-- A `ct_binary_expr`. -/
def isBin : CtExpr → Bool
  | .bin .. => true
  | _ => false

/-- `has_factor<F, E>::value`, manipulation/coefficient.hpp 48-90.  For a compound `F` the specialisation
`<F, F>` and one for the operation both match and neither is more specialised. -/
def hasFactor (f : CtExpr) (e : CtExpr) : Option Nat :=
  if e = f then (if isBin f then none else some 1)
  else match e with
    | .bin _ .plus _ => none
    | .bin _ .minus _ => none
    | .bin l .mult r => (hasFactor f l).bind fun a => (hasFactor f r).bind fun b => some (a + b)
    | .bin l .div _ => hasFactor f l
    | _ => some 0

/-- `coefficient_impl<F, E>::type`, coefficient.hpp 146-207, with `extract_factor_from_product` 95-141
written out for a product. -/
def coefImpl (f : CtExpr) (e : CtExpr) : Option CtExpr :=
  if e = f then (if isBin f then none else some ♯1)
  else match e with
    | .bin l .plus r => (coefImpl f l).bind fun a => (coefImpl f r).bind fun b => some (a +' b)
    | .bin l .minus r => (coefImpl f l).bind fun a => (coefImpl f r).bind fun b => some (a -' b)
    | .bin l .mult r =>
      if l = f ∧ r = f then some f
      else if l = f then some r
      else if r = f then some l
      else (hasFactor f l).bind fun a => (hasFactor f r).bind fun b =>
        match decide (a ≠ 0), decide (b ≠ 0) with
        | false, false => some ♯0
        | true, false => (coefImpl f l).bind fun c => some (c *' r)
        | false, true => (coefImpl f r).bind fun c => some (l *' c)
        | true, true => (coefImpl f l).bind fun c => some (c *' r)
    | .bin l .div r => (coefImpl f l).bind fun a => some (a /' r)
    | _ => some ♯0

/-- `result_of::coefficient<F, E>::type`, coefficient.hpp 216-224. -/
def coefficient (f e : CtExpr) : Option CtExpr := coefImpl f (expand e)

/-- `result_of::drop_dependent_terms<F, E>::type`, manipulation/drop_dependent_terms.hpp 44-53. -/
def dropTerms (cv : Conv) (f e : CtExpr) : Option CtExpr := ctSimplify cv (ctSubst f ♯0 (expand e))

/-- `polynomial_degree<V, E>::value`, manipulation/integrate.hpp 39-82. -/
def polyDegree (x : CtExpr) (e : CtExpr) : Option Int :=
  if e = x then some 1
  else match e with
    | .bin _ .plus _ => none
    | .bin _ .minus _ => none
    | .bin l .mult r => (polyDegree x l).bind fun a => (polyDegree x r).bind fun b => some (a + b)
    | .bin l .div r => (polyDegree x l).bind fun a => (polyDegree x r).bind fun b => some (a - b)
    | _ => some 0

/-- `pow<T, n>::type` for n ≥ 0, integrate.hpp 87-115.  The first argument bounds the depth of
instantiation, see `powC_eq`. -/
def powN (t : CtExpr) : Nat → Nat → CtExpr
  | 0, _ => ♯1
  | k + 1, n =>
    if n = 0 then ♯1
    else if n = 1 then t
    else if n = 2 then t *' t
    else powN t k (n / 2) *' powN t k (n - n / 2)

/-- `pow<T, n>::type`. -/
def powC (t : CtExpr) (n : Nat) : CtExpr := powN t n n

/-- `integrate_monomial<T, k>::type`, integrate.hpp 121-136.  For an exponent k + 1 below zero `pow` does
not terminate. -/
def monomial (t : CtExpr) (k : Int) : Option CtExpr :=
  if k = 0 then some t
  else if k + 1 < 0 then none
  else some (powC t (k + 1).toNat /' ♯(k + 1))

/-- `integrate_impl<a, b, E, x>::type`, integrate.hpp 157-326. -/
def integrateImpl (cv : Conv) (a b x : CtExpr) : CtExpr → Option CtExpr
  | .bin l .plus r => (integrateImpl cv a b x l).bind fun l' => (integrateImpl cv a b x r).bind fun r' =>
      ctSimplify cv (l' +' r')
  | .bin l .minus r => (integrateImpl cv a b x l).bind fun l' => (integrateImpl cv a b x r).bind fun r' =>
      ctSimplify cv (l' -' r')
  | .bin l .mult r => (ctSimplify cv (ctSubst x ♯1 (l *' r))).bind fun c =>
      (polyDegree x (l *' r)).bind fun k =>
      (monomial b k).bind fun mb => (monomial a k).bind fun ma =>
      (ctSimplify cv (mb *' c)).bind fun u => (ctSimplify cv (ma *' c)).bind fun w =>
      ctSimplify cv (u -' w)
  | .bin l .div r => (integrateImpl cv a b x l).bind fun l' => ctSimplify cv (l' /' r)
  | .const n => ctSimplify cv (♯n *' (b -' a))
  | .fsym _ => none
  | .var _ => ctSimplify cv (((b *' b) /' ♯2) -' ((a *' a) /' ♯2))

/-- `result_of::integrate<a, b, E, x>::type`, integrate.hpp 334-411. -/
def ctIntegrate (cv : Conv) (a b : CtExpr) (e x : CtExpr) : Option CtExpr :=
  match e with
  | .bin l op r => (ctSimplify cv (expand (.bin l op r))).bind (integrateImpl cv a b x)
  | .const n => integrateImpl cv a b x (.const n)
  | .fsym t => integrateImpl cv a b x (.fsym t)
  | .var i => integrateImpl cv a b x (.var i)

end VM.Ct
