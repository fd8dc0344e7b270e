import Verif.Ct.Simplify
/-
How deep the instantiations of the class templates behind `result_of::simplify` are nested: `gcd` (forwards.h 656-675),
`simplify_impl` and `simplify` (manipulation/simplify.hpp 36-879).  One level is counted for each class template whose
instantiation is under way.  If the program does not compile because of an error, the instantiation ends at the error, and
the depths below are not exceeded.
-/
namespace VM.Ct

/-- `gcd<a, b>`, forwards.h 657-675: one level for each instantiation. -/
def gcdDepth (a b : Int) : Nat := if h : b = 0 then 1 else 1 + gcdDepth b (a.tmod b)
termination_by b.natAbs
decreasing_by
  rw [Int.natAbs_tmod]
  exact Nat.mod_lt _ (Int.natAbs_pos.2 h)

open Pat in
/-- The specialisations of `simplify_impl` that instantiate `gcd`: simplify.hpp 355-604 and 726-737. -/
def gcdPats : List Pat :=
  [(C / C) + (C / C), C + (C / C), (C / C) + C,
   (C / C) - (C / C), C - (C / C), (C / C) - C, (C / C) - k 0,
   (C / C) * (C / C), C * (C / C), (C / C) * C,
   (C / C) / (C / C), C / (C / C), (C / C) / C, C / C]

/-- The template arguments of `gcd` in these: the constants `numerator` and `denominator` of the specialisation, in the
last one the numbers themselves. -/
def gcdArgs (cv : Conv) : CtExpr → Option (Int × Int)
  | (♯n₁ /' ♯d₁) +' (♯n₂ /' ♯d₂) =>
    both (cadd (cmul (some n₁) (some d₂)) (cmul (some n₂) (some d₁))) (cmul (some d₁) (some d₂))
  | ♯v +' (♯n /' ♯d) => both (cadd (cmul (some v) (some d)) (some n)) (some d)
  | (♯n /' ♯d) +' ♯v => both (cadd (some n) (cmul (some v) (some d))) (some d)
  | (♯n₁ /' ♯d₁) -' (♯n₂ /' ♯d₂) =>
    both (csub (cmul (some n₁) (some d₂)) (cmul (some n₂) (some d₁))) (cmul (some d₁) (some d₂))
  | ♯v -' (♯n /' ♯d) => both (csub (cmul (some v) (some d)) (some n)) (some d)
  | (♯n /' ♯d) -' ♯0 => both (some n) (some d)
  | (♯n /' ♯d) -' ♯v => both (csub (some n) (cmul (some v) (some d))) (some d)
  | (♯n₁ /' ♯d₁) *' (♯n₂ /' ♯d₂) => both (cmul (some n₁) (some n₂)) (cmul (some d₁) (some d₂))
  | ♯v *' (♯n /' ♯d) => both (cmul (some v) (some n)) (some d)
  | (♯n /' ♯d) *' ♯v => both (cmul (some n) (some v)) (some d)
  | (♯n₁ /' ♯d₁) /' (♯n₂ /' ♯d₂) => both (cmul (some n₁) (some d₂)) (cmul (some d₁) (some n₂))
  | ♯v /' (♯n /' ♯d) => both (cmul (some v) (some d)) (some n)
  | (♯n /' ♯d) /' ♯v => both (some n) (cmul (some d) (some v))
  | ♯a /' ♯b => some (a, b)
  | _ => none
where
  both (x y : CExp) : Option (Int × Int) :=
    x.bind fun n => y.bind fun d => (cv n).bind fun n => (cv d).bind fun d => some (n, d)

/-- What a specialisation instantiates. -/
def specDepth (cv : Conv) (s : Spz) (e : CtExpr) : Nat :=
  if s.pat ∈ gcdPats then
    match gcdArgs cv e with
    | some (a, b) => gcdDepth a b
    | none => 0
  else 0

/-- `simplify_impl<E>`: one level, and what the selected specialisation instantiates (simplify.hpp 51-60 for the general
one). -/
def implDepth (cv : Conv) : CtExpr → Nat
  | .bin l op r =>
    if cands (.bin l op r) = [] then 1 + max (implDepth cv l) (implDepth cv r)
    else match best (cands (.bin l op r)) with
      | some s => 1 + specDepth cv s (.bin l op r)
      | none => 1
  | _ => 1

/-- `simplify<E>`, simplify.hpp 795-879: one level, in it `simplify_impl<E>` and, if something was simplified,
`simplify<simplified_type>`; at most so many times around the loop. -/
def simplifyDepthN (cv : Conv) : Nat → CtExpr → Nat
  | 0, _ => 0
  | k + 1, e =>
    1 + max (implDepth cv e) (match simplifyImpl cv e with
      | some p => if p.1 = 0 then 0 else simplifyDepthN cv k p.2
      | none => 0)

/-- `simplify<E>`. -/
def simplifyDepth (cv : Conv) (e : CtExpr) : Nat := simplifyDepthN cv (weight e) e

end VM.Ct
