import Verif.Spec.CtManip
import Mathlib.Data.Multiset.AddSub
/-
The addends of a multiplied out expression: from each factor of a product one addend is chosen, in all ways.
Independent of the metafunctions of the library.
-/
namespace VM.Spec
open VM.Ct

/-- An addend: its sign, the constants, variables and function symbols that are multiplied (in any order), and
the denominators, each given by its value as a function of the variables and function symbols. -/
@[ext] structure Monom (F : Type*) where
  neg : Bool
  atoms : Multiset CtExpr
  dens : Multiset ((Nat → F) → (Nat → F) → F)

section
variable {F : Type*} [Field F]

/-- The product of two addends. -/
def Monom.times (a b : Monom F) : Monom F := ⟨xor a.neg b.neg, a.atoms + b.atoms, a.dens + b.dens⟩

/-- The addend with the other sign. -/
def Monom.negate (a : Monom F) : Monom F := ⟨!a.neg, a.atoms, a.dens⟩

/-- The addend with one more denominator. -/
def Monom.over (a : Monom F) (d : CtExpr) : Monom F := ⟨a.neg, a.atoms, (fun v φ => cval v φ d) ::ₘ a.dens⟩

/-- All addends of the multiplied out expression, from left to right: those of a product are the products of an
addend of the left factor and an addend of the right factor. -/
def choices (F : Type*) [Field F] : CtExpr → List (Monom F)
  | .bin l .plus r => choices F l ++ choices F r
  | .bin l .minus r => choices F l ++ (choices F r).map Monom.negate
  | .bin l .mult r => (choices F l).flatMap fun a => (choices F r).map (Monom.times a)
  | .bin l .div r => (choices F l).map (Monom.over · r)
  | e => [⟨false, {e}, 0⟩]

/-- The addends that are written in an expression: it is cut at each + and - outside of denominators and
products.  For each piece its sign and the denominators it stands over. -/
def ctPieces : CtExpr → List (Bool × CtExpr × List CtExpr)
  | .bin l .plus r => ctPieces l ++ ctPieces r
  | .bin l .minus r => ctPieces l ++ (ctPieces r).map fun p => (!p.1, p.2)
  | .bin l .div r => (ctPieces l).map fun p => (p.1, p.2.1, r :: p.2.2)
  | e => [(false, e, [])]

/-- The factors of a piece (without sums, which have no factors but themselves). -/
def factors (F : Type*) [Field F] : CtExpr → Monom F
  | .bin l .mult r => (factors F l).times (factors F r)
  | .bin l .div r => (factors F l).over r
  | e => ⟨false, {e}, 0⟩

/-- What a piece stands for. -/
def readPiece (F : Type*) [Field F] (p : Bool × CtExpr × List CtExpr) : Monom F :=
  p.2.2.foldr (fun d m => m.over d) (if p.1 then (factors F p.2.1).negate else factors F p.2.1)

end

/-- How many addends there are. -/
def addendCount : CtExpr → Nat
  | .bin l .plus r => addendCount l + addendCount r
  | .bin l .minus r => addendCount l + addendCount r
  | .bin l .mult r => addendCount l * addendCount r
  | .bin l .div _ => addendCount l
  | _ => 1

/-- How many constants, variables and function symbols all addends together are written with, denominators
left out: in a product each addend of one factor is written once for each addend of the other. -/
def atomCount : CtExpr → Nat
  | .bin l .plus r => atomCount l + atomCount r
  | .bin l .minus r => atomCount l + atomCount r
  | .bin l .mult r => atomCount l * addendCount r + addendCount l * atomCount r
  | .bin l .div _ => atomCount l
  | _ => 1

/-- How deep denominators are nested. -/
def denNest : CtExpr → Nat
  | .bin l .div r => max (denNest l) (denNest r + 1)
  | .bin l _ r => max (denNest l) (denNest r)
  | _ => 0

end VM.Spec
