import Verif.Spec.Ct
/-
Shapes of compile-time expressions, for the properties of `expand`, `coefficient` and `integrate`.
-/
namespace VM.Spec
open VM.Ct

/-- A sum or a difference. -/
def IsSum : CtExpr → Prop
  | .bin _ .plus _ => True
  | .bin _ .minus _ => True
  | _ => False

/-- Somewhere, a factor of a product is a sum or a difference. -/
def SumFactor : CtExpr → Prop
  | .bin l .mult r => IsSum l ∨ IsSum r ∨ SumFactor l ∨ SumFactor r
  | .bin l _ r => SumFactor l ∨ SumFactor r
  | _ => False

/-- No sums or differences outside of denominators. -/
def NoSum : CtExpr → Prop
  | .bin _ .plus _ => False
  | .bin _ .minus _ => False
  | .bin l .mult r => NoSum l ∧ NoSum r
  | .bin l .div _ => NoSum l
  | _ => True

/-- Outside of denominators, no product contains a sum or a difference. -/
def Expanded : CtExpr → Prop
  | .bin l .mult r => NoSum l ∧ NoSum r
  | .bin l .div _ => Expanded l
  | .bin l _ r => Expanded l ∧ Expanded r
  | _ => True

/-- No product contains a sum or a difference, except in the denominator of a quotient; and the denominators
are like this again. -/
def ExpandedAll : CtExpr → Prop
  | .bin l .mult r => NoSum l ∧ NoSum r ∧ ExpandedAll l ∧ ExpandedAll r
  | .bin l _ r => ExpandedAll l ∧ ExpandedAll r
  | _ => True

/-- All denominators are expanded. -/
def DensExpanded : CtExpr → Prop
  | .bin l .div r => DensExpanded l ∧ ExpandedAll r
  | .bin l _ r => DensExpanded l ∧ DensExpanded r
  | _ => True

/-- All denominators below a product are expanded. -/
def ProductDens : CtExpr → Prop
  | .bin l .mult r => DensExpanded l ∧ DensExpanded r
  | .bin l _ r => ProductDens l ∧ ProductDens r
  | _ => True

/-- Polynomial in variable `i`: it does not occur in denominators. -/
def PolyIn (i : Nat) : CtExpr → Prop
  | .bin l .div r => PolyIn i l ∧ ¬ Has i r
  | .bin l _ r => PolyIn i l ∧ PolyIn i r
  | _ => True

/-- No variable but `i` occurs. -/
def OnlyVar (i : Nat) (e : CtExpr) : Prop := ∀ j, Has j e → j = i

/-- No addend, and no numerator of an addend, is a variable other than `i`. -/
def NoLone (i : Nat) : CtExpr → Prop
  | .var j => j = i
  | .bin l .plus r => NoLone i l ∧ NoLone i r
  | .bin l .minus r => NoLone i l ∧ NoLone i r
  | .bin l .div _ => NoLone i l
  | _ => True

/-- The point `v` with coordinate `i` moved to `t`. -/
def moved {F : Type*} (v : Nat → F) (i : Nat) (t : F) : Nat → F := fun j => if j = i then t else v j

end VM.Spec
