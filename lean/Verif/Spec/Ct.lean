import Verif.Ct.Expr
import Mathlib.Algebra.Field.Defs
import Mathlib.Data.Rat.Defs
/-
What compile-time expressions mean: values in a field, given values of the variables and of the function
symbols.  Independent of the metafunctions of the library.
-/
namespace VM.Spec
open VM.Ct

section
variable {F : Type*} [Field F]

/-- The value of an expression (meaningful only where it is `CDefined`). -/
def cval (v φ : Nat → F) : CtExpr → F
  | .const n => (n : F)
  | .var i => v i
  | .fsym t => φ t
  | .bin l .plus r => cval v φ l + cval v φ r
  | .bin l .minus r => cval v φ l - cval v φ r
  | .bin l .mult r => cval v φ l * cval v φ r
  | .bin l .div r => cval v φ l / cval v φ r

/-- No division by zero occurs. -/
def CDefined (v φ : Nat → F) : CtExpr → Prop
  | .bin l .div r => CDefined v φ l ∧ CDefined v φ r ∧ cval v φ r ≠ 0
  | .bin l _ r => CDefined v φ l ∧ CDefined v φ r
  | _ => True

/-- The expression is defined and has this value. -/
def CVal (v φ : Nat → F) (e : CtExpr) (x : F) : Prop := CDefined v φ e ∧ cval v φ e = x

/-- `e'` is defined wherever `e` is, with the same value. -/
def SameVal (F : Type*) [Field F] (e e' : CtExpr) : Prop :=
  ∀ (v φ : Nat → F) (x : F), CVal v φ e x → CVal v φ e' x

end

/-- A point given by the entries of a vector of integers. -/
def point (F : Type*) [Field F] (v : List Int) (i : Nat) : F := ((v[i]?.getD 0 : Int) : F)

/-- No division in the expression. -/
def DivFree : CtExpr → Prop
  | .bin _ .div _ => False
  | .bin l _ r => DivFree l ∧ DivFree r
  | _ => True

/-- Only constants, variables and operations (no function symbols). -/
def NoSym : CtExpr → Prop
  | .fsym _ => False
  | .bin l _ r => NoSym l ∧ NoSym r
  | _ => True

/-- Variable `i` occurs. -/
def Has (i : Nat) : CtExpr → Prop
  | .var j => j = i
  | .bin l _ r => Has i l ∨ Has i r
  | _ => False

/-- The number of nodes. -/
def nodes : CtExpr → Nat
  | .bin l _ r => nodes l + nodes r + 1
  | _ => 1

/-- An integer constant equal to `q`. -/
def IsInt (e : CtExpr) (q : Rat) : Prop := ∃ n : Int, e = .const n ∧ (n : Rat) = q

/-- A quotient of two integer constants equal to `q`. -/
def IsFrac (e : CtExpr) (q : Rat) : Prop :=
  ∃ n d : Int, e = .bin (.const n) .div (.const d) ∧ d ≠ 0 ∧ (n : Rat) / d = q

/-- A quotient of two integer constants without common factor, equal to `q`. -/
def IsReduced (e : CtExpr) (q : Rat) : Prop :=
  ∃ n d : Int, e = .bin (.const n) .div (.const d) ∧ d ≠ 0 ∧ Int.gcd n d = 1 ∧ (n : Rat) / d = q

end VM.Spec
