import Verif.Spec.Ct
/-
Vocabulary of C111.
-/
namespace VM.Spec
open VM.Ct

/-- The numbers of the expression are of type `long`, as template arguments of `ct_constant` are. -/
def Longs : CtExpr → Prop
  | .const a => InLong a
  | .bin l _ r => Longs l ∧ Longs r
  | _ => True

/-- What becomes of a number that leaves the range of `int` is left open; it is an `int`. -/
def GivesInt (cv : Conv) : Prop := ∀ x y, cv x = some y → InInt y

/-- The height of the expression; 1 for a leaf. -/
def ctHeight : CtExpr → Nat
  | .bin l _ r => max (ctHeight l) (ctHeight r) + 1
  | _ => 1

/-- `((x + x) + x) + ... + x`, with that many additions. -/
def ctSums : Nat → CtExpr
  | 0 => .var 0
  | n + 1 => ctSums n +' .var 0

end VM.Spec
