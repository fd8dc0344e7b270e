import Verif.Ct.TypedOps
import Verif.Spec.CtOps
/-
What folding constants of several scalar types should do.
-/
namespace VM.Spec
open VM.Ct
variable {F : Type} [Field F]

/-- The number in a constant. -/
def exactly : Scalar F → F
  | .dbl x => x
  | .flt x => x
  | .int n => n
  | .long n => n

/-- The operand with the types of its constants forgotten. -/
def forget : TMix F → MixExpr F
  | .const n => .const n
  | .rc c => .rc (exactly c)
  | .var i => .var i
  | .fsym t => .fsym t
  | .bin l op r => .bin (forget l) op (forget r)

/-- The same for what an operator returns. -/
def forgetB : Built (Scalar F) → Built F
  | .ct e => .ct (forget e)
  | .rt l op r => .rt (forget l) op (forget r)

omit [Field F] in
/-- The sum or difference (`neg`) of two whole constants is outside the range of the type C++ computes it in. -/
def Overflows (neg : Bool) : Scalar F → Scalar F → Prop
  | .int n, .int m => ¬ InInt (if neg then n - m else n + m)
  | .int n, .long m => ¬ InLong (if neg then n - m else n + m)
  | .long n, .int m => ¬ InLong (if neg then n - m else n + m)
  | .long n, .long m => ¬ InLong (if neg then n - m else n + m)
  | _, _ => False

omit [Field F] in
/-- The constant an operand is, or starts with. -/
def leading : TMix F → Option (Scalar F)
  | .const n => some (.long n)
  | .rc c => some c
  | .bin (.const n) _ _ => some (.long n)
  | .bin (.rc c) _ _ => some c
  | _ => none

omit [Field F] in
/-- Every run-time constant satisfies `p`. -/
def EachRc (p : Scalar F → Prop) : TMix F → Prop
  | .rc c => p c
  | .bin l _ r => EachRc p l ∧ EachRc p r
  | _ => True

omit [Field F] in
/-- The operand with constants of type `double`. -/
def doubles : MixExpr F → TMix F
  | .const n => .const n
  | .rc c => .rc (.dbl c)
  | .var i => .var i
  | .fsym t => .fsym t
  | .bin l op r => .bin (doubles l) op (doubles r)

omit [Field F] in
/-- The same for what an operator returns. -/
def doublesB : Built F → Built (Scalar F)
  | .ct e => .ct (doubles e)
  | .rt l op r => .rt (doubles l) op (doubles r)

omit [Field F] in
/-- Two operands are of the same C++ type: they differ in the numbers in run-time constants at most. -/
inductive OneType : TMix F → TMix F → Prop
  | const (n : Int) : OneType (.const n) (.const n)
  | dbl (x y : F) : OneType (.rc (.dbl x)) (.rc (.dbl y))
  | flt (x y : F) : OneType (.rc (.flt x)) (.rc (.flt y))
  | int (n m : Int) : OneType (.rc (.int n)) (.rc (.int m))
  | long (n m : Int) : OneType (.rc (.long n)) (.rc (.long m))
  | var (i : Nat) : OneType (.var i) (.var i)
  | fsym (t : Nat) : OneType (.fsym t) (.fsym t)
  | bin {l l' r r' : TMix F} (op : COp) : OneType l l' → OneType r r' → OneType (.bin l op r) (.bin l' op r')

end VM.Spec
