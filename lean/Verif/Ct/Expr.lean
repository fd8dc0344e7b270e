/-
Compile-time expressions: the types built from `ct_constant`, `ct_variable`, `ct_function_symbol` and
`ct_binary_expr`.  A value of such a type carries no data, so the model is the type itself.
-/
namespace VM.Ct

/-- The operation tags of `ct_binary_expr`: compiletime/binary_op_tags.hpp 37-107.  The parameter
`NumericT` is always the default one. -/
inductive COp
  | plus | minus | mult | div
  deriving DecidableEq, Repr

/-- compiletime/ct_constant.hpp 34 (`long value_`), ct_variable.hpp 159 (`id_type id`),
ct_function_symbol.hpp 75 (the tag), ct_binary_expr.hpp 39.  `ct_unary_expr` is left out: no operator of the
library builds one from a compile-time operand. -/
inductive CtExpr
  | const (n : Int)
  | var (i : Nat)
  | fsym (t : Nat)
  | bin (l : CtExpr) (op : COp) (r : CtExpr)
  deriving DecidableEq, Repr

namespace CtExpr
@[match_pattern] abbrev add (l r : CtExpr) : CtExpr := .bin l .plus r
@[match_pattern] abbrev sub (l r : CtExpr) : CtExpr := .bin l .minus r
@[match_pattern] abbrev mul (l r : CtExpr) : CtExpr := .bin l .mult r
@[match_pattern] abbrev quot (l r : CtExpr) : CtExpr := .bin l .div r
end CtExpr

scoped infixl:65 " +' " => CtExpr.add
scoped infixl:65 " -' " => CtExpr.sub
scoped infixl:70 " *' " => CtExpr.mul
scoped infixl:70 " /' " => CtExpr.quot
scoped prefix:max "♯" => CtExpr.const

/-! ### Integer constant expressions -/

/-- Range of `long` (64 bit). -/
def InLong (x : Int) : Prop := -2 ^ 63 ≤ x ∧ x < 2 ^ 63

/-- Range of `int` (32 bit). -/
def InInt (x : Int) : Prop := -2 ^ 31 ≤ x ∧ x < 2 ^ 31

instance (x : Int) : Decidable (InLong x) := inferInstanceAs (Decidable (_ ∧ _))
instance (x : Int) : Decidable (InInt x) := inferInstanceAs (Decidable (_ ∧ _))

/-- A constant expression of type `long` in a template argument: its value, or none when a step overflows
(then it is not a constant expression and the program does not compile). -/
abbrev CExp := Option Int

/-- The result of one arithmetic step on `long`. -/
def fit (x : Int) : CExp := if InLong x then some x else none

def cadd (x y : CExp) : CExp := x.bind fun a => y.bind fun b => fit (a + b)
def csub (x y : CExp) : CExp := x.bind fun a => y.bind fun b => fit (a - b)
def cmul (x y : CExp) : CExp := x.bind fun a => y.bind fun b => fit (a * b)

/-- What happens to a `long` that initialises a `static const int`. -/
abbrev Conv := Int → CExp

/-- Two's complement wrap-around to 32 bits, as every compiler in use does it. -/
def narrow : Conv := fun x => some ((x + 2 ^ 31) % 2 ^ 32 - 2 ^ 31)

/-- Narrowing that is only accepted when it does not change the number.  Used to say "no constant left
the range of `int`". -/
def strict : Conv := fun x => if InInt x then some x else none

/-- `result_of::gcd<a, b>::value`, forwards.h 657-675; `%` is the remainder of truncated division.
The first argument bounds the number of instantiations, see `gcdC_eq`. -/
def gcdN (conv : Conv) : Nat → Int → Int → CExp
  | 0, _, _ => none
  | k + 1, a, b =>
    if b = 0 then (if a = 0 then none else conv a)
    else if a = -2 ^ 63 ∧ b = -1 then none
    else gcdN conv k b (a.tmod b)

/-- `result_of::gcd<a, b>::value`. -/
def gcdC (conv : Conv) (a b : Int) : CExp := gcdN conv (b.natAbs + 1) a b

/-- `a / b` with operands of type `int`. -/
def idiv (a b : Int) : CExp :=
  if b = 0 then none else if InInt (a.tdiv b) then some (a.tdiv b) else none

/-- `a / b` with `a` of type `long`. -/
def ldiv (a b : Int) : CExp := if b = 0 then none else fit (a.tdiv b)

/-- The end of the rational rules of simplify.hpp 355-604: `static const int numerator`,
`static const int denominator`, both divided by `gcd<numerator, denominator>::value`. -/
def frac (conv : Conv) (num den : CExp) : Option CtExpr :=
  num.bind fun n => den.bind fun d => (conv n).bind fun n => (conv d).bind fun d =>
  (gcdC conv n d).bind fun g => (idiv n g).bind fun n' => (idiv d g).bind fun d' =>
  some (♯n' /' ♯d')

end VM.Ct
