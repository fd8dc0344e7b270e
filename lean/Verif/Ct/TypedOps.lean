import Verif.Ct.Ops
import Verif.Rt.Scalar
/-
The operators `+ - * /` of `Ct/Ops.lean` once more, with run-time constants of any scalar type: which type the folded
constant gets, in which type the sum is computed, and what happens when it overflows.  `int` has 32 bits, `long` 64;
`float` and `double` are exact.
-/
namespace VM.Ct

/-- The scalar types of run-time constants. -/
inductive STy where
  | dbl | flt | int | long
  deriving DecidableEq, Repr

/-- Operands with run-time constants of any scalar type. -/
abbrev TMix (F : Type) := MixExpr (Scalar F)

section
variable {F : Type}

/-- `ScalarType` of an `rt_constant<ScalarType>`. -/
def styOf : Scalar F → STy
  | .dbl _ => .dbl
  | .flt _ => .flt
  | .int _ => .int
  | .long _ => .long

/-- `promote_traits<T, op, U>::result_type` for `op_plus` and `op_minus`, promote_traits.hpp 29-103: `int` and `long`
together have no specialisation and give the default numeric type. -/
def promote : STy → STy → STy
  | .dbl, _ => .dbl
  | _, .dbl => .dbl
  | .flt, _ => .flt
  | _, .flt => .flt
  | .long, .long => .long
  | .int, .int => .int
  | .int, .long => .dbl
  | .long, .int => .dbl

/-- The type in which C++ computes `t + u` and `t - u`. -/
def commonTy : STy → STy → STy
  | .dbl, _ => .dbl
  | _, .dbl => .dbl
  | .flt, _ => .flt
  | _, .flt => .flt
  | .long, _ => .long
  | _, .long => .long
  | .int, .int => .int

section
variable [Field F]

/-- The number in a constant. -/
def number : Scalar F → F
  | .dbl x => x
  | .flt x => x
  | .int n => n
  | .long n => n

/-- A constant converted to `int` or `long`.  Only ever applied to whole numbers. -/
def whole : Scalar F → Int
  | .int n => n
  | .long n => n
  | _ => 0

/-- `s + t` or `s - t` (`neg`), computed in the type `ty`; overflow of a whole number is undefined. -/
def arith (neg : Bool) (ty : STy) (s t : Scalar F) : Res (Scalar F) :=
  match ty with
  | .dbl => .ok (.dbl (if neg then number s - number t else number s + number t))
  | .flt => .ok (.flt (if neg then number s - number t else number s + number t))
  | .long =>
    let n := if neg then whole s - whole t else whole s + whole t
    if InLong n then .ok (.long n) else .ub
  | .int =>
    let n := if neg then whole s - whole t else whole s + whole t
    if InInt n then .ok (.int n) else .ub

/-- The initialisation of an `rt_constant<ty>` (runtime/constant.hpp 45).  A conversion that loses digits is not
defined here; it does not occur. -/
def stored : STy → Scalar F → Res (Scalar F)
  | .dbl, s => .ok (.dbl (number s))
  | .flt, .dbl _ => .ub
  | .flt, s => .ok (.flt (number s))
  | .long, .int n => .ok (.long n)
  | .long, .long n => .ok (.long n)
  | .int, .int n => .ok (.int n)
  | _, _ => .ub

/-- The folded constant, e.g. `ret_constant(static_cast<ScalarType>(lhs) + static_cast<OtherScalarType>(other.lhs()))`,
runtime/operations/constant.hpp 45-49. -/
def foldC (neg : Bool) (s t : Scalar F) : Res (Scalar F) :=
  (arith neg (commonTy (styOf s) (styOf t)) s t).bind (stored (promote (styOf s) (styOf t)))

end

/-- Whether the two objects have the same C++ type. -/
def sameTypeT : TMix F → TMix F → Bool
  | .const n, .const m => n == m
  | .rc c, .rc d => styOf c == styOf d
  | .var i, .var j => i == j
  | .fsym s, .fsym t => s == t
  | .bin l o r, .bin l' o' r' => sameTypeT l l' && o == o' && sameTypeT r r'
  | _, _ => false

/-- What an operator does: it is not accepted (`none`), or it returns something when it is executed. -/
abbrev TBuilt (F : Type) := Option (Res (Built (Scalar F)))

/-- An expression with a folded constant. -/
def folded (c : Res (Scalar F)) (f : TMix F → TMix F) : TBuilt F :=
  some (c.map fun c => .ct (f (.rc c)))

/-- As `withMixed`: the overloads that write `value + other.lhs()`. -/
def foldedMixed (folds : Bool) (c : Res (Scalar F)) (f : TMix F → TMix F) : TBuilt F :=
  if folds then folded c f else none

variable [Field F]

/-- `operator+`, as `opAdd`: ct_variable.hpp 37-47, ct_constant.hpp 36-100, ct_expr.hpp 36-77, constant.hpp 38-130. -/
def tAdd (folds : Bool) (a b : TMix F) : TBuilt F :=
  match a, b with
  -- c1 + (c2 ± X), constant.hpp 38-99
  | .rc c, .bin (.rc d) .plus x => folded (foldC false c d) fun k => .bin k .plus x
  | .rc c, .bin (.const n) .plus x => folded (foldC false c (.long n)) fun k => .bin k .plus x
  | .rc c, .bin (.rc d) .minus x => folded (foldC false c d) fun k => .bin k .minus x
  | .rc c, .bin (.const n) .minus x => folded (foldC false c (.long n)) fun k => .bin k .minus x
  -- (ct_c1 + X) + c2, constant.hpp 103-115
  | .bin (.const n) .plus x, .rc c => folded (foldC false (.long n) c) fun k => .bin k .plus x
  -- (ct_c1 - X) + c2, constant.hpp 118-130: the constant that is built has the type of c2, the one that is
  -- declared to be returned the default numeric type
  | .bin (.const n) .minus x, .rc c =>
    if styOf c = .dbl then foldedMixed folds (foldC false (.long n) c) fun k => .bin k .minus x else none
  -- ct_c1 + (c2 ± X), ct_constant.hpp 36-91
  | .const n, .bin (.rc c) .plus x => foldedMixed folds (foldC false (.long n) c) fun k => .bin k .plus x
  | .const n, .bin (.const m) .plus x => (withConst (fit (n + m)) fun k => .bin k .plus x).map .ok
  | .const n, .bin (.rc c) .minus x => foldedMixed folds (foldC false (.long n) c) fun k => .bin k .minus x
  | .const n, .bin (.const m) .minus x => (withConst (fit (n + m)) fun k => .bin k .minus x).map .ok
  -- ct_c1 + ct_c2, ct_constant.hpp 94-100
  | .const n, .const m => (withConst (fit (n + m)) fun k => k).map .ok
  -- (c1 ± X) + ct_c2, ct_expr.hpp 36-77
  | .bin (.const n) .plus x, .const m => (withConst (fit (n + m)) fun k => .bin k .plus x).map .ok
  | .bin (.const n) .minus x, .const m => (withConst (fit (n + m)) fun k => .bin k .minus x).map .ok
  | .bin (.rc c) .minus x, .const m => folded (foldC false c (.long m)) fun k => .bin k .minus x
  -- x + x, ct_variable.hpp 37-47
  | .var i, .var j =>
    if i = j then some (.ok (.ct (.bin (.const 2) .mult (.var i)))) else (opGeneric (.var i) .plus (.var j)).map .ok
  | a, b => (opGeneric a .plus b).map .ok

/-- `operator-`, as `opSub`: ct_variable.hpp 52-58, ct_constant.hpp 106-170, ct_expr.hpp 82-147, constant.hpp
137-198. -/
def tSub (folds : Bool) (a b : TMix F) : TBuilt F :=
  match a, b with
  -- c1 - (c2 ± X), constant.hpp 137-198
  | .rc c, .bin (.rc d) .plus x => folded (foldC true c d) fun k => .bin k .minus x
  | .rc c, .bin (.const n) .plus x => folded (foldC true c (.long n)) fun k => .bin k .minus x
  | .rc c, .bin (.rc d) .minus x => folded (foldC true c d) fun k => .bin k .plus x
  | .rc c, .bin (.const n) .minus x => folded (foldC true c (.long n)) fun k => .bin k .plus x
  -- ct_c1 - (c2 ± X), ct_constant.hpp 106-161
  | .const n, .bin (.rc c) .plus x => foldedMixed folds (foldC true (.long n) c) fun k => .bin k .minus x
  | .const n, .bin (.const m) .plus x => (withConst (fit (n - m)) fun k => .bin k .minus x).map .ok
  | .const n, .bin (.rc c) .minus x => foldedMixed folds (foldC true (.long n) c) fun k => .bin k .plus x
  | .const n, .bin (.const m) .minus x => (withConst (fit (n - m)) fun k => .bin k .plus x).map .ok
  -- ct_c1 - ct_c2, ct_constant.hpp 164-170
  | .const n, .const m => (withConst (fit (n - m)) fun k => k).map .ok
  -- (x + X) - x, ct_expr.hpp 82-88
  | .bin (.var i) .plus x, .var j =>
    if i = j then some (.ok (.ct x)) else (opGeneric (.bin (.var i) .plus x) .minus (.var j)).map .ok
  -- (c1 ± X) - ct_c2, ct_expr.hpp 92-147
  | .bin (.const n) .plus x, .const m => (withConst (fit (n - m)) fun k => .bin k .plus x).map .ok
  | .bin (.rc c) .plus x, .const m => folded (foldC true c (.long m)) fun k => .bin k .plus x
  | .bin (.const n) .minus x, .const m => (withConst (fit (n - m)) fun k => .bin k .minus x).map .ok
  | .bin (.rc c) .minus x, .const m => folded (foldC true c (.long m)) fun k => .bin k .minus x
  -- x - x, ct_variable.hpp 52-58
  | .var i, .var j => if i = j then some (.ok (.ct (.const 0))) else (opGeneric (.var i) .minus (.var j)).map .ok
  | a, b => (opGeneric a .minus b).map .ok

omit [Field F] in
/-- `operator*`, as `opMul`: ct_constant.hpp 177-183. -/
def tMul (a b : TMix F) : TBuilt F :=
  match a, b with
  | .const n, .const m => (withConst (fit (n * m)) fun k => k).map .ok
  | a, b => (opGeneric a .mult b).map .ok

omit [Field F] in
/-- `operator/`, as `opDiv`: ct_variable.hpp 68-74, ct_expr.hpp 158-164. -/
def tDiv (a b : TMix F) : TBuilt F :=
  match a, b with
  | .var i, .var j => if i = j then some (.ok (.ct (.const 1))) else (opGeneric (.var i) .div (.var j)).map .ok
  | .bin l o r, .bin l' o' r' =>
    if sameTypeT (.bin l o r) (.bin l' o' r') then some (.ok (.ct (.const 1)))
    else (opGeneric (.bin l o r) .div (.bin l' o' r')).map .ok
  | a, b => (opGeneric a .div b).map .ok

end
end VM.Ct
