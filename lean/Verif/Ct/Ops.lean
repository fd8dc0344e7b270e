import Verif.Ct.Expr
import Mathlib.Algebra.Field.Defs
/-
The operators `+ - * /` on constants, variables and compile-time expressions.

Operands: everything a user can write with `ct_constant`, `ct_variable`, `ct_function_symbol`,
`rt_constant` and the results of the operators that are again compile-time expressions.  Run-time expression
objects as operands only ever reach the generic operator, which builds a plain node of copies
(runtime/operations/rt_rt.hpp 69-112), and are not modelled here.  All run-time constants have the default
scalar type; its arithmetic is that of a field (no rounding).
-/
namespace VM.Ct

/-- Compile-time expressions that may contain run-time constants: the overloads below return
`ct_binary_expr<rt_constant<...>, op, X>` objects, which carry the constant in the object
(forwards.h 709-712). -/
inductive MixExpr (F : Type*)
  | const (n : Int)
  /-- an `rt_constant` object, runtime/constant.hpp 38-64 -/
  | rc (c : F)
  | var (i : Nat)
  | fsym (t : Nat)
  | bin (l : MixExpr F) (op : COp) (r : MixExpr F)
  deriving DecidableEq, Repr

namespace MixExpr
variable {F : Type*}

/-- Whether the two objects have the same C++ type: the values of run-time constants are not part of it. -/
def sameType : MixExpr F → MixExpr F → Bool
  | .const n, .const m => n == m
  | .rc _, .rc _ => true
  | .var i, .var j => i == j
  | .fsym s, .fsym t => s == t
  | .bin l o r, .bin l' o' r' => sameType l l' && o == o' && sameType r r'
  | _, _ => false

/-- The type has a default constructor: `rt_constant` has none (runtime/constant.hpp 45-52), so a
`ct_binary_expr` (ct_binary_expr.hpp 51) with one inside has none either. -/
def defaultable : MixExpr F → Bool
  | .rc _ => false
  | .bin l _ r => defaultable l && defaultable r
  | _ => true

/-- `result_of::is_compiletime`, forwards.h 508-560. -/
def isCompiletime : MixExpr F → Bool
  | .rc _ => false
  | _ => true

/-- All leaves are compile-time constants or variables, the trees `rt_binary_expr` can be constructed from
(runtime/binary_expr.hpp 64-137). -/
def plainLeaves : MixExpr F → Bool
  | .const _ => true
  | .var _ => true
  | .rc _ => false
  | .fsym _ => false
  | .bin l _ r => plainLeaves l && plainLeaves r

/-- `traits::clone` accepts the operand, rt_rt.hpp 34-66: there is no version for `ct_function_symbol`. -/
def cloneable : MixExpr F → Bool
  | .rc _ => true
  | e => plainLeaves e

end MixExpr

/-- What an operator returns: a compile-time object, or a run-time node holding copies of the operands. -/
inductive Built (F : Type*)
  | ct (e : MixExpr F)
  | rt (l : MixExpr F) (op : COp) (r : MixExpr F)
  deriving DecidableEq, Repr

section
variable {F : Type*} [Field F]
open MixExpr

/-- The generic operators forwards.h 720-761 with `result_of::add` etc.: ct_ct.hpp 36-84 when both operands
are compile-time (the operands' types are all that is used: the result is default constructed), rt_rt.hpp
72-124 otherwise. -/
def opGeneric (a : MixExpr F) (op : COp) (b : MixExpr F) : Option (Built F) :=
  if a.isCompiletime && b.isCompiletime then
    if a.defaultable && b.defaultable then some (.ct (.bin a op b)) else none
  else if a.cloneable && b.cloneable then some (.rt a op b) else none

/-- A compile-time constant in a result type, and what is built with it. -/
def withConst (x : CExp) (f : MixExpr F → MixExpr F) : Option (Built F) :=
  x.map fun n => .ct (f (.const n))

/-- The overloads that combine a `long` with an `rt_constant` object by `value + other.lhs()` (not with the
number inside): ct_constant.hpp 48, 76, 118, 148, constant.hpp 128.  With the generic operator in scope the
inner sum is a run-time node that does not convert back to a number, so the overload does not compile
(`folds = false`); were the object converted to a number first, it would be their sum (`folds = true`).
What follows is proved for both readings. -/
def withMixed (folds : Bool) (e : MixExpr F) : Option (Built F) :=
  if folds then some (.ct e) else none

/-- `operator+`: ct_variable.hpp 37-47, ct_constant.hpp 36-100, ct_expr.hpp 36-77, constant.hpp 38-130,
generic otherwise.  No two of the special overloads accept the same operands. -/
def opAdd (folds : Bool) (a b : MixExpr F) : Option (Built F) :=
  match a, b with
  -- c1 + (c2 ± X), constant.hpp 38-99
  | .rc c, .bin (.rc d) .plus x => some (.ct (.bin (.rc (c + d)) .plus x))
  | .rc c, .bin (.const n) .plus x => some (.ct (.bin (.rc (c + n)) .plus x))
  | .rc c, .bin (.rc d) .minus x => some (.ct (.bin (.rc (c + d)) .minus x))
  | .rc c, .bin (.const n) .minus x => some (.ct (.bin (.rc (c + n)) .minus x))
  -- (ct_c1 ± X) + c2, constant.hpp 103-130
  | .bin (.const n) .plus x, .rc c => some (.ct (.bin (.rc (n + c)) .plus x))
  | .bin (.const n) .minus x, .rc c => withMixed folds (.bin (.rc (n + c)) .minus x)
  -- ct_c1 + (c2 ± X), ct_constant.hpp 36-91
  | .const n, .bin (.rc c) .plus x => withMixed folds (.bin (.rc (n + c)) .plus x)
  | .const n, .bin (.const m) .plus x => withConst (fit (n + m)) fun k => .bin k .plus x
  | .const n, .bin (.rc c) .minus x => withMixed folds (.bin (.rc (n + c)) .minus x)
  | .const n, .bin (.const m) .minus x => withConst (fit (n + m)) fun k => .bin k .minus x
  -- ct_c1 + ct_c2, ct_constant.hpp 94-100
  | .const n, .const m => withConst (fit (n + m)) fun k => k
  -- (c1 ± X) + ct_c2, ct_expr.hpp 36-77
  | .bin (.const n) .plus x, .const m => withConst (fit (n + m)) fun k => .bin k .plus x
  | .bin (.const n) .minus x, .const m => withConst (fit (n + m)) fun k => .bin k .minus x
  | .bin (.rc c) .minus x, .const m => some (.ct (.bin (.rc (c + m)) .minus x))
  -- x + x, ct_variable.hpp 37-47
  | .var i, .var j =>
    if i = j then some (.ct (.bin (.const 2) .mult (.var i))) else opGeneric (.var i) .plus (.var j)
  | a, b => opGeneric a .plus b

/-- `operator-`: ct_variable.hpp 52-58, ct_constant.hpp 106-170, ct_expr.hpp 82-147, constant.hpp 137-198. -/
def opSub (folds : Bool) (a b : MixExpr F) : Option (Built F) :=
  match a, b with
  -- c1 - (c2 ± X), constant.hpp 137-198
  | .rc c, .bin (.rc d) .plus x => some (.ct (.bin (.rc (c - d)) .minus x))
  | .rc c, .bin (.const n) .plus x => some (.ct (.bin (.rc (c - n)) .minus x))
  | .rc c, .bin (.rc d) .minus x => some (.ct (.bin (.rc (c - d)) .plus x))
  | .rc c, .bin (.const n) .minus x => some (.ct (.bin (.rc (c - n)) .plus x))
  -- ct_c1 - (c2 ± X), ct_constant.hpp 106-161
  | .const n, .bin (.rc c) .plus x => withMixed folds (.bin (.rc (n - c)) .minus x)
  | .const n, .bin (.const m) .plus x => withConst (fit (n - m)) fun k => .bin k .minus x
  | .const n, .bin (.rc c) .minus x => withMixed folds (.bin (.rc (n - c)) .plus x)
  | .const n, .bin (.const m) .minus x => withConst (fit (n - m)) fun k => .bin k .plus x
  -- ct_c1 - ct_c2, ct_constant.hpp 164-170
  | .const n, .const m => withConst (fit (n - m)) fun k => k
  -- (x + X) - x, ct_expr.hpp 82-88
  | .bin (.var i) .plus x, .var j =>
    if i = j then some (.ct x) else opGeneric (.bin (.var i) .plus x) .minus (.var j)
  -- (c1 ± X) - ct_c2, ct_expr.hpp 92-147
  | .bin (.const n) .plus x, .const m => withConst (fit (n - m)) fun k => .bin k .plus x
  | .bin (.rc c) .plus x, .const m => some (.ct (.bin (.rc (c - m)) .plus x))
  | .bin (.const n) .minus x, .const m => withConst (fit (n - m)) fun k => .bin k .minus x
  | .bin (.rc c) .minus x, .const m => some (.ct (.bin (.rc (c - m)) .minus x))
  -- x - x, ct_variable.hpp 52-58
  | .var i, .var j => if i = j then some (.ct (.const 0)) else opGeneric (.var i) .minus (.var j)
  | a, b => opGeneric a .minus b

/-- `operator*`: ct_constant.hpp 177-183, generic otherwise. -/
def opMul (a b : MixExpr F) : Option (Built F) :=
  match a, b with
  | .const n, .const m => withConst (fit (n * m)) fun k => k
  | a, b => opGeneric a .mult b

/-- `operator/`: ct_variable.hpp 68-74, ct_expr.hpp 158-164 (two binary expressions of the same type),
generic otherwise. -/
def opDiv (a b : MixExpr F) : Option (Built F) :=
  match a, b with
  | .var i, .var j => if i = j then some (.ct (.const 1)) else opGeneric (.var i) .div (.var j)
  | .bin l o r, .bin l' o' r' =>
    if sameType (.bin l o r) (.bin l' o' r') then some (.ct (.const 1))
    else opGeneric (.bin l o r) .div (.bin l' o' r')
  | a, b => opGeneric a .div b

end
end VM.Ct
