import Verif.Ct.Ops
import Verif.Rt.Latex
/-
The text of compile-time expressions on a stream.  `none` means: does not compile.
-/
namespace VM.Ct
variable {F : Type}

/-- `stream << n` for a `long`. -/
def longTxt (n : Int) : Txt := if n < 0 then '-' :: idTxt n.natAbs else idTxt n.natAbs

/-- `OP().str()`, binary_op_tags.hpp 46, 64, 82, 100. -/
def COp.str : COp → Txt
  | .plus => ['+']
  | .minus => ['-']
  | .mult => ['*']
  | .div => ['/']

/-- `stream << e`: ct_constant.hpp 49-65, runtime/constant.hpp 78-83 and 140-146, ct_variable.hpp 207-212,
ct_binary_expr.hpp 79-84.  The operator for function symbols (ct_function_symbol.hpp 87-92) calls a private member
(78) of the class.  `fmt` is `stream << number`. -/
def ctStr (fmt : F → Txt) : MixExpr F → Option Txt
  | .const n => some (t!"ct_constant<" ++ (longTxt n ++ t!">"))
  | .rc c => some (t!"constant(" ++ (fmt c ++ t!")"))
  | .var i => some (t!"ct_variable<" ++ (idTxt i ++ t!">"))
  | .fsym _ => none
  | .bin l op r => (ctStr fmt l).bind fun s => (ctStr fmt r).map fun t => t!"[" ++ (s ++ (op.str ++ (t ++ t!"]")))

/-- `stream << L()`: the operand must have a default constructor (there is none for `rt_constant`). -/
def defaultStr (fmt : F → Txt) (e : MixExpr F) : Option Txt := if e.defaultable then ctStr fmt e else none

/-- `stream << make_equation(l, r)` for two compile-time objects, ct_equation.hpp 38-44. -/
def ctEquationStr (fmt : F → Txt) (l r : MixExpr F) : Option Txt :=
  (defaultStr fmt l).bind fun s => (defaultStr fmt r).map fun t => t!"ct_equation(" ++ (s ++ (t!" = " ++ (t ++ t!")")))

/-- `stream << make_interval(l, r)` for two compile-time objects, ct_interval.hpp 37-43. -/
def ctIntervalStr (fmt : F → Txt) (l r : MixExpr F) : Option Txt :=
  (defaultStr fmt l).bind fun s => (defaultStr fmt r).map fun t => t!"ct_interval(" ++ (s ++ (t!", " ++ (t ++ t!")")))

/-- The entries with separators, ct_vector.hpp 67-72, 115-121, 173-181. -/
def ctEntriesStr (fmt : F → Txt) : List (MixExpr F) → Option Txt
  | [] => some []
  | [e] => ctStr fmt e
  | e :: es => (ctStr fmt e).bind fun s => (ctEntriesStr fmt es).map fun t => s ++ (t!", " ++ t)

/-- `stream << make_vector(...)` with one to three entries, ct_vector.hpp 67-72, 115-121, 173-181. -/
def ctVectorStr (fmt : F → Txt) (es : List (MixExpr F)) : Option Txt :=
  if 1 ≤ es.length ∧ es.length ≤ 3 then (ctEntriesStr fmt es).map fun s => t!"vector<" ++ (s ++ t!">") else none

end VM.Ct
