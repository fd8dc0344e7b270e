import Verif.Ct.Written
/-
What a formula means: plain real arithmetic.
-/
namespace VM.Spec
open VM.Ct
open Classical

/-- The mathematical functions where they are defined. -/
noncomputable def realFn : Fn → ℝ → Option ℝ
  | .id, x => some x
  | .exp, x => some (Real.exp x)
  | .sin, x => some (Real.sin x)
  | .cos, x => some (Real.cos x)
  | .tan, x => if Real.cos x = 0 then none else some (Real.tan x)
  | .fabs, x => some |x|
  | .sqrt, x => if 0 ≤ x then some (Real.sqrt x) else none
  | .log, x => if 0 < x then some (Real.log x) else none
  | .log10, x => if 0 < x then some (Real.log x / Real.log 10) else none

/-- The value of a formula at a point, `none` where it is not defined. -/
noncomputable def meaning (p : List ℝ) : Written → Option ℝ
  | .num x => some x
  | .rc x => some x
  | .cc n => some n
  | .cv i => p[i]?
  | .rv i => p[i]?
  | .expr t => meaning p t
  | .bin op a b => (meaning p a).bind fun x => (meaning p b).bind fun y => match op with
    | .plus => some (x + y)
    | .minus => some (x - y)
    | .mult => some (x * y)
    | .div => if y = 0 then none else some (x / y)
  | .fn f t => (meaning p t).bind (realFn f)

/-- The formula contains no run-time constant outside of `expr(...)` and function calls. -/
def NoConstant : Written → Prop
  | .rc _ => False
  | .bin _ a b => NoConstant a ∧ NoConstant b
  | _ => True

/-- Of each quotient, numerator or denominator contains no run-time constant. -/
def PlainQuotients : Written → Prop
  | .bin .div a b => (NoConstant a ∨ NoConstant b) ∧ PlainQuotients a ∧ PlainQuotients b
  | .bin _ a b => PlainQuotients a ∧ PlainQuotients b
  | .expr t => PlainQuotients t
  | .fn _ t => PlainQuotients t
  | _ => True

/-- The formula consists of numbers (`double`), run-time variables, `expr(...)`, operators and functions (other
than the identity, which has no name in the library). -/
def RunTime : Written → Prop
  | .num _ | .rv _ => True
  | .rc _ | .cc _ | .cv _ => False
  | .expr t => RunTime t
  | .bin _ a b => RunTime a ∧ RunTime b
  | .fn f t => f ≠ .id ∧ RunTime t

/-- The formula is a number. -/
def IsNumber : Written → Prop
  | .num _ => True
  | .bin _ a b => IsNumber a ∧ IsNumber b
  | .fn _ t => IsNumber t
  | _ => False

/-- The formula is a function call, but not a number. -/
def Call : Written → Prop
  | .fn _ t => ¬ IsNumber t
  | _ => False

/-- Somewhere in the formula, `exp` is applied to a function call. -/
def ExpOfCall : Written → Prop
  | .fn f t => (f = .exp ∧ Call t) ∨ ExpOfCall t
  | .bin _ a b => ExpOfCall a ∨ ExpOfCall b
  | .expr t => ExpOfCall t
  | _ => False

end VM.Spec
