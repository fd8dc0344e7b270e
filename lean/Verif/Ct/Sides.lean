import Verif.Ct.Written
/-
`make_equation` and `make_interval` for operands of all types.  `none` means: does not compile.
-/
namespace VM.Ct

/-- The type of a compile-time expression: the values of run-time constants inside are not part of it. -/
def MixExpr.type {F : Type*} : MixExpr F → MixExpr Unit
  | .const n => .const n
  | .rc _ => .rc ()
  | .var i => .var i
  | .fsym t => .fsym t
  | .bin l op r => .bin l.type op r.type

/-- What is made: an `rt_equation` or `rt_interval`, which own copies of the two expressions (runtime/equation.hpp
31-55, interval.hpp 30-67), or an object of the empty class `ct_equation<L, R>` or `ct_interval<L, R>`, which has the
two types only (ct_equation.hpp 34-36, ct_interval.hpp 34-35). -/
inductive Sides where
  | rt (l r : Expr XReal)
  | ct (l r : MixExpr Unit)

/-- `rt_equation<>(lhs, rhs)`, `rt_interval<>(lhs, rhs)`: both operands are converted to `rt_expr` and copied. -/
noncomputable def bothRt (a b : Value) : Option Sides := a.clone.bind fun l => b.clone.map fun r => .rt l r

/-- `make_equation(a, b)`: runtime/equation.hpp 74-200, ct_equation.hpp 49-368. -/
noncomputable def makeEquation : Value → Value → Option Sides
  -- 82-86, 96-114; there is no overload for function symbols
  | .num _, .rt .fsym _ => none
  | .num x, .rt c e => bothRt (.num x) (.rt c e)
  -- 89-93
  | .num x, .mix (.var i) => bothRt (.num x) (.mix (.var i))
  -- the template parameter RHSType of 75-79 cannot be deduced; there is nothing else for a number
  | .num _, _ => none
  | .mix a, .mix b =>
    -- the overloads of ct_equation.hpp are more special than 167-200
    if a.isCompiletime && b.isCompiletime then some (.ct a.type b.type) else bothRt (.mix a) (.mix b)
  -- 119-164 and 167-200
  | a, b => bothRt a b

/-- `make_interval(a, b)`: runtime/interval.hpp 86-232, ct_interval.hpp 48-367. -/
noncomputable def makeInterval : Value → Value → Option Sides
  -- 86-91
  | .num x, .num y => bothRt (.num x) (.num y)
  -- 101-105, 115-133; there is no overload for function symbols
  | .num _, .rt .fsym _ => none
  | .num x, .rt c e => bothRt (.num x) (.rt c e)
  -- 108-112
  | .num x, .mix (.var i) => bothRt (.num x) (.mix (.var i))
  -- 86-91 again, the constants are converted to numbers (constant.hpp 68, ct_constant.hpp 50); the template parameter
  -- RHSType of 94-98 cannot be deduced
  | .num x, .mix (.rc c) => bothRt (.num x) (.num (some c))
  | .num x, .mix (.const n) => bothRt (.num x) (.num (Num.lit n))
  | .num _, .mix _ => none
  -- 138-142
  | .mix (.rc c), b => bothRt (.mix (.rc c)) b
  -- 153-158; the others with a compile-time operand first (195-232) do not apply, as `double` has no interface type
  | .mix (.var i), .num y => bothRt (.mix (.var i)) (.num y)
  -- 86-91 once more
  | .mix (.const n), .num y => bothRt (.num (Num.lit n)) (.num y)
  | .mix _, .num _ => none
  -- 153-158 and 227-232 are equally good
  | .mix (.var _), .rt _ _ => none
  -- 195-224
  | .mix a, .rt c e => bothRt (.mix a) (.rt c e)
  | .mix a, .mix b =>
    -- ct_interval.hpp
    if b.isCompiletime then some (.ct a.type b.type)
    else match a with
      -- 153-158 and 227-232 are equally good
      | .var _ => none
      -- 195-224
      | _ => bothRt (.mix a) (.mix b)
  -- 146-150, 162-191
  | .rt c e, b => bothRt (.rt c e) b

/-- The compile-time expression of a type, if all of it is in the type: `L()`, as used when a `ct_equation` or
`ct_interval` is printed (ct_equation.hpp 40-44, ct_interval.hpp 39-43) or integrated over (manipulation/integrate.hpp). -/
def defaultOf (t : MixExpr Unit) : Option CtExpr := t.toCt

end VM.Ct
