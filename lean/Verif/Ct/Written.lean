import Verif.Ct.Ops
import Verif.Ct.Convert
import Verif.NumReal
/-
Formulas as they are written in a program, and what C++ makes of them: the static types decide which operator or
function is called.  `none` means: does not compile.

Numbers are the real numbers with an undefined value (`XReal`), run-time constants hold real numbers.  All objects
have the default interface and scalar type.
-/
namespace VM.Ct

/-- A formula in a program. -/
inductive Written where
  /-- a number of type `double` -/
  | num (x : ℝ)
  /-- `constant(x)`, an `rt_constant` -/
  | rc (x : ℝ)
  /-- `ct_constant<n>()` -/
  | cc (n : Int)
  /-- `ct_variable<i>()` -/
  | cv (i : Nat)
  /-- `variable(i)`, an `rt_variable` -/
  | rv (i : Nat)
  /-- `expr(t)`, an `rt_expr` -/
  | expr (t : Written)
  | bin (op : COp) (a b : Written)
  /-- `exp(t)`, `sin(t)`, ... -/
  | fn (f : Fn) (t : Written)

/-- The run-time classes. -/
inductive RtClass where
  | variable | unary | binary | expr | fsym
  deriving DecidableEq, Repr

/-- What a formula evaluates to in C++, with its static type: a `double`, a compile-time object or an
`rt_constant`, or an object of a run-time class. -/
inductive Value where
  | num (x : XReal)
  | mix (e : MixExpr ℝ)
  | rt (c : RtClass) (e : Expr XReal)

/-- The compile-time expression, if there is no run-time constant inside. -/
def MixExpr.toCt {F : Type*} : MixExpr F → Option CtExpr
  | .const n => some (.const n)
  | .rc _ => none
  | .var i => some (.var i)
  | .fsym t => some (.fsym t)
  | .bin l op r => l.toCt.bind fun l' => r.toCt.map fun r' => .bin l' op r'

/-- The run-time expression made from a compile-time object or an `rt_constant`: constructors of `rt_expr`
(runtime/expr.hpp 64-104) and `traits::clone` (rt_rt.hpp 34-66). -/
noncomputable def mixToRt : MixExpr ℝ → Option (Expr XReal)
  | .rc c => some (.const (some c))
  | e => e.toCt.bind toRt

/-- `traits::clone<InterfaceType>(operand)`, rt_rt.hpp 34-66, and the constructors of `rt_expr`, expr.hpp
53-118: the expression an operand becomes. -/
noncomputable def Value.clone : Value → Option (Expr XReal)
  | .num x => some (.const x)
  | .mix e => mixToRt e
  | .rt _ e => some e

/-- What the operators of Ct/Ops.lean return. -/
noncomputable def Built.value : Built ℝ → Option Value
  | .ct e => some (.mix e)
  | .rt l op r => (mixToRt l).bind fun l' => (mixToRt r).map fun r' => .rt .binary (.bin op.toRt l' r')

/-- `a op b`: the arithmetic of the language for two numbers, the overloads of Ct/Ops.lean for compile-time
objects and `rt_constant`s, otherwise the generic operator (forwards.h 720-761) with rt_rt.hpp 72-124. -/
noncomputable def operate (folds : Bool) (op : COp) : Value → Value → Option Value
  | .num x, .num y => some (.num (op.apply x y))
  | .mix a, .mix b =>
    (match op with
      | .plus => opAdd folds a b
      | .minus => opSub folds a b
      | .mult => opMul a b
      | .div => opDiv a b).bind Built.value
  | a, b => a.clone.bind fun l => b.clone.map fun r => .rt .binary (.bin op.toRt l r)

/-- `f(a)` for `f` one of `exp`, `sin`, `cos`, `tan`, `fabs`, `sqrt`, `log`, `log10`: detail/unary_operations.hpp
59-109 (exp), 124-181 (sin), 200-257 (cos), 277-334 (tan), 347-404 (fabs), 424-481 (sqrt), 496-552 (log), 576-632
(log10).  There are overloads for `rt_constant`, `rt_variable`, `ct_variable`, `ct_binary_expr`, `rt_binary_expr`,
`rt_expr` and, except for `exp`, for `rt_unary_expr`.  There is none for `ct_constant` (whether the functions of
the language accept it depends on the platform, taken as `none` here) and none for function symbols. -/
noncomputable def callFn (f : Fn) : Value → Option Value
  | .num x => if f = .id then none else some (.num (Num.fn f x))
  | .mix e => if f = .id then none else match e with
    | .rc c => some (.rt .unary (.un (.fn f) (.const (some c))))
    | .var i => some (.rt .unary (.un (.fn f) (.var i)))
    | .bin l op r => ((MixExpr.bin l op r).toCt.bind toRt).map fun e' => .rt .unary (.un (.fn f) e')
    | _ => none
  | .rt c e =>
    if f = .id then none
    else if f = .exp ∧ c = .unary then none
    else if c = .fsym then none
    else some (.rt .unary (.un (.fn f) e))

/-- The value and static type of a formula. -/
noncomputable def Written.build (folds : Bool) : Written → Option Value
  | .num x => some (.num (some x))
  | .rc x => some (.mix (.rc x))
  | .cc n => some (.mix (.const n))
  | .cv i => some (.mix (.var i))
  | .rv i => some (.rt .variable (.var i))
  | .expr t => (t.build folds).bind fun v => v.clone.map (.rt .expr)
  | .bin op a b => (a.build folds).bind fun x => (b.build folds).bind fun y => operate folds op x y
  | .fn f t => (t.build folds).bind (callFn f)

/-- `e(v)` for a `std::vector`, for compile-time objects and `rt_constant`s: as in `callAux`, and
runtime/constant.hpp 54-64 (the constant, converted to a number). -/
noncomputable def callMix (o : MixExpr ℝ → MixExpr ℝ → Bool) (p : List XReal) : MixExpr ℝ → Res XReal
  | .const n => .ok (Num.lit n)
  | .rc c => .ok (some c)
  | .var i =>
    if p.length ≤ i then .throw (.indexOutOfBounds i p.length)
    else match p[i]? with
      | some x => .ok x
      | none => .ub
  | .fsym _ => .ub
  | .bin l op r => Res.both (o l r) (callMix o p l) (callMix o p r) fun x y => .ok (op.apply x y)

/-- The number one gets at a point. -/
noncomputable def Value.at' (o : MixExpr ℝ → MixExpr ℝ → Bool) (o' : Order XReal) (p : List XReal) : Value → Res XReal
  | .num x => .ok x
  | .mix e => callMix o p e
  | .rt _ e => eval o' p e

end VM.Ct
