import Verif.Ct.Expr
import Verif.Rt.Eval
/-
Evaluating compile-time expression objects at run time, and converting them to run-time expressions.
`none` means: does not compile.
-/
namespace VM.Ct
variable {K : Type} [Num K]

/-- Evaluation order oracle for `OP::apply(lhs_(v), rhs_(v))`: whether the left operand comes first. -/
abbrev CtOrder := CtExpr → CtExpr → Bool

/-- The run-time operation of a tag: `op_binary<OP, InterfaceType>`, runtime/op_interface.hpp. -/
def COp.toRt : COp → BOp
  | .plus => .plus
  | .minus => .minus
  | .mult => .mult
  | .div => .div

/-- `OP::apply` of the tags, binary_op_tags.hpp 44-98. -/
def COp.apply : COp → K → K → K
  | .plus => Num.add
  | .minus => Num.sub
  | .mult => Num.mul
  | .div => Num.div

/-- Does `e(v)` compile?  `ct_function_symbol` has no `operator()` (ct_function_symbol.hpp 74-81). -/
def callable : CtExpr → Bool
  | .fsym _ => false
  | .bin l _ r => callable l && callable r
  | _ => true

/-- `e(v)` for a `std::vector` `v`: ct_constant.hpp 46 (with the conversion to `long` 49 and on to the
numeric type), ct_variable.hpp 193-200, ct_binary_expr.hpp 65-70.  The value for a function symbol is
irrelevant: the call does not compile, see `ctCall`. -/
def callAux (o : CtOrder) (v : List K) : CtExpr → Res K
  | .const n => .ok (Num.lit n)
  | .var i =>
    if v.length ≤ i then .throw (.indexOutOfBounds i v.length)
    else match v[i]? with
      | some x => .ok x
      | none => .ub
  | .fsym _ => .ub
  | .bin l op r => Res.both (o l r) (callAux o v l) (callAux o v r) fun x y => .ok (op.apply x y)

/-- `e(v)` for a `std::vector` `v`. -/
def ctCall (o : CtOrder) (v : List K) (e : CtExpr) : Option (Res K) :=
  if callable e then some (callAux o v e) else none

/-- `e(c)` for an `rt_constant` `c` with value `s`: ct_variable.hpp 177-183, otherwise as above. -/
def callConstAux (o : CtOrder) (s : K) : CtExpr → Res K
  | .const n => .ok (Num.lit n)
  | .var i => if i > 0 then .throw (.indexOutOfBounds i 0) else .ok s
  | .fsym _ => .ub
  | .bin l op r =>
    Res.both (o l r) (callConstAux o s l) (callConstAux o s r) fun x y => .ok (op.apply x y)

/-- `e(c)` for an `rt_constant` `c` with value `s`. -/
def ctCallConst (o : CtOrder) (s : K) (e : CtExpr) : Option (Res K) :=
  if callable e then some (callConstAux o s e) else none

/-- The constructors of `rt_binary_expr` from a `ct_binary_expr`, runtime/binary_expr.hpp 64-137, in the order
of the source but the most special first; an `rt_binary_expr` cannot be constructed from a leaf. -/
def binFrom : CtExpr → Option (Expr K)
  -- 91-97
  | .bin (.const a) op (.const b) => some (.bin op.toRt (.const (Num.lit a)) (.const (Num.lit b)))
  -- 116-122
  | .bin (.var i) op (.var j) => some (.bin op.toRt (.var i) (.var j))
  -- 125-131
  | .bin (.var i) op (.const b) => some (.bin op.toRt (.var i) (.const (Num.lit b)))
  -- 133-139
  | .bin (.const a) op (.var j) => some (.bin op.toRt (.const (Num.lit a)) (.var j))
  -- 75-81
  | .bin l op (.const b) => (binFrom l).map fun l' => .bin op.toRt l' (.const (Num.lit b))
  -- 83-89
  | .bin (.const a) op r => (binFrom r).map fun r' => .bin op.toRt (.const (Num.lit a)) r'
  -- 100-106
  | .bin l op (.var j) => (binFrom l).map fun l' => .bin op.toRt l' (.var j)
  -- 108-114
  | .bin (.var i) op r => (binFrom r).map fun r' => .bin op.toRt (.var i) r'
  -- 65-71
  | .bin l op r => (binFrom l).bind fun l' => (binFrom r).map fun r' => .bin op.toRt l' r'
  | .const _ => none
  | .var _ => none
  | .fsym _ => none

/-- The constructors of `rt_expr` from compile-time expressions, runtime/expr.hpp 64-104: there is none for
function symbols.  `traits::clone` (runtime/operations/rt_rt.hpp 41, 47, 62), used by the operators that mix
run-time and compile-time operands, builds the same. -/
def toRt : CtExpr → Option (Expr K)
  | .const n => some (.const (Num.lit n))
  | .var i => some (.var i)
  | .fsym _ => none
  | .bin l op r => binFrom (.bin l op r)

/-- The assignments to an `rt_expr`, runtime/expr.hpp 136-181.  The one for variables (161-166) builds an
`rt_constant` whose number would be of the abstract interface type, which does not compile. -/
def exprAssign : CtExpr → Option (Expr K)
  | .var _ => none
  | e => toRt e

/-- The assignments to an `rt_binary_expr`, runtime/binary_expr.hpp 156-229: unlike the constructors there are
no versions for variables, and two constants are combined under the unary identity operation. -/
def binAssign : CtExpr → Option (Expr K)
  -- 188-197
  | .bin (.const a) op (.const b) =>
    some (.bin .uid (.const (op.apply (Num.lit a) (Num.lit b))) (.const (op.apply (Num.lit a) (Num.lit b))))
  -- 166-175
  | .bin l op (.const b) => (binFrom l).map fun l' => .bin op.toRt l' (.const (Num.lit b))
  -- 177-186
  | .bin (.const a) op r => (binFrom r).map fun r' => .bin op.toRt (.const (Num.lit a)) r'
  -- 157-164
  | .bin l op r => (binFrom l).bind fun l' => (binFrom r).map fun r' => .bin op.toRt l' r'
  -- 217-229
  | .const n => some (.bin .uid (.const (Num.lit n)) (.const (Num.lit n)))
  | .var _ => none
  | .fsym _ => none

end VM.Ct
