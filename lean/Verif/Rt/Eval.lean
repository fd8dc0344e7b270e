import Verif.Rt.Expr
/-
Evaluation, `unwrap` and `is_constant`.
-/
namespace VM
variable {K : Type} [Num K]

/-- `op_->apply(x)` of a unary node: functions return a number (unary_op_tags.hpp 38-166), the
formal operators throw a string (177-239), the symbolic integral throws
(runtime/integral.hpp 171-175). -/
def applyU : UOp → K → Res K
  | .fn f, x => .ok (applyFn f x)
  | .grad, _ => .throw .formalOp
  | .divg, _ => .throw .formalOp
  | .pd _, _ => .throw .formalOp
  | .symInt _, _ => .throw .symbolicIntegral

/-- `op_->apply(x, y)` of a binary node: binary_op_tags.hpp 36-101; a unary operator in a binary node
throws (runtime/op_interface.hpp 57, default of `apply(lhs, rhs)`). -/
def applyB : BOp → K → K → Res K
  | .plus, x, y => .ok (Num.add x y)
  | .minus, x, y => .ok (Num.sub x y)
  | .mult, x, y => .ok (Num.mul x y)
  | .div, x, y => .ok (Num.div x y)
  | .uid, _, _ => .throw .rhsForUnary

/-- Evaluation order oracle: whether the left operand is evaluated first, for given operands. -/
abbrev Order (K : Type) := Expr K → Expr K → Bool

/-- `eval(std::vector<double> const &)`: constant.hpp 70, variable.hpp 154-160,
function_symbol.hpp 73, unary_expr.hpp 200-203, integral.hpp 77-81, binary_expr.hpp 298-301,
vector_expr.hpp 117-120. -/
def eval (o : Order K) (v : List K) : Expr K → Res K
  | .const c => .ok c
  | .var i =>
    match v[i]? with
    | some x => .ok x
    | none => .throw (.indexOutOfBounds i v.length)
  | .fsym _ _ => .throw .notEvaluable
  | .un op e => (eval o v e).bind (applyU op)
  | .integ _ _ _ e => (eval o v e).bind fun _ => .throw .analyticIntegration
  | .bin op l r => Res.both (o l r) (eval o v l) (eval o v r) (applyB op)
  | .vec _ => .throw .notEvaluable

/-- `eval(numeric_type)`: constant.hpp 72, variable.hpp 163-169, function_symbol.hpp 75,
unary_expr.hpp 206-209, integral.hpp 77-81, binary_expr.hpp 303-306, vector_expr.hpp 124-127. -/
def evalS (o : Order K) (s : K) : Expr K → Res K
  | .const c => .ok c
  | .var i => if i > 0 then .throw (.indexOutOfBounds i 1) else .ok s
  | .fsym _ _ => .throw .notEvaluable
  | .un op e => (evalS o s e).bind (applyU op)
  | .integ _ _ _ e => (evalS o s e).bind fun _ => .throw .analyticIntegration
  | .bin op l r => Res.both (o l r) (evalS o s l) (evalS o s r) (applyB op)
  | .vec _ => .throw .notEvaluable

/-- `rt_variable::operator()(numeric_type)`, variable.hpp 108-113: called on the variable object itself,
only an `assert` guards the index. -/
def variableCallScalar (i : Nat) (s : K) : Res K :=
  if i = 0 then .ok s else .ub

/-- `eval(ct_variable<id>, v)`, manipulation/eval.hpp 286-290: `v[id]` without a range check. -/
def evalCtVariable (i : Nat) (v : List K) : Res K :=
  match v[i]? with
  | some x => .ok x
  | none => .ub

/-- `is_constant()`: false by default (expression_interface.hpp), constant.hpp 75,
binary_expr.hpp 366. -/
def isConst : Expr K → Bool
  | .const _ => true
  | .bin _ l r => isConst l && isConst r
  | _ => false

/-- `unwrap()`: constant.hpp 86, variable.hpp 180-183, function_symbol.hpp 93, unary_expr.hpp 264-269,
binary_expr.hpp 358-363, vector_expr.hpp 131-134. -/
def unwrap (o : Order K) : Expr K → Res K
  | .const c => .ok c
  | .var _ => .throw .notUnwrappable
  | .fsym _ _ => .throw .notUnwrappable
  | .un op e => (unwrap o e).bind (applyU op)
  | .integ _ _ _ e => (unwrap o e).bind fun _ => .throw .analyticIntegration
  | .bin op l r => Res.both (o l r) (unwrap o l) (unwrap o r) (applyB op)
  | .vec _ => .throw .notUnwrappable

end VM
