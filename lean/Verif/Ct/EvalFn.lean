import Verif.Ct.Eval
import Verif.Ct.Convert
/-
The function `eval(e, v)` for compile-time expressions `e`, with the overloads of manipulation/eval.hpp 141-312.
`none` means: does not compile.
-/
namespace VM.Ct
variable {K : Type} [Num K]

/-- An entry of a compile-time vector: a `ct_constant`, or a number. -/
inductive Entry (K : Type)
  | int (n : Int)
  | num (x : K)

/-- The entry converted to the numeric type. -/
def Entry.toNum : Entry K → K
  | .int n => Num.lit n
  | .num x => x

/-- The second argument: `ct_vector_1/2/3` (compiletime/ct_vector.hpp) with these entries, or a `std::vector`. -/
inductive Point (K : Type)
  | ct (v : List (Entry K))
  | std (v : List K)

/-- The types exist: a compile-time vector has one to three entries. -/
def Point.valid : Point K → Bool
  | .ct v => 1 ≤ v.length && v.length ≤ 3
  | .std _ => true

/-- `result_of::is_ct_vector<V>::value`, eval.hpp 62-91: all entries are compile-time constants; then these. -/
def ctEntries : List (Entry K) → Option (List Int)
  | [] => some []
  | .int n :: v => (ctEntries v).map (n :: ·)
  | .num _ :: _ => none

/-- `T()()` for the result type of a compile-time evaluation: ct_constant.hpp 43, 50 and
ct_binary_expr.hpp 57-60 (the operands are converted to the numeric type, which only constants can be). -/
def callZero : CtExpr → Option K
  | .const n => some (Num.lit n)
  | .bin (.const a) op (.const b) => some (op.apply (Num.lit a) (Num.lit b))
  | _ => none

/-- `e(v)` for a compile-time vector: ct_constant.hpp 46, ct_variable.hpp 193-200 with the specialisations of
`variable_traits` 75-121 (an index out of range does not compile), ct_binary_expr.hpp 65-70. -/
def callCt (v : List (Entry K)) : CtExpr → Option K
  | .const n => some (Num.lit n)
  | .var i => v[i]?.map Entry.toNum
  | .fsym _ => none
  | .bin l op r => (callCt v l).bind fun x => (callCt v r).map fun y => op.apply x y

/-- `result_of::is_ct_evaluable<E>::value`, eval.hpp 34-60. -/
def ctEvaluable : CtExpr → Bool
  | .const _ => true
  | .var _ => true
  | .fsym _ => false
  | .bin l _ r => ctEvaluable l && ctEvaluable r

/-- `eval(e, v)`: the overload for constants (275-279), for variables (286-312, `std::vector` access is not
checked), for binary expressions with compile-time vectors (148-155) and otherwise (249-256). -/
def evalFn (cv : Conv) (o : CtOrder) : CtExpr → Point K → Option (Res K)
  | .const n, _ => some (.ok (Num.lit n))
  | .var i, .ct v => v[i]?.map fun x => .ok x.toNum
  | .var i, .std v => some (evalCtVariable i v)
  | .fsym _, _ => none
  | .bin l op r, .ct v =>
    match ctEntries v with
    | some ns =>
      if ctEvaluable (.bin l op r) then ((ctEval cv ns (.bin l op r)).bind callZero).map .ok
      else (callCt v (.bin l op r)).map .ok
    | none => (callCt v (.bin l op r)).map .ok
  | .bin l op r, .std v => ctCall o v (.bin l op r)

/-- `eval(ex, v)` for a run-time expression, eval.hpp 196-240, and `ex(v)`, runtime/expr.hpp 222-265,
binary_expr.hpp 256-294, unary_expr.hpp 151-195: the numbers of a compile-time vector are copied to a `std::vector`. -/
def evalRt (o : Order K) (e : Expr K) : Point K → Res K
  | .ct v => eval o (v.map Entry.toNum) e
  | .std v => eval o v e

end VM.Ct
