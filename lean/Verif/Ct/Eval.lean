import Verif.Ct.Simplify
/-
`result_of::eval` on compile-time expressions and vectors, manipulation/eval.hpp 34-139.
-/
namespace VM.Ct

/-- `type_by_index<V, id>::type` for a compile-time vector of integer constants, ct_variable.hpp 33-57:
entries 0, 1 and 2 only, anything else is a compile error. -/
def entry (v : List Int) (i : Nat) : Option CtExpr :=
  if i < 3 then v[i]?.map .const else none

/-- `result_of::eval<E, V>::type`, eval.hpp 96-139; `v` holds the constants of a `ct_vector_1/2/3` or the
single `ct_constant`.  Function symbols are not evaluable (36-40, 96-102). -/
def ctEval (cv : Conv) (v : List Int) : CtExpr → Option CtExpr
  | .const n => some ♯n
  | .var i => entry v i
  | .fsym _ => none
  | .bin l op r => (ctEval cv v l).bind fun l' => (ctEval cv v r).bind fun r' =>
      ctSimplify cv (.bin l' op r')

end VM.Ct
