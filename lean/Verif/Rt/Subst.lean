import Verif.Rt.Equal
import Verif.Rt.Simplify
/-
Run-time substitution.
-/
namespace VM
variable {K : Type} [Num K]

mutual
/-- `substitute(e, repl)` of the node classes, `s` the searched expression, `r` the replacement:
constant.hpp 89-97, variable.hpp 187-196, function_symbol.hpp 98-105, unary_expr.hpp 272-280
(the operator is copied: bounds and integration variable stay as they are), binary_expr.hpp 369-378,
vector_expr.hpp 161-173.  The order in which operands are treated is not observable (nothing throws). -/
def substE (s r : Expr K) : Expr K → Res (Expr K)
  | .const c => (deepEq (.const c) s).map fun b => if b then r else .const c
  | .var i => (deepEq (.var i) s).map fun b => if b then r else .var i
  | .fsym i t => (deepEq (.fsym i t) s).map fun b => if b then r else .fsym i t
  | .un op e => (deepEq (.un op e) s).bind fun b =>
      if b then .ok r else (substE s r e).map (.un op)
  | .integ lo hi x e => (deepEq (.integ lo hi x e) s).bind fun b =>
      if b then .ok r else (substE s r e).map (.integ lo hi x)
  | .bin op e f => (deepEq (.bin op e f) s).bind fun b =>
      if b then .ok r else (substE s r e).bind fun e' => (substE s r f).map (.bin op e')
  | .vec es => (deepEq (.vec es) s).bind fun b =>
      if b then .ok r else (substEL s r es).map .vec
/-- The loop over the entries, vector_expr.hpp 169-170. -/
def substEL (s r : Expr K) : List (Expr K) → Res (List (Expr K))
  | [] => .ok []
  | e :: es => (substE s r e).bind fun e' => (substEL s r es).map (e' :: ·)
end

/-- The search loop of the list version, e.g. variable.hpp 203-205: the replacement belonging to the
first entry that equals `e`.  `repl[i]` past the end is undefined (excluded by the assertion of the
caller). -/
def findRepl (e : Expr K) : List (Expr K) → List (Expr K) → Res (Option (Expr K))
  | [], _ => .ok none
  | s :: ss, [] => (deepEq e s).bind fun b => if b then .ub else findRepl e ss []
  | s :: ss, r :: rs => (deepEq e s).bind fun b => if b then .ok (some r) else findRepl e ss rs

mutual
/-- `substitute(e[], repl[])` of the node classes: constant.hpp 100-110, variable.hpp 199-209,
function_symbol.hpp 108-117, unary_expr.hpp 283-292, binary_expr.hpp 381-391, vector_expr.hpp
176-189. -/
def substM (ss rs : List (Expr K)) : Expr K → Res (Expr K)
  | .const c => (findRepl (.const c) ss rs).map fun o => o.getD (.const c)
  | .var i => (findRepl (.var i) ss rs).map fun o => o.getD (.var i)
  | .fsym i t => (findRepl (.fsym i t) ss rs).map fun o => o.getD (.fsym i t)
  | .un op e => (findRepl (.un op e) ss rs).bind fun
      | some r => .ok r
      | none => (substM ss rs e).map (.un op)
  | .integ lo hi x e => (findRepl (.integ lo hi x e) ss rs).bind fun
      | some r => .ok r
      | none => (substM ss rs e).map (.integ lo hi x)
  | .bin op e f => (findRepl (.bin op e f) ss rs).bind fun
      | some r => .ok r
      | none => (substM ss rs e).bind fun e' => (substM ss rs f).map (.bin op e')
  | .vec es => (findRepl (.vec es) ss rs).bind fun
      | some r => .ok r
      | none => (substML ss rs es).map .vec
/-- The loop over the entries, vector_expr.hpp 185-186. -/
def substML (ss rs : List (Expr K)) : List (Expr K) → Res (List (Expr K))
  | [] => .ok []
  | e :: es => (substM ss rs e).bind fun e' => (substML ss rs es).map (e' :: ·)
end

/-- `substitute(search, repl, e)`, manipulation/substitute.hpp 165-258 (the overloads differ only in the
types of their arguments): replace, then `inplace_simplify`. -/
def substitute (s r e : Expr K) : Res (Expr K) := (substE s r e).bind simplified

/-- `substitute(std::vector search, std::vector repl, e)`, manipulation/substitute.hpp 262-286: the
lengths are asserted to be equal. -/
def substituteMany (ss rs : List (Expr K)) (e : Expr K) : Res (Expr K) :=
  if ss.length = rs.length then (substM ss rs e).bind simplified else .ub

end VM
