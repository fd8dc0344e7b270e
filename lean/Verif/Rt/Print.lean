import Verif.Rt.Latex
/-
The plain text of expressions: `deep_str()` and the stream operators.
-/
namespace VM
variable {K : Type}

/-- The name of an operator of a unary node, `op_->str()`: unary_op_tags.hpp 41-200, partial derivative 225-230;
symbolic integral runtime/integral.hpp 163-169 with symbolic_interval.hpp 52-56. -/
def UOp.name : UOp → Txt
  | .fn .id => t!"id"
  | .fn .exp => t!"exp"
  | .fn .sin => t!"sin"
  | .fn .cos => t!"cos"
  | .fn .tan => t!"tan"
  | .fn .fabs => t!"fabs"
  | .fn .sqrt => t!"sqrt"
  | .fn .log => t!"log"
  | .fn .log10 => t!"log10"
  | .grad => t!"grad"
  | .divg => t!"div"
  | .pd i => t!"partial_deriv<" ++ (idTxt i ++ t!">")
  | .symInt i => t!"symbolic_integral[" ++ (t!"symbolic_interval[" ++ (idTxt i ++ t!"]")) ++ t!"]"

/-- `is_unary()`: expression_interface.hpp 60, binary_expr.hpp 355. -/
def Expr.isUnary : Expr K → Bool
  | .bin _ _ _ => false
  | _ => true

/-- `operator<<(stream, rt_expr)` around the text of the expression, runtime/expr.hpp 271-288. -/
def wrapStr (unary : Bool) (s : Txt) : Txt :=
  if unary then t!"expr" ++ (t!"(" ++ (s ++ t!")")) else t!"expr" ++ s

mutual
/-- `deep_str()`: constant.hpp 78-83, variable.hpp 172-177, function_symbol.hpp 79-91, unary_expr.hpp 247-255,
binary_expr.hpp 337-346, vector_expr.hpp 101-106 with 241-254; the integral over an interval is integral.hpp
71-77 with interval.hpp 68-72 and variable.hpp 247-251.  `fmt` is `std::ostream << number`. -/
def deepStr (fmt : K → Txt) : Expr K → Txt
  | .const c => t!"constant(" ++ (fmt c ++ t!")")
  | .var i => t!"variable(" ++ (idTxt i ++ t!")")
  | .fsym i g => t!"function_symbol<" ++
      (if g = 0 then t!"unknown(" ++ (idTxt i ++ t!")>")
       else if g = 1 then t!"test(" ++ (idTxt i ++ t!")>")
       else t!"invalid>")
  | .un op e => op.name ++ (t!"(" ++ (deepStr fmt e ++ t!")"))
  | .integ lo hi x e =>
      (t!"rt_integral[" ++
        ((t!"interval(" ++ (wrapStr lo.isUnary (deepStr fmt lo) ++ (t!", " ++
          (wrapStr hi.isUnary (deepStr fmt hi) ++ t!")")))) ++ (t!", " ++
          ((t!"variable(" ++ (idTxt x ++ t!")")) ++ t!"]")))) ++
      (t!"(" ++ (deepStr fmt e ++ t!")"))
  | .bin op l r => t!"(" ++ (deepStr fmt l ++ (op.str ++ (deepStr fmt r ++ t!")")))
  | .vec es => (t!"[" ++ (idTxt es.length ++ t!"](")) ++ (entriesStr fmt es ++ t!")")
/-- The loop of vector_expr.hpp 245-250: the entries, each but the last followed by a comma. -/
def entriesStr (fmt : K → Txt) : List (Expr K) → Txt
  | [] => []
  | e :: es => wrapStr e.isUnary (deepStr fmt e) ++ ((if es.isEmpty then [] else t!", ") ++ entriesStr fmt es)
end

/-- `stream << e` for an `rt_expr` that holds `e`, runtime/expr.hpp 271-288. -/
def exprStr (fmt : K → Txt) (e : Expr K) : Txt := wrapStr e.isUnary (deepStr fmt e)

/-- `stream << equation`, runtime/equation.hpp 57-61. -/
def equationStr (fmt : K → Txt) (l r : Expr K) : Txt :=
  t!"equation(" ++ (exprStr fmt l ++ (t!" = " ++ (exprStr fmt r ++ t!")")))

/-- What can be streamed: objects of the run-time classes with their contents (an integral is an `rt_unary_expr`),
equations, intervals, symbolic intervals. -/
inductive Shown (K : Type) where
  | const (c : K)
  | var (i : Nat)
  | fsym (i t : Nat)
  | un (op : UOp) (e : Expr K)
  | integ (lo hi : Expr K) (x : Nat) (e : Expr K)
  | bin (op : BOp) (l r : Expr K)
  | vec (es : List (Expr K))
  | expr (e : Expr K)
  | equation (l r : Expr K)
  | interval (lo hi : Expr K)
  | symbolic (i : Nat)

/-- `stream << object`: constant.hpp 138-145, variable.hpp 246-252, function_symbol.hpp 163-168, unary_expr.hpp 341-349,
binary_expr.hpp 454-462, vector_expr.hpp 230-243, expr.hpp 271-288, equation.hpp 56-61, interval.hpp 66-72,
symbolic_interval.hpp 50-56. -/
def Shown.str (fmt : K → Txt) : Shown K → Txt
  | .const c => deepStr fmt (.const c)
  | .var i => t!"variable(" ++ (idTxt i ++ t!")")
  | .fsym i t => deepStr fmt (.fsym i t)
  | .un op e => t!"unary" ++ deepStr fmt (.un op e)
  | .integ lo hi x e => t!"unary" ++ deepStr fmt (.integ lo hi x e)
  | .bin op l r => t!"expr" ++ deepStr fmt (.bin op l r)
  | .vec es => deepStr fmt (.vec es)
  | .expr e => exprStr fmt e
  | .equation l r => equationStr fmt l r
  | .interval lo hi => t!"interval(" ++ (exprStr fmt lo ++ (t!", " ++ (exprStr fmt hi ++ t!")")))
  | .symbolic i => t!"symbolic_interval[" ++ (idTxt i ++ t!"]")

end VM
