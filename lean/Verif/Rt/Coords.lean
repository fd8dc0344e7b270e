import Verif.Rt.Subst
import Verif.Rt.Diff
/-
Cartesian coordinate systems, and equations.
-/
namespace VM
variable {K : Type}

/-- `rt_function_symbol u(0, unknown_tag<>())`; the tag has number 0 (ct_function_symbol.hpp 48). -/
def symU : Expr K := .fsym 0 0
/-- `rt_function_symbol v(0, test_tag<>())`; the tag has number 1 (ct_function_symbol.hpp 64). -/
def symV : Expr K := .fsym 0 1

variable [Num K]

/-- The four substitutions, with the replacements for `grad(u)`, `grad(v)`, `div(u)`, `div(v)`
(`grad`, `div`: detail/unary_operations.hpp 668-671, 714-718). -/
def coordsWith (gu gv du dv e : Expr K) : Res (Expr K) :=
  (substitute (.un .grad symU) gu e).bind fun e1 =>
  (substitute (.un .grad symV) gv e1).bind fun e2 =>
  (substitute (.un .divg symU) du e2).bind fun e3 =>
  substitute (.un .divg symV) dv e3

/-- `apply_coordinate_system(cartesian<1>, e)`, manipulation/apply_coordinate_system.hpp 38-55. -/
def coords1 (e : Expr K) : Res (Expr K) :=
  coordsWith (diffSymbol 0 0 0) (diffSymbol 0 1 0) (diffSymbol 0 0 0) (diffSymbol 0 1 0) e

/-- `apply_coordinate_system(cartesian<2>, e)`, manipulation/apply_coordinate_system.hpp 87-112. -/
def coords2 (e : Expr K) : Res (Expr K) :=
  coordsWith
    (.vec [diffSymbol 0 0 0, diffSymbol 0 0 1])
    (.vec [diffSymbol 0 1 0, diffSymbol 0 1 1])
    (.bin .plus (diffSymbol 0 0 0) (diffSymbol 0 0 1))
    (.bin .plus (diffSymbol 0 1 0) (diffSymbol 0 1 1)) e

/-- `apply_coordinate_system(cartesian<3>, e)`, manipulation/apply_coordinate_system.hpp 143-171. -/
def coords3 (e : Expr K) : Res (Expr K) :=
  coordsWith
    (.vec [diffSymbol 0 0 0, diffSymbol 0 0 1, diffSymbol 0 0 2])
    (.vec [diffSymbol 0 1 0, diffSymbol 0 1 1, diffSymbol 0 1 2])
    (.bin .plus (.bin .plus (diffSymbol 0 0 0) (diffSymbol 0 0 1)) (diffSymbol 0 0 2))
    (.bin .plus (.bin .plus (diffSymbol 0 1 0) (diffSymbol 0 1 1)) (diffSymbol 0 1 2)) e

/-- The dimensions for which `cartesian<d>` is accepted. -/
inductive Dim where
  | one | two | three
  deriving DecidableEq

def Dim.toNat : Dim → Nat
  | .one => 1
  | .two => 2
  | .three => 3

/-- The three overloads; those for unary and binary expressions convert to `rt_expr` first
(62-79, 119-136, 178-195). -/
def coords : Dim → Expr K → Res (Expr K)
  | .one => coords1
  | .two => coords2
  | .three => coords3

/-- `rt_equation`, runtime/equation.hpp 34-57: two copies. -/
structure Equation (K : Type) where
  lhs : Expr K
  rhs : Expr K

/-- `apply_coordinate_system(cartesian<d>, equation)`, manipulation/apply_coordinate_system.hpp 205-212;
`first`: the left side is transformed first. -/
def coordsEq (first : Bool) (d : Dim) (q : Equation K) : Res (Equation K) :=
  Res.both first (coords d q.lhs) (coords d q.rhs) fun l r => .ok ⟨l, r⟩

end VM
