import Verif.Rt.Expr
/-
For C22: expressions without regard to the intervals of their integrals.
-/
namespace VM.Spec
variable {K : Type}

/-- The operator, symbolic integrals over one and the same interval. -/
def blankOp : UOp → UOp
  | .symInt _ => .symInt 0
  | op => op

mutual
/-- The expression with the intervals of all its integrals replaced by one and the same. -/
def blank : Expr K → Expr K
  | .const c => .const c
  | .var i => .var i
  | .fsym i t => .fsym i t
  | .un op e => .un (blankOp op) (blank e)
  | .integ _ _ _ e => .integ (.var 0) (.var 0) 0 (blank e)
  | .bin op l r => .bin op (blank l) (blank r)
  | .vec es => .vec (blankL es)
def blankL : List (Expr K) → List (Expr K)
  | [] => []
  | e :: es => blank e :: blankL es
end

end VM.Spec
