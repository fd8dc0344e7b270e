import Verif.Rt.Expr
/-
The size of an expression.
-/
namespace VM.Spec
variable {K : Type}

mutual
/-- The number of objects an expression consists of: nodes, and for each entry of a vector the object that holds it. -/
def size : Expr K → Nat
  | .const _ | .var _ | .fsym _ _ => 1
  | .un _ e => size e + 1
  | .integ lo hi _ e => size lo + size hi + size e + 1
  | .bin _ l r => size l + size r + 1
  | .vec es => sizes es + 1
/-- The same for the entries of a vector. -/
def sizes : List (Expr K) → Nat
  | [] => 0
  | e :: es => size e + 1 + sizes es
end

end VM.Spec
