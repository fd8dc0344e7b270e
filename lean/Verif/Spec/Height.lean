import Verif.Rt.Expr
/-
How deep the objects of an expression are nested.
-/
namespace VM.Spec
variable {K : Type}

mutual
/-- The number of objects on the longest way from the outermost one to a leaf.  Calls like `eval`, `clone` and the
destructor are nested as deep as this. -/
def height : Expr K → Nat
  | .const _ | .var _ | .fsym _ _ => 1
  | .un _ e => height e + 1
  | .integ lo hi _ e => max (max (height lo) (height hi)) (height e) + 1
  | .bin _ l r => max (height l) (height r) + 1
  | .vec es => heights es + 1
def heights : List (Expr K) → Nat
  | [] => 0
  | e :: es => max (height e) (heights es)
end

mutual
/-- The same with each vector as deep as the sum of its entries, which it may become: products of vectors are written
out as sums. -/
def reach : Expr K → Nat
  | .const _ | .var _ | .fsym _ _ => 1
  | .un _ e => reach e + 1
  | .integ lo hi _ e => max (max (reach lo) (reach hi)) (reach e) + 1
  | .bin _ l r => max (reach l) (reach r) + 1
  | .vec es => es.length + reaches es + 1
def reaches : List (Expr K) → Nat
  | [] => 0
  | e :: es => max (reach e) (reaches es)
end

/-- No vectors in it. -/
def VectorFree : Expr K → Prop
  | .vec _ => False
  | .un _ e => VectorFree e
  | .integ lo hi _ e => VectorFree lo ∧ VectorFree hi ∧ VectorFree e
  | .bin _ l r => VectorFree l ∧ VectorFree r
  | _ => True

/-- No vectors, integrals with bounds and unary operators used as binary ones in it. -/
def Bare : Expr K → Prop
  | .vec _ | .integ _ _ _ _ => False
  | .un _ e => Bare e
  | .bin op l r => op ≠ .uid ∧ Bare l ∧ Bare r
  | _ => True

end VM.Spec
