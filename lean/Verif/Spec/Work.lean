import Verif.Spec.Size
import Verif.Spec.Heap
/-
How many requests for memory are enough.
-/
namespace VM.Spec
variable {K : Type}

mutual
/-- How deep gradients are nested inside each other. -/
def gradDepth : Expr K → Nat
  | .un .grad e => gradDepth e + 1
  | .un _ e => gradDepth e
  | .integ _ _ _ e => gradDepth e
  | .bin _ l r => max (gradDepth l) (gradDepth r)
  | .vec es => gradDepths es
  | _ => 0
def gradDepths : List (Expr K) → Nat
  | [] => 0
  | e :: es => max (gradDepth e) (gradDepths es)
end

/-- `n` gradients around an expression: `grad(grad(...grad(e)))` -/
def nested (e : Expr K) : Nat → Expr K
  | 0 => e
  | n + 1 => .un .grad (nested e n)

/-- What a state shows at a reference, if there is something. -/
def showing (s : State K) (r : Src) : Option (Expr K) := match s.view r with
  | .ok e => some e
  | _ => none

/-- The number of objects of the expression at a reference. -/
def sizeAt (s : State K) (r : Src) : Nat := ((showing s r).map size).getD 0

/-- How deep gradients are nested in the expression at a reference. -/
def depthAt (s : State K) (r : Src) : Nat := ((showing s r).map gradDepth).getD 0

/-- The number of parts of a compile-time expression. -/
def ctSize : Ct.CtExpr → Nat
  | .bin l _ r => ctSize l + ctSize r + 1
  | _ => 1

/-- Requests for memory that are enough for a right hand side. -/
def enough (s : State K) : Rhs K → Nat
  | .leaf _ => 1
  | .conv l op r => ctSize (.bin l op r)
  | .copy r => sizeAt s r
  | .bin _ l r => sizeAt s l + sizeAt s r + 1
  | .un _ r => sizeAt s r + 1
  | .integ lo hi _ r => 2 * (sizeAt s lo + sizeAt s hi) + sizeAt s r + 1
  | .vec rs => 2 * (rs.map fun r => sizeAt s r + 1).sum + 2
  | .simplify r => sizeAt s r + 2 * sizeAt s r ^ 3
  | .diff _ r => 2 * 2 ^ depthAt s r * sizeAt s r ^ 3 + 16 * sizeAt s r ^ 6
  | .subst _ t r => sizeAt s t * sizeAt s r ^ 2 + 2 * (sizeAt s t * sizeAt s r) ^ 3
  | .substMany _ ts r => ((ts.map (sizeAt s)).sum + 1) * sizeAt s r ^ 2 +
      2 * (((ts.map (sizeAt s)).sum + 1) * sizeAt s r) ^ 3
  | .interval lo hi _ r => sizeAt s lo + sizeAt s hi + (sizeAt s lo + sizeAt s hi + 1) * sizeAt s r

/-- Requests for memory that are enough for a statement. -/
def enoughFor (s : State K) : Stmt K → Nat
  | .decl _ | .declBin _ | .declUn _ | .destroy _ => 0
  | .init _ rhs => enough s rhs
  | .assign _ rhs => 2 * enough s rhs
  | .inplace i => 2 * sizeAt s ⟨i, []⟩ ^ 3
  | .initBin _ _ l r => sizeAt s l + sizeAt s r
  | .assignBin _ r => sizeAt s r
  | .assignNum _ _ => 3
  | .initUn _ _ r | .wrapUn _ r => sizeAt s r + 1
  | .copyUn _ r => sizeAt s r
  | .numUn _ _ => 2

/-- Allocated memory that no object of the program refers to. -/
def Lost (s : State K) (a : Nat) : Prop := s.heap.cells a ≠ none ∧ ∀ r, s.target r ≠ .ok (.node a)

end VM.Spec
