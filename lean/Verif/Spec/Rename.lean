import Verif.Rt.Diff
import Verif.Spec.Syntax
/-
Renaming the variables and function symbols of an expression.
-/
namespace VM.Spec
variable {K : Type}

/-- New numbers for the variables, new number and tag for the function symbols. -/
structure Renaming where
  var : Nat → Nat
  sym : Nat → Nat → Nat × Nat

/-- Different variables stay different, and so do different function symbols. -/
def Renaming.Injective (ρ : Renaming) : Prop :=
  (∀ i j, ρ.var i = ρ.var j → i = j) ∧
  (∀ i t j u, ρ.sym i t = ρ.sym j u → i = j ∧ t = u)

/-- Formal derivatives are renamed too. -/
def Renaming.op (ρ : Renaming) : UOp → UOp
  | .pd i => .pd (ρ.var i)
  | op => op

mutual
/-- The expression with the new names everywhere. -/
def rename (ρ : Renaming) : Expr K → Expr K
  | .const c => .const c
  | .var i => .var (ρ.var i)
  | .fsym i t => .fsym (ρ.sym i t).1 (ρ.sym i t).2
  | .un op e => .un (ρ.op op) (rename ρ e)
  | .integ lo hi x e => .integ (rename ρ lo) (rename ρ hi) (ρ.var x) (rename ρ e)
  | .bin op l r => .bin op (rename ρ l) (rename ρ r)
  | .vec es => .vec (renameL ρ es)
def renameL (ρ : Renaming) : List (Expr K) → List (Expr K)
  | [] => []
  | e :: es => rename ρ e :: renameL ρ es
end

/-- What is differentiated by, renamed. -/
def renameD (ρ : Renaming) : DVar → DVar
  | .var i => .var (ρ.var i)
  | .fsym i t => .fsym (ρ.sym i t).1 (ρ.sym i t).2

/-- Under the new number of each variable of `e`, the vector `w` has the entry that `v` has under the old
one; or neither has one. -/
def Carries (ρ : Renaming) (e : Expr K) (v w : List K) : Prop :=
  ∀ i, Occurs i e → w[ρ.var i]? = v[i]?

end VM.Spec
