import Verif.Spec.Syntax
import Verif.Rt.Simplify
/-
Results that need no simplification.
-/
namespace VM.Spec
variable {K : Type} [Num K]

/-- Nothing is left to simplify: the expression says so, `inplace_simplify` leaves it as it is, and no
operation in it (operands and arguments at any depth) is trivial. -/
structure Simplest (e : Expr K) : Prop where
  says : canSimplify e = .ok false
  stays : Simplifies e (.ok e)
  none : ∀ s, Sub s e → ¬ Trivial s

/-- Constants and variables combined with `+ - * /`. -/
inductive Fractional {K : Type} : Expr K → Prop
  | const (c : K) : Fractional (.const c)
  | var (i : Nat) : Fractional (.var i)
  | bin {op l r} : IsArithOp op → Fractional l → Fractional r → Fractional (.bin op l r)

/-- The number given to variable `i` by the list of variables `is` and the list of numbers `cs`: the one
at the first place where `i` is listed. -/
def Assigned {K : Type} (is : List Nat) (cs : List K) (i : Nat) (c : K) : Prop :=
  ∃ k : Nat, is[k]? = some i ∧ (∀ k' < k, is[k']? ≠ some i) ∧ cs[k]? = some c

end VM.Spec
