import Verif.Spec.Throw
import Verif.Spec.Quadrature
/-
Vocabulary of C97.
-/
namespace VM.Spec
variable {K : Type}

/-- The text names something that is in the integrand, outside the bounds of inner integrals, and that is not the integration
variable `x`. -/
def TrueOfIntegrand (x : Nat) (t : String) (f : Expr K) : Prop :=
  (∃ j, j ≠ x ∧ SubV (.var j) f ∧ Says t .unbound) ∨
  ∃ k, k ≠ .unbound ∧ k ≠ .malformed ∧ k ≠ .modulus ∧ Says t k ∧ HasNode k f

/-- A formal derivative, outside of bounds. -/
def HasFormal (f : Expr K) : Prop := HasNode .gradient f ∨ HasNode .divergence f ∨ HasNode .partialDeriv f

/-- Not an integral, not a sum and not a difference. -/
def NotIntegral : Expr K → Prop
  | .integ _ _ _ _ => False
  | .bin .plus _ _ => False
  | .bin .minus _ _ => False
  | _ => True

end VM.Spec
