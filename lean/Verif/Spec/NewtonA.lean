import Verif.Spec.HeapRead
import Verif.Spec.Diff
import Verif.Rt.NewtonA
/-
The arguments of the Newton solver in memory.
-/
namespace VM.Spec
variable {K : Type}

/-- The references show the sides of the two equations. -/
def ShowsSystem (s : State K) (q : System Src) (q₁ q₂ : Equation K) : Prop :=
  s.view q.l₁ = .ok q₁.lhs ∧ s.view q.r₁ = .ok q₁.rhs ∧ s.view q.l₂ = .ok q₂.lhs ∧ s.view q.r₂ = .ok q₂.rhs

/-- Both sides are built from constants, variables, smooth functions and `+ - * /`. -/
def SmoothEq (q : Equation K) : Prop := Smooth q.lhs ∧ Smooth q.rhs

end VM.Spec
