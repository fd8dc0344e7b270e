import Verif.Rt.Coords
import Verif.Spec.Iterated
import Verif.Spec.Diff
import Mathlib.Analysis.Normed.Group.Constructions
/-
Vocabulary of the property on the Newton solver.
-/
namespace VM.Spec

/-- Left side minus right side, as a function of two real variables. -/
noncomputable def gap (q : Equation XReal) (p : Fin 2 → ℝ) : ℝ := denotes q.lhs p - denotes q.rhs p

/-- The Jacobian determinant of the system. -/
noncomputable def jacobian (q₁ q₂ : Equation XReal) (p : Fin 2 → ℝ) : ℝ :=
  partialDeriv 0 (gap q₁) p * partialDeriv 1 (gap q₂) p - partialDeriv 0 (gap q₂) p * partialDeriv 1 (gap q₁) p

/-- `p'` solves the system linearised at `p`. -/
def SolvesLinearised (q₁ q₂ : Equation XReal) (p p' : Fin 2 → ℝ) : Prop :=
  ∀ q ∈ [q₁, q₂],
    gap q p + partialDeriv 0 (gap q) p * (p' 0 - p 0) + partialDeriv 1 (gap q) p * (p' 1 - p 1) = 0

/-- Both sides use only what `diff` supports and have a value at the point, with no square root of 0. -/
def RegularEq (o : Order XReal) (p : Fin 2 → ℝ) (q : Equation XReal) : Prop :=
  ∀ e ∈ [q.lhs, q.rhs], Smooth e ∧ RegularAt o p e

/-- The Euclidean norm of what is missing to a solution. -/
noncomputable def defect (q₁ q₂ : Equation XReal) (p : Fin 2 → ℝ) : ℝ := √(gap q₁ p ^ 2 + gap q₂ p ^ 2)

/-- A solution of the system. -/
def IsRoot (q₁ q₂ : Equation XReal) (p : Fin 2 → ℝ) : Prop :=
  denotes q₁.lhs p = denotes q₁.rhs p ∧ denotes q₂.lhs p = denotes q₂.rhs p

end VM.Spec
