import Verif.Spec.Val
import Verif.NumReal
import Mathlib.MeasureTheory.Integral.IntervalIntegral.Basic
/-
Integrals over concrete intervals, with real numbers.
-/
namespace VM.Spec

/-- `∫` is the interval integral; integrands have to be defined on the whole interval. -/
noncomputable def realInt : Interp XReal where
  sym _ _ := none
  pd _ _ _ := none
  good x := x ≠ none
  dom a b t := ∃ a' b' t' : ℝ, a = some a' ∧ b = some b' ∧ t = some t' ∧ t' ∈ Set.uIcc a' b'
  int a b f c := ∃ (a' b' : ℝ) (g : ℝ → ℝ), a = some a' ∧ b = some b' ∧
    (∀ t ∈ Set.uIcc a' b', f (some t) = some (g t)) ∧
    IntervalIntegrable g MeasureTheory.volume a' b' ∧ c = some (∫ t in a'..b', g t)

end VM.Spec
