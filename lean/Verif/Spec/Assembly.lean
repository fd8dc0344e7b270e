import Verif.Spec.Weak
import Verif.Rt.Quadrature
import Mathlib.MeasureTheory.Integral.IntervalIntegral.Basic
/-
Specification for C74: forms on one element, and on an interval that is cut into elements.
-/
namespace VM.Spec
open MeasureTheory

/-- The number of integrals a form is made of. -/
def integrals : Expr XReal → Nat
  | .bin _ l r => integrals l + integrals r
  | _ => 1

/-- On `[a, b]` the function `g` has the second derivative `g2`. -/
def SecondDeriv (a b : ℝ) (g : (Fin 1 → ℝ) → ℝ) (g2 : ℝ → ℝ) : Prop :=
  ∃ g1 : ℝ → ℝ, ∀ t ∈ Set.Icc a b, HasDerivAt (fun s => g fun _ => s) (g1 t) t ∧ HasDerivAt g1 (g2 t) t

/-- The value of a form with true integrals over `[a, b]`; the second derivatives of all integrands satisfy `P`. -/
def FormOn (a b : ℝ) (P : (ℝ → ℝ) → Prop) (F : Nat → Expr XReal) (k : Nat) (e : Expr XReal) (c : ℝ) : Prop :=
  WeakForm (fun t : Fin 2 => denotes (F t)) k (fun p : Fin 1 → ℝ => p 0 ∈ Set.Icc a b)
    (fun g c => (∃ g2, SecondDeriv a b g g2 ∧ P g2) ∧ c = ∫ t in a..b, g fun _ => t) e c

/-- Bounded by `M` on `[a, b]`. -/
def BoundedBy (a b M : ℝ) (g : ℝ → ℝ) : Prop := ∀ t ∈ Set.Icc a b, |g t| ≤ M

/-- What a user writes to integrate the form `e` over the element from `a` to `b`, `u` and `v` being the expressions
`F 0` and `F 1`. -/
noncomputable def element (o : Order XReal) (F : Nat → Expr XReal) (l : List (Nat × Nat)) (k : Nat) (a b : ℝ)
    (e : Expr XReal) : Res XReal :=
  (coords .one e).bind fun e1 => (insertFunctions F l e1).bind fun e2 =>
    (substituteInterval k (.const (some a)) (.const (some b)) 0 e2).bind fun e3 => quadOf o (gaussQuad1 o) e3

end VM.Spec
