import Verif.Rt.Diff
import Verif.NumReal
import Verif.Spec.Syntax
import Mathlib.Analysis.Calculus.Deriv.Basic
/-
Vocabulary of the property on repeated differentiation.
-/
namespace VM.Spec

/-- `diff` applied for one variable after the other, first index first. -/
def diffs {K : Type} [Num K] : List Nat → Expr K → Res (Expr K)
  | [], e => .ok e
  | i :: is, e => (diff (.var i) e).bind (diffs is)

variable {n : ℕ}

/-- The point `p` as the argument of a call. -/
def realPoint (p : Fin n → ℝ) : List XReal := List.ofFn fun i => some (p i)

/-- The real function an expression denotes (0 where evaluation does not give a number). -/
noncomputable def denotes (e : Expr XReal) (p : Fin n → ℝ) : ℝ :=
  match eval leftFirst (realPoint p) e with
  | .ok (some a) => a
  | _ => 0

/-- The expression has a value at the point and no square root in it has argument 0. -/
def RegularAt (o : Order XReal) (p : Fin n → ℝ) (e : Expr XReal) : Prop :=
  (∃ a : ℝ, eval o (realPoint p) e = .ok (some a)) ∧
  ∀ s, Sub (.un (.fn .sqrt) s) e → eval o (realPoint p) s ≠ .ok (some 0)

/-- The partial derivative of a real function of `n` variables. -/
noncomputable def partialDeriv (i : Fin n) (f : (Fin n → ℝ) → ℝ) (p : Fin n → ℝ) : ℝ :=
  deriv (fun t => f (Function.update p i t)) (p i)

/-- Partial derivatives one after the other, first index first. -/
noncomputable def partialDerivs : List (Fin n) → ((Fin n → ℝ) → ℝ) → (Fin n → ℝ) → ℝ
  | [], f => f
  | i :: is, f => partialDerivs is (partialDeriv i f)

end VM.Spec
