import Verif.Spec.CtNormal
import Verif.Ct.Simplify
/-
When the numbers in a compile-time expression are small enough.
-/
namespace VM.Spec
open VM.Ct

/-- There is a quotient in the expression. -/
def divides : CtExpr → Bool
  | .bin _ .div _ => true
  | .bin l _ r => divides l || divides r
  | _ => false

/-- A bound that can be computed by hand: one more than the absolute value of each number, multiplied with each other;
for the quotient of two expressions without quotients they are added instead (minus one). -/
def ctMagnitude : CtExpr → Nat
  | .const n => 1 + max 1 n.natAbs
  | .bin l .div r =>
    if divides l || divides r then ctMagnitude l * ctMagnitude r else ctMagnitude l + ctMagnitude r - 1
  | .bin l _ r => ctMagnitude l * ctMagnitude r
  | _ => 1

/-- Something in the expression is divided by `0` or by a fraction with numerator `0`. -/
def ZeroDivisor (e : CtExpr) : Prop :=
  ∃ l r, Part (.bin l .div r) e ∧ (r = .const 0 ∨ ∃ d, r = .bin (.const 0) .div (.const d))

/-- A specialisation is needed for the expression and no matching one is at least as specialised as all the others. -/
def Ambiguous (e : CtExpr) : Prop :=
  (∃ s ∈ specs, s.pat.fits e = true) ∧
    ∀ s ∈ specs, s.pat.fits e = true → ∃ t ∈ specs, t.pat.fits e = true ∧ s.pat.le t.pat = false

/-- Turns of the loop of `simplify` lead from one expression to the other. -/
inductive Turned (cv : Conv) : CtExpr → CtExpr → Prop
  | none (e) : Turned cv e e
  | turn {e e₁ e₂ : CtExpr} {n : Nat} : simplifyImpl cv e = some (n + 1, e₁) → Turned cv e₁ e₂ → Turned cv e e₂

end VM.Spec
