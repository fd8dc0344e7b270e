import Verif.Spec.CtOps
import Verif.Spec.Written
/-
Compile-time expressions in which nothing is left to fold.
-/
namespace VM.Spec
open VM.Ct

/-- A formula of compile-time constants, compile-time variables and operators. -/
def CompileTimeFormula : Written → Prop
  | .cc _ | .cv _ => True
  | .bin _ a b => CompileTimeFormula a ∧ CompileTimeFormula b
  | _ => False

/-- The operators have something to fold: constants to be combined, `x + x`, `x - x`, `x / x`, `(x + X) - x`, `E / E`. -/
def Folds {F : Type*} (l : MixExpr F) (op : COp) (r : MixExpr F) : Prop :=
  match op with
  | .plus => (∃ n m, Leads l n ∧ Leads r m ∧ (l = .const n ∨ r = .const m)) ∨ ∃ i, l = .var i ∧ r = .var i
  | .minus => (∃ n m, Leads l n ∧ Leads r m ∧ (l = .const n ∨ r = .const m)) ∨
      (∃ i, l = .var i ∧ r = .var i) ∨ ∃ i x, l = .bin (.var i) .plus x ∧ r = .var i
  | .mult => ∃ n m, l = .const n ∧ r = .const m
  | .div => l = r ∧ ((∃ i, l = .var i) ∨ ∃ a o b, l = .bin a o b)

/-- Made of compile-time constants and variables, with nothing left to fold. -/
def Folded {F : Type*} : MixExpr F → Prop
  | .const _ | .var _ => True
  | .rc _ | .fsym _ => False
  | .bin l op r => Folded l ∧ Folded r ∧ ¬ Folds l op r

/-- The expression written down as a formula. -/
def formulaOf : MixExpr ℝ → Written
  | .const n => .cc n
  | .rc x => .rc x
  | .var i => .cv i
  | .fsym _ => .cc 0
  | .bin l op r => .bin op (formulaOf l) (formulaOf r)

/-- How large the constants of a formula can become: constants and sums add, products multiply. -/
def constantBound : Written → Nat
  | .cc n => max 1 n.natAbs
  | .bin .mult a b => constantBound a * constantBound b
  | .bin _ a b => constantBound a + constantBound b
  | _ => 1

/-- No constant of the expression is larger than `w`. -/
def ConstantsUpTo {F : Type*} (w : Nat) : MixExpr F → Prop
  | .const n => n.natAbs ≤ w
  | .bin l _ r => ConstantsUpTo w l ∧ ConstantsUpTo w r
  | _ => True

end VM.Spec
