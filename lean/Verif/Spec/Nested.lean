import Verif.Ct.Manip
import Verif.Spec.CtManip
import Verif.Spec.Ct
import Mathlib.MeasureTheory.Integral.IntervalIntegral.Basic
/-
Specification of C95: iterated ctIntegrals.
-/
namespace VM.Spec
open VM.Ct

/-- One integration: the lower bound, the upper bound and the variable. -/
structure Span where
  lo : CtExpr
  hi : CtExpr
  var : Nat

/-- `integrate` applied to an integral, to an integral of that and so on, the last of the list first:
`integrate<a, b, integrate<c, d, E, y>, x>` is the list of (a, b, x) and (c, d, y). -/
def ctIntegrals (cv : Conv) : List Span → CtExpr → Option CtExpr
  | [], e => some e
  | s :: l, e => (ctIntegrals cv l e).bind fun r => ctIntegrate cv s.lo s.hi r (.var s.var)

/-- No variable occurs in a denominator. -/
def PolyAll (e : CtExpr) : Prop := ∀ j, PolyIn j e

/-- The iterated integral of the function `e` stands for, at the point `v`.  The first integration is the outermost one; the
bounds of the later ones may depend on the variables of the earlier ones. -/
noncomputable def iterated (φ : Nat → ℝ) : List Span → CtExpr → (Nat → ℝ) → ℝ
  | [], e, v => cval v φ e
  | s :: l, e, v => ∫ t in cval v φ s.lo..cval v φ s.hi, iterated φ l e (moved v s.var t)

/-- Whatever is integrated on the way, expanded and simplified, has no addend, and no numerator of an addend, that is a single
variable other than the one integrated in. -/
def NoLoneAlong (l : List Span) (e : CtExpr) : Prop :=
  ∀ outer s inner q p, l = outer ++ s :: inner → ctIntegrals strict inner e = some q →
    ctSimplify strict (expand q) = some p → NoLone s.var p

/-- Nothing but the variables of earlier integrations (those in `b`) occurs in the bounds, and no other variables and no
function symbols occur in the integrand. -/
def Closed : (Nat → Prop) → List Span → CtExpr → Prop
  | b, [], e => NoSym e ∧ ∀ j, Has j e → b j
  | b, s :: l, e => NoSym s.lo ∧ NoSym s.hi ∧ (∀ j, Has j s.lo ∨ Has j s.hi → b j) ∧
      Closed (fun j => b j ∨ j = s.var) l e

end VM.Spec
