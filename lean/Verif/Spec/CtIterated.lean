import Verif.Ct.Manip
import Verif.Ct.Simplify
import Verif.Spec.Ct
/-
Vocabulary of C98.
-/
namespace VM.Spec
open VM.Ct

/-- One manipulation of a compile-time expression. -/
inductive CtStep
  | diff (i : Nat)
  | simplify
  | expand

/-- Manipulations one after the other, first one first.  None: one of them does not compile, or a number in it leaves the
range of `int`. -/
def CtStep.run : List CtStep → CtExpr → Option CtExpr
  | [], e => some e
  | .diff i :: l, e => (ctDiff i e).bind (run l)
  | .simplify :: l, e => (ctSimplify strict e).bind (run l)
  | .expand :: l, e => run l (Ct.expand e)

/-- The variables differentiated by, first one first. -/
def CtStep.byVars : List CtStep → List Nat
  | [] => []
  | .diff i :: l => i :: byVars l
  | _ :: l => byVars l

/-- The point with the first `n` coordinates `p` and the others as in `v`. -/
def startingWith {F : Type*} {n : Nat} (v : Nat → F) (p : Fin n → F) : Nat → F :=
  fun j => if h : j < n then p ⟨j, h⟩ else v j

end VM.Spec
