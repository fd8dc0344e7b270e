import Verif.Spec.CtIterated
import Verif.Spec.CtManip
/-
Vocabulary of C110.
-/
namespace VM.Spec
open VM.Ct

/-- A polynomial in the variables of `S`, of (total) degree at most the number: these variables are not in the
coefficients nor in what is divided by. -/
inductive CtDegree (S : Nat → Prop) : Nat → CtExpr → Prop
  | coef {e} : (∀ i, S i → ¬ Has i e) → CtDegree S 0 e
  | var (i) : CtDegree S 1 (.var i)
  | plus {m n l r} : CtDegree S m l → CtDegree S n r → CtDegree S (max m n) (l +' r)
  | minus {m n l r} : CtDegree S m l → CtDegree S n r → CtDegree S (max m n) (l -' r)
  | mult {m n l r} : CtDegree S m l → CtDegree S n r → CtDegree S (m + n) (l *' r)
  | div {m l r} : CtDegree S m l → (∀ i, S i → ¬ Has i r) → CtDegree S m (l /' r)

/-- As `CtStep.run`; the function says what becomes of a number that leaves the range of `int`. -/
def CtStep.runWith (cv : Conv) : List CtStep → CtExpr → Option CtExpr
  | [], e => some e
  | .diff i :: l, e => (ctDiff i e).bind (runWith cv l)
  | .simplify :: l, e => (ctSimplify cv e).bind (runWith cv l)
  | .expand :: l, e => runWith cv l (Ct.expand e)

/-- What a number becomes that leaves the range of `int` is left open; 0 stays 0. -/
def KeepsZero (cv : Conv) : Prop := ∀ y, cv 0 = some y → y = 0

end VM.Spec
