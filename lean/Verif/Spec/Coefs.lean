import Verif.Ct.Manip
/-
Vocabulary of C96.
-/
namespace VM.Spec
open VM.Ct

/-- `coefficient(x, coefficient(x, ... e))`, `k` times. -/
def coefs (i : Nat) : Nat → CtExpr → Option CtExpr
  | 0, e => some e
  | k + 1, e => (coefficient (.var i) e).bind (coefs i k)

/-- `diff(diff(... e, x), x)`, `k` times. -/
def ctDiffs (i : Nat) : Nat → CtExpr → Option CtExpr
  | 0, e => some e
  | k + 1, e => (ctDiff i e).bind (ctDiffs i k)

end VM.Spec
