import Verif.Rt.Expr
/-
C81: the number of calls.
-/
namespace VM.Spec
variable {K : Type}

/-- `x + x + ... + x` with `n` signs. -/
def sums : Nat → Expr K
  | 0 => .var 0
  | n + 1 => .bin .plus (sums n) (.var 0)

end VM.Spec
