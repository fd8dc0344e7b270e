import Verif.Ct.Overload
import Verif.Spec.Ct
/-
Which calls of `simplify`, `diff` and `substitute` compile, and what it means that the outcome is the one for
`expr` objects.
-/
namespace VM.Spec
open VM.Ct
variable {K : Type} [Num K]

/-- An object of a compile-time class. -/
def CompileTime (a : Arg K) : Prop := ∃ e, a = .ct e

/-- No compile-time function symbols inside. -/
def SymbolFree (a : Arg K) : Prop := ∀ e, a = .ct e → NoSym e

/-- The run-time objects that can be passed by their address. -/
def addressable : List Cls := [.rtConst, .rtVar, .fsym, .un, .bin, .vec]

/-- The classes of `a` for which `diff(a, v)` is declared, by the class of `v`. -/
def differentiable : Cls → List Cls
  | .rtVar => [.int, .num, .rtConst, .fsym, .un, .bin, .expr, .ctConst]
  | .ctVar => [.fsym, .un, .bin, .expr, .ctConst, .ctVar, .ctBin]
  | .fsym => [.fsym, .un, .bin, .expr]
  | _ => []

/-- The classes of replacements `r` for which `substitute(s, r, e)` compiles with an `expr` for `e`, by the
class of `s`. -/
def replacements : Cls → List Cls
  | .rtVar => .num :: addressable
  | .fsym => [.int, .num, .rtConst, .ctConst, .expr]
  | .un => .expr :: addressable
  | .bin => addressable
  | .expr => [.expr]
  | _ => []

/-- The variable or function symbol an object stands for. -/
def direction : Arg K → Option DVar
  | .rtVar i => some (.var i)
  | .ct (.var i) => some (.var i)
  | .fsym i t => some (.fsym i t)
  | _ => none

/-- `s` is `e` or an operand somewhere inside of it. -/
inductive Inside (s : CtExpr) : CtExpr → Prop
  | here : Inside s s
  | left {l op r} : Inside s l → Inside s (.bin l op r)
  | right {l op r} : Inside s r → Inside s (.bin l op r)

/-- `substitute(s, r, e)` compiles. -/
def SubstCompiles (s r e : Arg K) : Prop :=
  (e.cls = .expr ∧ r.cls ∈ replacements s.cls) ∨
  (e.cls ∈ addressable ∧ s.cls = .rtVar ∧ r.cls ∈ addressable) ∨
  (∃ e', e = .ct e' ∧ s.cls ≠ .rtVar ∧ ∀ s', s = .ct s' → Inside s' e' → r.cls ∉ [.rtConst, .rtVar, .vec])

/-- What is returned, as an `expr`.  An object with default-constructed parts is not one. -/
def asExpr : Out K → Option (Expr K)
  | .obj a => a.toExpr
  | .hollow .. => none

/-- The call has the given outcome for `expr` objects. -/
def Exactly (r : Res (Out K)) (s : Res (Expr K)) : Prop :=
  match s with
  | .ok e => ∃ o, r = .ok o ∧ asExpr o = some e
  | .throw x => r = .throw x
  | .ub => r = .ub

/-- The call has the given outcome for `expr` objects after simplification of what it returns. -/
def Simplified (r : Res (Out K)) (s : Res (Expr K)) : Prop :=
  ∃ o e, r = .ok o ∧ asExpr o = some e ∧ simplified e = s

/-- Integers that differ are different numbers (for `double`: as long as they are exact). -/
def LitsDistinct (K : Type) [Num K] : Prop :=
  ∀ a b : Int, Num.eqb (Num.lit a : K) (Num.lit b) = decide (a = b)

end VM.Spec
