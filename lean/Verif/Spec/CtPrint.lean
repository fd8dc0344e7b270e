import Verif.Ct.Ops
/-
What the claims about the text of compile-time expressions speak about.
-/
namespace VM.Spec
open VM.Ct
variable {K : Type}

/-- There is no function symbol inside. -/
def NoSymbol : MixExpr K → Prop
  | .fsym _ => False
  | .bin l _ r => NoSymbol l ∧ NoSymbol r
  | _ => True

/-- The run-time constants inside are from the set `S`. -/
def ConstantsIn (S : K → Prop) : MixExpr K → Prop
  | .rc c => S c
  | .bin l _ r => ConstantsIn S l ∧ ConstantsIn S r
  | _ => True

/-- There is no run-time constant inside. -/
def NoRunTimeConstant : MixExpr K → Prop
  | .rc _ => False
  | .bin l _ r => NoRunTimeConstant l ∧ NoRunTimeConstant r
  | _ => True

end VM.Spec
