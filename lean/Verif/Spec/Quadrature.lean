import Verif.Spec.Syntax
/-
Sums and differences of integrals.
-/
namespace VM.Spec
variable {K : Type} [Num K]

/-- `s` is reached from `e` through sums and differences only. -/
inductive Summand (s : Expr K) : Expr K → Prop
  | refl : Summand s s
  | plusL {l r} : Summand s l → Summand s (.bin .plus l r)
  | plusR {l r} : Summand s r → Summand s (.bin .plus l r)
  | minusL {l r} : Summand s l → Summand s (.bin .minus l r)
  | minusR {l r} : Summand s r → Summand s (.bin .minus l r)

/-- `e` is made of integrals with `+` and `-`, and `a` is the corresponding sum of the numbers `q` gives
for the integrals. -/
inductive SumOf (q : Expr K → Expr K → Nat → Expr K → K → Prop) : Expr K → K → Prop
  | integ {lo hi x e a} : q lo hi x e a → SumOf q (.integ lo hi x e) a
  | plus {l r a b} : SumOf q l a → SumOf q r b → SumOf q (.bin .plus l r) (Num.add a b)
  | minus {l r a b} : SumOf q l a → SumOf q r b → SumOf q (.bin .minus l r) (Num.sub a b)

/-- `e` is made of integrals and constant expressions of value zero with `+` and `-`. -/
inductive SumWithZeros (zero : Expr K → Prop) : Expr K → Prop
  | integ (lo hi x e) : SumWithZeros zero (.integ lo hi x e)
  | zero {e} : ConstArith e → zero e → SumWithZeros zero e
  | plus {l r} : SumWithZeros zero l → SumWithZeros zero r → SumWithZeros zero (.bin .plus l r)
  | minus {l r} : SumWithZeros zero l → SumWithZeros zero r → SumWithZeros zero (.bin .minus l r)

end VM.Spec
