import Verif.Spec.Iterated
import Verif.Spec.Diff
/-
Vocabulary of C106: the degree of an expression that is a polynomial in some of the variables.
-/
namespace VM.Spec

/-- A polynomial in the variables of `S`, of (total) degree at most the number: the coefficients, and what is divided by,
are smooth expressions without these variables. -/
inductive DegreeIn (S : Nat → Prop) : Nat → Expr XReal → Prop
  | coef {e} : Smooth e → (∀ i, S i → ¬ Occurs i e) → DegreeIn S 0 e
  | var {i} : S i → DegreeIn S 1 (.var i)
  | plus {m n l r} : DegreeIn S m l → DegreeIn S n r → DegreeIn S (max m n) (.bin .plus l r)
  | minus {m n l r} : DegreeIn S m l → DegreeIn S n r → DegreeIn S (max m n) (.bin .minus l r)
  | mult {m n l r} : DegreeIn S m l → DegreeIn S n r → DegreeIn S (m + n) (.bin .mult l r)
  | div {m l r} : DegreeIn S m l → Smooth r → (∀ i, S i → ¬ Occurs i r) → DegreeIn S m (.bin .div l r)

/-- Without functions. -/
inductive NoFns : Expr XReal → Prop
  | const (c) : NoFns (.const c)
  | var (i) : NoFns (.var i)
  | bin {op l r} : IsArithOp op → NoFns l → NoFns r → NoFns (.bin op l r)

end VM.Spec
