import Verif.NumIeee
import Verif.Spec.Syntax
import Mathlib.Algebra.MvPolynomial.PDeriv
/-
C84: polynomials with integer coefficients.
-/
namespace VM.Spec
open MvPolynomial
variable {R : Rounding}

/-- The number is the integer `n`; both zeros are 0. -/
def IsInteger (x : Ieee R) (n : ℤ) : Prop :=
  match x with
  | .zero _ => n = 0
  | .num y _ _ => y = n
  | _ => False

/-- The format has all integers up to `N` and down to `-N`. -/
def Integers (R : Rounding) (N : ℕ) : Prop := ∀ n : ℤ, n.natAbs ≤ N → R.mem n

/-- The expression is written with integers, variables `x_i` with `w i` not 0, and `+`, `-`, `*`, and says the
polynomial `p`.  `m` is what it amounts to if all signs are positive, all numbers at least 1 and the values of the
variables `w i`; no term has more than `d` factors, where `-` counts as a factor. -/
inductive SaysPoly (w : ℕ → ℕ) : Expr (Ieee R) → MvPolynomial ℕ ℤ → (m d : ℕ) → Prop
  | const {c n} : IsInteger c n → SaysPoly w (.const c) (C n) (max 1 n.natAbs) 1
  | var {i} : 0 < w i → SaysPoly w (.var i) (X i) (w i) 1
  | id {e p m d} : SaysPoly w e p m d → SaysPoly w (.un (.fn .id) e) p m d
  | plus {l r p q m k d f} : SaysPoly w l p m d → SaysPoly w r q k f → SaysPoly w (.bin .plus l r) (p + q) (m + k) (max d f)
  | minus {l r p q m k d f} : SaysPoly w l p m d → SaysPoly w r q k f → SaysPoly w (.bin .minus l r) (p - q) (m + k) (max d (f + 1))
  | mult {l r p q m k d f} : SaysPoly w l p m d → SaysPoly w r q k f → SaysPoly w (.bin .mult l r) (p * q) (m * k) (d + f)

/-- The values: integers `a i`, not larger than `w i`, for the variables with `w i` not 0. -/
def AtInts (w : ℕ → ℕ) (a : ℕ → ℤ) (v : List (Ieee R)) : Prop :=
  ∀ i, 0 < w i → (a i).natAbs ≤ w i ∧ ∃ x, v[i]? = some x ∧ IsInteger x (a i)

end VM.Spec
