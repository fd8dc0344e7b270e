import Verif.NumFl
import Verif.Rt.Eval
import Verif.Rt.Coords
import Verif.Spec.QuadError
/-
C68: what a computation with floating point numbers is compared with.
-/
namespace VM.Spec
variable {R : Rounding}

/-- A floating point number that differs from the real number by at most `D` times the accuracy. -/
def NearNum (D : ℝ) (R : Rounding) (c : XReal) (d : Fl R) : Prop :=
  ∃ x y : ℝ, c = some x ∧ d.val = some y ∧ |y - x| ≤ D * R.eps

/-- The same expression, with floating point numbers near the real numbers as constants. -/
inductive NearExpr (D : ℝ) (R : Rounding) : Expr XReal → Expr (Fl R) → Prop
  | const {c d} : NearNum D R c d → NearExpr D R (.const c) (.const d)
  | var (i : Nat) : NearExpr D R (.var i) (.var i)
  | fn {f e d} : NearExpr D R e d → NearExpr D R (.un (.fn f) e) (.un (.fn f) d)
  | bin {op l r m s} : IsArithOp op → NearExpr D R l m → NearExpr D R r s → NearExpr D R (.bin op l r) (.bin op m s)

/-- Values near the given ones. -/
def NearVals (D : ℝ) (R : Rounding) : List XReal → List (Fl R) → Prop := List.Forall₂ (NearNum D R)

/-- Arithmetic of accuracy `R.eps`, down to numbers of magnitude `R.eps`, and up to numbers of magnitude `T`. -/
structure Fine (δ T : ℝ) (R : Rounding) : Prop where
  pos : 0 ≤ R.eps
  eps : R.eps ≤ δ
  eta : R.eta ≤ R.eps
  top : T ≤ R.top

/-- Sums, differences and products of constants and variables. -/
inductive Poly {K : Type} : Expr K → Prop
  | const (c : K) : Poly (.const c)
  | var (i : Nat) : Poly (.var i)
  | bin {op l r} : op = .plus ∨ op = .minus ∨ op = .mult → Poly l → Poly r → Poly (.bin op l r)

/-- The number of roundings that can add up in a polynomial expression. -/
def rounds {K : Type} : Expr K → Nat
  | .bin .mult l r => rounds l + rounds r + 1
  | .bin _ l r => max (rounds l) (rounds r) + 1
  | _ => 0

/-- The value of a polynomial expression if every number is replaced by its modulus and every difference by a
sum. -/
noncomputable def magnitude (v : List XReal) : Expr XReal → ℝ
  | .const c => |c.getD 0|
  | .var i => |(v.getD i none).getD 0|
  | .bin .mult l r => magnitude v l * magnitude v r
  | .bin _ l r => magnitude v l + magnitude v r
  | _ => 0

/-- A bound for the error of a polynomial expression, computed along with it: the error of the operands is handed
on, and the result is rounded with relative error `ε` and absolute error `η`. -/
noncomputable def errorBound (ε η : ℝ) (v : List XReal) : Expr XReal → ℝ
  | .bin .mult l r =>
    (1 + ε) * (magnitude v l * errorBound ε η v r + errorBound ε η v l * magnitude v r +
      errorBound ε η v l * errorBound ε η v r) + ε * (magnitude v l * magnitude v r) + η
  | .bin _ l r =>
    (1 + ε) * (errorBound ε η v l + errorBound ε η v r) + ε * (magnitude v l + magnitude v r) + η
  | _ => 0

/-- Sums and products of numbers that are not negative. -/
inductive Positive (v : List XReal) : Expr XReal → Prop
  | const {c : ℝ} : 0 ≤ c → Positive v (.const (some c))
  | var {i : Nat} {c : ℝ} : v[i]? = some (some c) → 0 ≤ c → Positive v (.var i)
  | bin {op l r} : op = .plus ∨ op = .mult → Positive v l → Positive v r → Positive v (.bin op l r)

/-- The same equation, with nearby numbers. -/
def NearEq (D : ℝ) (R : Rounding) (q : Equation XReal) (k : Equation (Fl R)) : Prop :=
  NearExpr D R q.lhs k.lhs ∧ NearExpr D R q.rhs k.rhs

/-- The same sum of integrals, with nearby numbers. -/
inductive NearForm (D : ℝ) (R : Rounding) : Expr XReal → Expr (Fl R) → Prop
  | integ {lo hi x e lo' hi' e'} : NearExpr D R lo lo' → NearExpr D R hi hi' → NearExpr D R e e' →
      NearForm D R (.integ lo hi x e) (.integ lo' hi' x e')
  | plus {l r m s} : NearForm D R l m → NearForm D R r s → NearForm D R (.bin .plus l r) (.bin .plus m s)
  | minus {l r m s} : NearForm D R l m → NearForm D R r s → NearForm D R (.bin .minus l r) (.bin .minus m s)

/-- A sum of integrals over intervals with constant bounds, each integrand depending on the variable of integration
only and defined at the midpoint, without a square root of zero. -/
inductive Integrable (o : Order XReal) : Expr XReal → Prop
  | integ {lo hi x e a b} : ConstArith lo → ConstArith hi → eval o [] lo = .ok (some a) →
      eval o [] hi = .ok (some b) → (∀ j, Occurs j e → j = x) →
      RegularAt o (along x ((a + b) / 2)) e → Integrable o (.integ lo hi x e)
  | plus {l r} : Integrable o l → Integrable o r → Integrable o (.bin .plus l r)
  | minus {l r} : Integrable o l → Integrable o r → Integrable o (.bin .minus l r)

end VM.Spec
