import Verif.Ct.Form
import Verif.Spec.Weak
/-
What the integrand of a weak form means: real numbers and vectors.
-/
namespace VM.Spec
open VM.Ct

/-- A number or a vector. -/
inductive Mean (d : Nat) where
  | num (a : ℝ)
  | vec (x : Fin d → ℝ)

/-- `x op y` of real numbers. -/
noncomputable def realCOp : COp → ℝ → ℝ → Option ℝ
  | .plus => realOp .plus
  | .minus => realOp .minus
  | .mult => realOp .mult
  | .div => realOp .div

/-- The meaning of a formula at the point `p` if the function symbols stand for the functions `f 0` and `f 1`. -/
inductive Means {d : Nat} (f : Fin 2 → (Fin d → ℝ) → ℝ) (p : Fin d → ℝ) : Form d → Mean d → Prop
  | num (x) : Means f p (.num x) (.num x)
  | rc (x) : Means f p (.rc x) (.num x)
  | rv (i : Fin d) : Means f p (.rv i) (.num (p i))
  | sym (t : Fin 2) : Means f p (.sym t) (.num (f t p))
  | vec {es x} : (∀ i, Means f p (es i) (.num (x i))) → Means f p (.vec es) (.vec x)
  | expr {t m} : Means f p t m → Means f p (.expr t) m
  | op {op s t a b c} : Means f p s (.num a) → Means f p t (.num b) → realCOp op a b = some c →
      Means f p (.bin op s t) (.num c)
  | add {s t x y} : Means f p s (.vec x) → Means f p t (.vec y) → Means f p (.bin .plus s t) (.vec fun i => x i + y i)
  | sub {s t x y} : Means f p s (.vec x) → Means f p t (.vec y) → Means f p (.bin .minus s t) (.vec fun i => x i - y i)
  | scaleL {s t a x} : Means f p s (.num a) → Means f p t (.vec x) → Means f p (.bin .mult s t) (.vec fun i => a * x i)
  | scaleR {s t a x} : Means f p s (.vec x) → Means f p t (.num a) → Means f p (.bin .mult s t) (.vec fun i => x i * a)
  | quot {s t a x} : Means f p s (.vec x) → Means f p t (.num a) → a ≠ 0 →
      Means f p (.bin .div s t) (.vec fun i => x i / a)
  | dot {s t x y} : Means f p s (.vec x) → Means f p t (.vec y) → Means f p (.bin .mult s t) (.num (∑ i, x i * y i))
  | fn {g t a b} : Means f p t (.num a) → realFn g a = some b → Means f p (.fn g t) (.num b)
  /-- the gradient in one dimension is a number -/
  | gradOne (h : d = 1) (t : Fin 2) : Means f p (.grad (.sym t)) (.num (partialDeriv ⟨0, by omega⟩ (f t) p))
  | grad (t : Fin 2) : 2 ≤ d → Means f p (.grad (.sym t)) (.vec fun i => partialDeriv i (f t) p)
  | div (t : Fin 2) : Means f p (.div (.sym t)) (.num (∑ i, partialDeriv i (f t) p))
  | laplace (t : Fin 2) : Means f p (.laplace (.sym t)) (.num (∑ i, partialDeriv i (partialDeriv i (f t)) p))
  | diff (t : Fin 2) (i : Fin d) : Means f p (.diff (.sym t) i) (.num (partialDeriv i (f t) p))

/-- Numbers, vector objects, and vectors inside of expressions. -/
inductive Kind where
  | num | vec | inExpr

/-- Formulas in which a vector inside of an expression (a gradient, or `expr(v)` for a vector object `v`) is only ever
multiplied with another one, and a Laplacian does not occur. -/
inductive Direct {d : Nat} : Form d → Kind → Prop
  | number (x) : Direct (.num x) .num
  | rc (x) : Direct (.rc x) .num
  | rv (i) : Direct (.rv i) .num
  | sym (t) : Direct (.sym t) .num
  | vec {es} : (∀ i, Direct (es i) .num) → Direct (.vec es) .vec
  | expr {t} : Direct t .num → Direct (.expr t) .num
  | exprVec {t} : 2 ≤ d → Direct t .vec → Direct (.expr t) .inExpr
  | exprIn {t} : Direct t .inExpr → Direct (.expr t) .inExpr
  | op {op s t} : Direct s .num → Direct t .num → Direct (.bin op s t) .num
  | add {s t} : Direct s .vec → Direct t .vec → Direct (.bin .plus s t) .vec
  | sub {s t} : Direct s .vec → Direct t .vec → Direct (.bin .minus s t) .vec
  | scaleL {s t} : Direct s .num → Direct t .vec → Direct (.bin .mult s t) .vec
  | scaleR {s t} : Direct s .vec → Direct t .num → Direct (.bin .mult s t) .vec
  | quot {s t} : Direct s .vec → Direct t .num → Direct (.bin .div s t) .vec
  | dotVec {s t} : Direct s .vec → Direct t .vec → Direct (.bin .mult s t) .num
  | dotIn {s t} : Direct s .inExpr → Direct t .inExpr → Direct (.bin .mult s t) .num
  | fn {g t} : g ≠ .id → Direct t .num → Direct (.fn g t) .num
  | gradOne (t) : d = 1 → Direct (.grad (.sym t)) .num
  | grad (t) : 2 ≤ d → Direct (.grad (.sym t)) .inExpr
  | div (t) : Direct (.div (.sym t)) .num
  | diff (t i) : Direct (.diff (.sym t) i) .num

/-- The formula is a number of type `double`. -/
def Form.IsNumber {d : Nat} : Form d → Prop
  | .num _ => True
  | .bin _ a b => IsNumber a ∧ IsNumber b
  | .fn _ t => IsNumber t
  | _ => False

/-- The formula is a function call (but not a number), a gradient or a divergence. -/
def Form.Call {d : Nat} : Form d → Prop
  | .fn _ t => ¬ IsNumber t
  | .grad _ => True
  | .div _ => True
  | _ => False

/-- Somewhere, `exp` is applied to a function call, or a function directly to `u` or `v`. -/
def Form.Faulty {d : Nat} : Form d → Prop
  | .fn f t => (f = .exp ∧ Call t) ∨ (∃ s, t = .sym s) ∨ Faulty t
  | .bin _ a b => Faulty a ∨ Faulty b
  | .expr t => Faulty t
  | .vec es => ∃ i, Faulty (es i)
  | .grad t => Faulty t
  | .div t => Faulty t
  | .laplace t => Faulty t
  | .diff t _ => Faulty t
  | _ => False

/-- The value of a weak form: `dom` is the domain of integration, and `J g c` says that the integral of `g` over it is
`c`. -/
inductive WeakMeans {d : Nat} (f : Fin 2 → (Fin d → ℝ) → ℝ) (dom : (Fin d → ℝ) → Prop)
    (J : ((Fin d → ℝ) → ℝ) → ℝ → Prop) : Weak d → ℝ → Prop
  | integral {t c} (g : (Fin d → ℝ) → ℝ) : (∀ p, dom p → Means f p t (.num (g p))) → J g c →
      WeakMeans f dom J (.integral t) c
  | plus {s t a b} : WeakMeans f dom J s a → WeakMeans f dom J t b → WeakMeans f dom J (.plus s t) (a + b)
  | minus {s t a b} : WeakMeans f dom J s a → WeakMeans f dom J t b → WeakMeans f dom J (.minus s t) (a - b)

/-- All integrands are direct. -/
def Weak.Direct {d : Nat} : Weak d → Prop
  | .integral t => Spec.Direct t .num
  | .plus a b => Direct a ∧ Direct b
  | .minus a b => Direct a ∧ Direct b

/-- Some integrand does not compile, or is just a number of type `double`. -/
def Weak.Faulty {d : Nat} : Weak d → Prop
  | .integral t => Form.Faulty t ∨ Form.IsNumber t
  | .plus a b => Faulty a ∨ Faulty b
  | .minus a b => Faulty a ∨ Faulty b

end VM.Spec
