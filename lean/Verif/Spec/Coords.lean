import Verif.Spec.Syntax
import Verif.Num
/-
Gradients and divergences in Cartesian coordinates.
-/
namespace VM.Spec
variable {K : Type}

/-- The partial derivatives of a function symbol with respect to the first `d` coordinates. -/
def partials (d i t : Nat) : List (Expr K) := (List.range d).map fun x => .un (.pd x) (.fsym i t)

/-- The sum of a list of expressions, from the left. -/
def sumOf : List (Expr K) → Expr K
  | [] => .vec []
  | e :: es => es.foldl (.bin .plus) e

/-- The gradient in `d` dimensions: the vector of partial derivatives (the derivative if `d = 1`). -/
def gradIn (d i t : Nat) : Expr K :=
  if d = 1 then .un (.pd 0) (.fsym i t) else .vec (partials d i t)

/-- The divergence: the sum of the partial derivatives. -/
def divIn (d i t : Nat) : Expr K := sumOf (partials d i t)

/-- The gradients and divergences of `u = (0, 0)` and `v = (0, 1)`. -/
def ofUV (d : Nat) : UOp → Expr K → Option (Expr K)
  | .grad, .fsym 0 0 => some (gradIn d 0 0)
  | .grad, .fsym 0 1 => some (gradIn d 0 1)
  | .divg, .fsym 0 0 => some (divIn d 0 0)
  | .divg, .fsym 0 1 => some (divIn d 0 1)
  | _, _ => none

mutual
/-- The expression with the gradients and divergences of `u` and `v` written out, at every place outside of integration bounds. -/
def writtenOut (d : Nat) : Expr K → Expr K
  | .un op e => (ofUV d op e).getD (.un op (writtenOut d e))
  | .integ lo hi x e => .integ lo hi x (writtenOut d e)
  | .bin op l r => .bin op (writtenOut d l) (writtenOut d r)
  | .vec es => .vec (writtenOutL d es)
  | .const c => .const c
  | .var i => .var i
  | .fsym i t => .fsym i t
def writtenOutL (d : Nat) : List (Expr K) → List (Expr K)
  | [] => []
  | e :: es => writtenOut d e :: writtenOutL d es
end

/-- Expressions that simplification cannot turn into a number: every operation in them is on two such
expressions, or on one and a constant other than 0 and 1. -/
inductive Firm [Num K] : Expr K → Prop
  | var (i) : Firm (.var i)
  | fsym (i t) : Firm (.fsym i t)
  | fn (f) {e} : Firm e → Firm (.un (.fn f) e)
  | un {op} (e) : (∀ f, op ≠ .fn f) → Firm (.un op e)
  | integ (lo hi x e) : Firm (.integ lo hi x e)
  | vec {es} : (∀ e ∈ es, Firm e) → Firm (.vec es)
  | bin (op) {l r} : Firm l → Firm r → Firm (.bin op l r)
  | binL (op) {c r} : Num.eqb c (Num.lit 0) = false → Num.eqb c (Num.lit 1) = false → Firm r →
      Firm (.bin op (.const c) r)
  | binR (op) {c l} : Num.eqb c (Num.lit 0) = false → Num.eqb c (Num.lit 1) = false → Firm l →
      Firm (.bin op l (.const c))

/-- Expressions that simplification cannot turn into a function symbol: constants, unary nodes, vectors,
integrals, sums of these, and firm expressions other than function symbols. -/
inductive Solid [Num K] : Expr K → Prop
  | const (c) : Solid (.const c)
  | un (op e) : Solid (.un op e)
  | integ (lo hi x e) : Solid (.integ lo hi x e)
  | vec (es) : Solid (.vec es)
  | plus {l r} : Solid l → Solid r → Solid (.bin .plus l r)
  | firm {e} : Firm e → (∀ i t, e ≠ .fsym i t) → Solid e

/-- No gradient and no divergence anywhere. -/
inductive NoGrad : Expr K → Prop
  | const (c) : NoGrad (.const c)
  | var (i) : NoGrad (.var i)
  | fsym (i t) : NoGrad (.fsym i t)
  | un {op e} : op ≠ .grad → op ≠ .divg → NoGrad e → NoGrad (.un op e)
  | integ (x) {lo hi e} : NoGrad lo → NoGrad hi → NoGrad e → NoGrad (.integ lo hi x e)
  | bin (op) {l r} : NoGrad l → NoGrad r → NoGrad (.bin op l r)
  | vec {es} : (∀ e ∈ es, NoGrad e) → NoGrad (.vec es)

/-- Every gradient and divergence of a function symbol in the expression (anywhere) is that of a symbol satisfying
`P` (operator, id, tag); the operators in `A` are applied to function symbols and solid expressions only; there are
no gradients and divergences in integration bounds. -/
inductive GradOf [Num K] (A : UOp → Prop) (P : UOp → Nat → Nat → Prop) : Expr K → Prop
  | const (c) : GradOf A P (.const c)
  | var (i) : GradOf A P (.var i)
  | fsym (i t) : GradOf A P (.fsym i t)
  | un {op e} : (op = .grad ∨ op = .divg → ∀ i t, e = .fsym i t → P op i t) →
      (A op → Solid e ∨ ∃ i t, e = .fsym i t) → GradOf A P e → GradOf A P (.un op e)
  | integ (x) {lo hi e} : NoGrad lo → NoGrad hi → GradOf A P e → GradOf A P (.integ lo hi x e)
  | bin (op) {l r} : GradOf A P l → GradOf A P r → GradOf A P (.bin op l r)
  | vec {es} : (∀ e ∈ es, GradOf A P e) → GradOf A P (.vec es)

/-- Gradients (not divergences). -/
def IsGrad (op : UOp) : Prop := op = .grad
/-- Gradients and divergences. -/
def IsGradDiv (op : UOp) : Prop := op = .grad ∨ op = .divg

/-- Function symbols other than `u` and `v`. -/
def NotUV (_op : UOp) (i t : Nat) : Prop := ¬ (i = 0 ∧ (t = 0 ∨ t = 1))

end VM.Spec
