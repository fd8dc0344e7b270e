import Verif.Rt.Expr
/-
What an expression means: an inductive semantics that is independent of `eval` and covers more node
kinds (function symbols with given values, products of vectors, integrals with a given meaning of
"integral").
-/
namespace VM.Spec
variable {K : Type} [Num K]

/-- An interpretation of the symbolic node kinds. -/
structure Interp (K : Type) where
  /-- value of a function symbol (id, tag) -/
  sym : Nat → Nat → Option K
  /-- value of the formal partial derivative, with respect to a variable, of a function symbol -/
  pd : Nat → Nat → Nat → Option K
  /-- numbers an integrand may take -/
  good : K → Prop
  /-- `dom a b t`: `t` is in the integration domain between `a` and `b` -/
  dom : K → K → K → Prop
  /-- `int a b f c`: the integral of `f` from `a` to `b` is `c` -/
  int : K → K → (K → K) → K → Prop

/-- No symbolic node kind has a value. -/
def Interp.none : Interp K := ⟨fun _ _ => Option.none, fun _ _ _ => Option.none, fun _ => False,
  fun _ _ _ => False, fun _ _ _ _ => False⟩

/-- Meaning of the binary operators. -/
def opVal : BOp → K → K → Option K
  | .plus, x, y => some (Num.add x y)
  | .minus, x, y => some (Num.sub x y)
  | .mult, x, y => some (Num.mul x y)
  | .div, x, y => some (Num.div x y)
  | .uid, _, _ => Option.none

/-- `ρ` with the value of variable `x` changed to `t`. -/
def upd (ρ : Nat → Option K) (x : Nat) (t : K) : Nat → Option K :=
  fun i => if i = x then some t else ρ i

/-- `Val I ρ e a`: the expression `e` has the value `a` where `ρ` gives the values of the variables. -/
inductive Val (I : Interp K) : (Nat → Option K) → Expr K → K → Prop
  | const {ρ c} : Val I ρ (.const c) c
  | var {ρ i a} : ρ i = some a → Val I ρ (.var i) a
  | fsym {ρ i t a} : I.sym i t = some a → Val I ρ (.fsym i t) a
  | fn {ρ f e a} : Val I ρ e a → Val I ρ (.un (.fn f) e) (applyFn f a)
  | pd {ρ x i t a} : I.pd x i t = some a → Val I ρ (.un (.pd x) (.fsym i t)) a
  | bin {ρ op l r a b c} : Val I ρ l a → Val I ρ r b → opVal op a b = some c →
      Val I ρ (.bin op l r) c
  /-- product of vectors with one entry -/
  | dotOne {ρ l r a} : Val I ρ (.bin .mult l r) a → Val I ρ (.bin .mult (.vec [l]) (.vec [r])) a
  /-- one more entry: one more summand -/
  | dotSnoc {ρ ls rs l r a b} : Val I ρ (.bin .mult (.vec ls) (.vec rs)) a →
      Val I ρ (.bin .mult l r) b → Val I ρ (.bin .mult (.vec (ls ++ [l])) (.vec (rs ++ [r]))) (Num.add a b)
  | integ {ρ lo hi x e a b c} (f : K → K) : Val I ρ lo a → Val I ρ hi b →
      (∀ t, I.dom a b t → Val I (upd ρ x t) e (f t)) → (∀ t, I.dom a b t → I.good (f t)) →
      I.int a b f c → Val I ρ (.integ lo hi x e) c

end VM.Spec
