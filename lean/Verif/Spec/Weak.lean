import Verif.Spec.Written
import Verif.Spec.Coords
import Verif.Spec.Iterated
import Verif.Rt.Coords
import Verif.Rt.Traverse
/-
Weak forms: what the integrand means for given functions `u` and `v`, and how a user gets its value.
-/
namespace VM.Spec
open Classical

/-- `x op y` of real numbers. -/
noncomputable def realOp : BOp → ℝ → ℝ → Option ℝ
  | .plus, x, y => some (x + y)
  | .minus, x, y => some (x - y)
  | .mult, x, y => some (x * y)
  | .div, x, y => if y = 0 then none else some (x / y)
  | .uid, _, _ => none

/-- The entries of a vector: of a vector expression, or of a gradient in more than one dimension. -/
inductive Entries (d : Nat) : Expr XReal → List (Expr XReal) → Prop
  | vec {es} : es.length = d → Entries d (.vec es) es
  | grad (t) : Entries d (.un .grad (.fsym 0 t)) ((List.range d).map fun x => .un (.pd x) (.fsym 0 t))

/-- The value of an integrand at the point `p` of `d`-dimensional space if the function symbols with the
tags 0 (`u`) and 1 (`v`) stand for the functions `f 0` and `f 1`. -/
inductive WeakVal {d : Nat} (f : Fin 2 → (Fin d → ℝ) → ℝ) (p : Fin d → ℝ) : Expr XReal → ℝ → Prop
  | const (c : ℝ) : WeakVal f p (.const (some c)) c
  | var (i : Fin d) : WeakVal f p (.var i) (p i)
  | sym (t : Fin 2) : WeakVal f p (.fsym 0 t) (f t p)
  | fn {g e x y} : WeakVal f p e x → realFn g x = some y → WeakVal f p (.un (.fn g) e) y
  | op {op l r x y z} : WeakVal f p l x → WeakVal f p r y → realOp op x y = some z → WeakVal f p (.bin op l r) z
  /-- partial derivative -/
  | pd (i : Fin d) (t : Fin 2) : WeakVal f p (.un (.pd i) (.fsym 0 t)) (partialDeriv i (f t) p)
  /-- divergence -/
  | div (t : Fin 2) : WeakVal f p (.un .divg (.fsym 0 t)) (∑ i, partialDeriv i (f t) p)
  /-- the gradient in one dimension is a number -/
  | grad (h : d = 1) (t : Fin 2) : WeakVal f p (.un .grad (.fsym 0 t)) (partialDeriv ⟨0, by omega⟩ (f t) p)
  /-- product of two vectors -/
  | dot {l r ls rs} (x y : Fin d → ℝ) : 2 ≤ d → Entries d l ls → Entries d r rs →
      (∀ (i : Fin d) e, ls[(i : Nat)]? = some e → WeakVal f p e (x i)) →
      (∀ (i : Fin d) e, rs[(i : Nat)]? = some e → WeakVal f p e (y i)) →
      WeakVal f p (.bin .mult l r) (∑ i, x i * y i)

/-- The value of a form that is made of integrals over the symbolic interval `k` with `+` and `-`; `dom` is the
domain of integration, and `J g c` says that the integral of `g` over it is `c`. -/
inductive WeakForm {d : Nat} (f : Fin 2 → (Fin d → ℝ) → ℝ) (k : Nat) (dom : (Fin d → ℝ) → Prop)
    (J : ((Fin d → ℝ) → ℝ) → ℝ → Prop) : Expr XReal → ℝ → Prop
  | integral {e c} (g : (Fin d → ℝ) → ℝ) : (∀ p, dom p → WeakVal f p e (g p)) → J g c →
      WeakForm f k dom J (.un (.symInt k) e) c
  | plus {l r a b} : WeakForm f k dom J l a → WeakForm f k dom J r b → WeakForm f k dom J (.bin .plus l r) (a + b)
  | minus {l r a b} : WeakForm f k dom J l a → WeakForm f k dom J r b → WeakForm f k dom J (.bin .minus l r) (a - b)

/-- The program of a user: for each `(t, x)` in the list, replace the derivative of the function symbol with
tag `t` by the `x`-th variable by that of the expression `F t`. -/
noncomputable def replaceDerivatives (F : Nat → Expr XReal) : List (Nat × Nat) → Expr XReal → Res (Expr XReal)
  | [], e => .ok e
  | (t, x) :: l, e => (diff (.var x) (F t)).bind fun D =>
      (substitute (diffSymbol 0 t x) D e).bind (replaceDerivatives F l)

/-- Then replace `u` by `F 0` and `v` by `F 1`. -/
noncomputable def insertFunctions (F : Nat → Expr XReal) (l : List (Nat × Nat)) (e : Expr XReal) : Res (Expr XReal) :=
  (replaceDerivatives F l e).bind fun e1 =>
  (substitute (.fsym 0 0) (F 0) e1).bind fun e2 => substitute (.fsym 0 1) (F 1) e2

end VM.Spec
