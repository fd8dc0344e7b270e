import Verif.Spec.Val
/-
For C20: what the library makes of a variable that is substituted, integrals included.  Names are looked up where they are
written after the replacement (dynamic scope), and bounds of integrals are out of reach.
-/
namespace VM.Spec
variable {K : Type} [Num K]

/-- `Scoped I i r ρ e a`: `e` has the value `a` where `ρ` gives the values of the variables, except that `x_i` stands for `r`,
also where `x_i` is bound by an integral, `r` being evaluated with the integration variables of all integrals around that
place; integration bounds are read without the exception. -/
inductive Scoped (I : Interp K) (i : Nat) (r : Expr K) : (Nat → Option K) → Expr K → K → Prop
  | const {ρ c} : Scoped I i r ρ (.const c) c
  | this {ρ a} : Val I ρ r a → Scoped I i r ρ (.var i) a
  | other {ρ j a} : j ≠ i → ρ j = some a → Scoped I i r ρ (.var j) a
  | fsym {ρ j t a} : I.sym j t = some a → Scoped I i r ρ (.fsym j t) a
  | fn {ρ f e a} : Scoped I i r ρ e a → Scoped I i r ρ (.un (.fn f) e) (applyFn f a)
  | pd {ρ x j t a} : I.pd x j t = some a → Scoped I i r ρ (.un (.pd x) (.fsym j t)) a
  | bin {ρ op e f a b c} : Scoped I i r ρ e a → Scoped I i r ρ f b → opVal op a b = some c →
      Scoped I i r ρ (.bin op e f) c
  | dotOne {ρ e f a} : Scoped I i r ρ (.bin .mult e f) a → Scoped I i r ρ (.bin .mult (.vec [e]) (.vec [f])) a
  | dotSnoc {ρ es fs e f a b} : Scoped I i r ρ (.bin .mult (.vec es) (.vec fs)) a →
      Scoped I i r ρ (.bin .mult e f) b →
      Scoped I i r ρ (.bin .mult (.vec (es ++ [e])) (.vec (fs ++ [f]))) (Num.add a b)
  | integ {ρ lo hi x e a b c} (f : K → K) : Val I ρ lo a → Val I ρ hi b →
      (∀ t, I.dom a b t → Scoped I i r (upd ρ x t) e (f t)) → (∀ t, I.dom a b t → I.good (f t)) →
      I.int a b f c → Scoped I i r ρ (.integ lo hi x e) c

end VM.Spec
