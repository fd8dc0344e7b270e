import Verif.Rt.Expr
import Verif.Num
/-
What `deep_equal` takes for equal.
-/
namespace VM.Spec
variable {K : Type} [Num K]

/-- `f` is written like `e`, up to three differences: vectors in `f` may be shorter by entries at the end, integrals may
have other bounds and another variable (or another symbolic interval), and constants only have to compare equal. -/
inductive Covers : Expr K → Expr K → Prop
  | const {c d : K} : Num.eqb d c = true → Covers (.const c) (.const d)
  | var {i} : Covers (.var i) (.var i)
  | fsym {i t} : Covers (.fsym i t) (.fsym i t)
  | un {op e f} : Covers e f → Covers (.un op e) (.un op f)
  | symInt {k l e f} : Covers e f → Covers (.un (.symInt k) e) (.un (.symInt l) f)
  | integ {lo hi x e lo' hi' x' f} : Covers e f → Covers (.integ lo hi x e) (.integ lo' hi' x' f)
  | bin {op l r l' r'} : Covers l l' → Covers r r' → Covers (.bin op l r) (.bin op l' r')
  | vec {es fs : List (Expr K)} : fs.length ≤ es.length →
      (∀ (i : Nat) e f, es[i]? = some e → fs[i]? = some f → Covers e f) → Covers (.vec es) (.vec fs)

end VM.Spec
