import Verif.Spec.Syntax
import Verif.Rt.Equal
/-
Specification of simultaneous replacement.
-/
namespace VM.Spec
variable {K : Type}

/-- `e'` is `e` with outermost matches replaced: `hit t r` says that the subexpression `t` matches and
its replacement is `r`, `miss t` that it does not match.  A replacement is inserted as it is; operands of
a node that does not match are treated in the same way.  Integration bounds and variables stay. -/
inductive Replaced (hit : Expr K → Expr K → Prop) (miss : Expr K → Prop) : Expr K → Expr K → Prop
  | hit {t r} : hit t r → Replaced hit miss t r
  | const {c} : miss (.const c) → Replaced hit miss (.const c) (.const c)
  | var {i} : miss (.var i) → Replaced hit miss (.var i) (.var i)
  | fsym {i t} : miss (.fsym i t) → Replaced hit miss (.fsym i t) (.fsym i t)
  | un {op e e'} : miss (.un op e) → Replaced hit miss e e' →
      Replaced hit miss (.un op e) (.un op e')
  | integ {lo hi x e e'} : miss (.integ lo hi x e) → Replaced hit miss e e' →
      Replaced hit miss (.integ lo hi x e) (.integ lo hi x e')
  | bin {op l r l' r'} : miss (.bin op l r) → Replaced hit miss l l' → Replaced hit miss r r' →
      Replaced hit miss (.bin op l r) (.bin op l' r')
  | vec {es es'} : miss (.vec es) → es.length = es'.length →
      (∀ (k : Nat) e e', es[k]? = some e → es'[k]? = some e' → Replaced hit miss e e') →
      Replaced hit miss (.vec es) (.vec es')

/-- `r` is the replacement belonging to the first of the searched expressions `ss` that is structurally
equal to `e`. -/
def FirstMatch [Num K] (ss rs : List (Expr K)) (e r : Expr K) : Prop :=
  ∃ (k : Nat) (s : Expr K), ss[k]? = some s ∧ rs[k]? = some r ∧ deepEq e s = .ok true ∧
    ∀ j < k, ∀ s, ss[j]? = some s → deepEq e s = .ok false

end VM.Spec
