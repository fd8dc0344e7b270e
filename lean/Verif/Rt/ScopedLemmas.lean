import Verif.Spec.Scoped
import Verif.Rt.SubstIntegLemmas
/-
Helper lemmas for C20: replacement of a variable has the value that `Scoped` says.
-/
namespace VM
open Spec
variable {K : Type} [Num K]

theorem scoped_val {I : Interp K} {i : Nat} {r : Expr K} {ρ : Nat → Option K} {e : Expr K} {a : K}
    (h : Scoped I i r ρ e a) : Val I ρ (rp i r e) a := by
  induction h with
  | const => exact .const
  | this h => simpa [rp] using h
  | other hj h => simpa [rp, Ne.symm hj] using Val.var h
  | fsym h => exact .fsym h
  | fn _ ih => exact .fn ih
  | pd h => exact .pd h
  | bin _ _ h ihl ihr => exact .bin ihl ihr h
  | dotOne _ ih => exact .dotOne ih
  | dotSnoc _ _ ih1 ih2 =>
    simp only [rp, rpL_eq_map, List.map_append, List.map_cons, List.map_nil] at ih1 ih2 ⊢
    exact .dotSnoc ih1 ih2
  | integ f h1 h2 _ h4 h5 ih => exact .integ f h1 h2 ih h4 h5

end VM
