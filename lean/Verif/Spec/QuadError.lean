import Verif.Spec.Iterated
/-
Vocabulary of the property on the error of numerical integration.
-/
namespace VM.Spec

/-- The point with `x`-th coordinate `t` and zeros before it. -/
noncomputable def along (x : Nat) (t : ℝ) : Fin (x + 1) → ℝ := Function.update 0 (Fin.last x) t

/-- The integrand as a function of the integration variable. -/
noncomputable def integrandOf (x : Nat) (e : Expr XReal) (t : ℝ) : ℝ := denotes e (along x t)

/-- The sum of the integrals of `e` over the pieces `[a, t₁]`, `[t₁, t₂]`, ..., with `t₁, t₂, ...` given by the function,
`n + 1` pieces, from the `k`-th on. -/
noncomputable def pieces (x : Nat) (e : Expr XReal) (knot : Nat → ℝ) : Nat → Nat → Expr XReal
  | 0, k => .integ (.const (some (knot k))) (.const (some (knot (k + 1)))) x e
  | n + 1, k => .bin .plus (.integ (.const (some (knot k))) (.const (some (knot (k + 1)))) x e)
      (pieces x e knot n (k + 1))

end VM.Spec
