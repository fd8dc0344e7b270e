import Verif.Rt.RenameLemmas
import Verif.Rt.Dec
import Verif.NumRat
/-
C57: the numbers of the variables and function symbols do not matter.

Nothing is assumed of the numeric type, and all kinds of nodes are covered, symbolic ones included.  An equation
between outcomes covers exceptions and undefined behaviour.
-/
namespace VM.Props
open VM.Spec
variable {K : Type} [Num K] {ρ : Renaming}

/-- Variables 0 and 1 exchanged, the others shifted; function symbols get other numbers, tags exchanged. -/
private def exR : Renaming where
  var := fun i => if i = 0 then 1 else if i = 1 then 0 else i + 3
  sym := fun i t => (t + 5, i)

example : exR.Injective := by
  constructor
  · intro i j h
    simp only [exR] at h
    split at h <;> split at h <;> (try split at h) <;> (try split at h) <;> omega
  · intro i t j u h
    simp only [exR, Prod.mk.injEq] at h
    omega

private def exE : Expr XRat :=
  .bin .plus (.bin .mult (.var 0) (.bin .mult (.var 1) (.fsym 0 2))) (.bin .mult (.var 0) (.const (some 0)))

/-- **C57 (evaluation)**: with the values moved to the new numbers, the value is the same, whatever the orders of
evaluation.  The renaming may even identify variables, as long as their values agree. -/
theorem C57_eval (o o' : Order K) (v w : List K) (e : Expr K) (h : Carries ρ e v w) (a : K) :
    eval o' w (rename ρ e) = .ok a ↔ eval o v e = .ok a := ren_eval o o' v w e h a

example : Carries exR (.bin .mult (.var 0) (.bin .minus (.var 1) (.var 2)) : Expr XRat)
    [some 2, some 3, some 4] [some 3, some 2, none, none, none, some 4] := by
  intro i hi
  cases hi with
  | binL h => cases h; rfl
  | binR h =>
    cases h with
    | binL h => cases h; rfl
    | binR h => cases h; rfl

/-- **C57 (evaluation throws)**: the renamed expression throws exactly where the original one does. -/
theorem C57_eval_throws (o o' : Order K) (v w : List K) (e : Expr K) (h : Carries ρ e v w) :
    (∃ x, eval o' w (rename ρ e) = .throw x) ↔ ∃ x, eval o v e = .throw x := by
  have key := C57_eval o o' v w e h
  cases h1 : eval o v e with
  | ok a => simp [(key a).2 h1]
  | throw x =>
    cases h2 : eval o' w (rename ρ e) with
    | ok a => have := (key a).1 h2; rw [h1] at this; cases this
    | throw y => simp
    | ub => exact absurd h2 (eval_ne_ub _ _ _)
  | ub => exact absurd h1 (eval_ne_ub _ _ _)

/-- **C57 (simplification)**: simplifying commutes with any renaming. -/
theorem C57_simplify (ρ : Renaming) (e : Expr K) :
    simplified (rename ρ e) = (simplified e).map (rename ρ) := ren_simplified ρ e

example : simplified exE = .ok (.bin .mult (.var 0) (.bin .mult (.var 1) (.fsym 0 2))) ∧
    simplified (rename exR exE) = .ok (.bin .mult (.var 1) (.bin .mult (.var 0) (.fsym 7 0))) := by
  decide +kernel

/-- **C57 (comparison)**: `deep_equal` decides the same before and after. -/
theorem C57_equal (hρ : ρ.Injective) (e f : Expr K) :
    deepEq (rename ρ e) (rename ρ f) = deepEq e f := ren_deepEq hρ e f

example : deepEq (exE) (.bin .plus (.var 1) (.var 0)) = .ok false ∧ deepEq exE exE = .ok true := by
  decide +kernel

/-- **C57 (differentiation)**: by a variable or a function symbol. -/
theorem C57_diff (hρ : ρ.Injective) (x : DVar) (e : Expr K) :
    diff (renameD ρ x) (rename ρ e) = (diff x e).map (rename ρ) := ren_diff hρ x e

example : diff (.fsym 0 2) exE = .ok (.bin .mult (.var 0) (.var 1)) ∧
    diff (renameD exR (.fsym 0 2)) (rename exR exE) = .ok (.bin .mult (.var 1) (.var 0)) ∧
    diff (.var 1) exE = .throw .notDifferentiable ∧
    diff (renameD exR (.var 1)) (rename exR exE) = .throw .notDifferentiable := by decide +kernel

/-- **C57 (substitution)**: of any expression by any expression. -/
theorem C57_substitute (hρ : ρ.Injective) (s r e : Expr K) :
    substitute (rename ρ s) (rename ρ r) (rename ρ e) = (substitute s r e).map (rename ρ) :=
  ren_substitute hρ s r e

/-- **C57 (simultaneous substitution)**, lists of different length included. -/
theorem C57_substituteMany (hρ : ρ.Injective) (ss rs : List (Expr K)) (e : Expr K) :
    substituteMany (ss.map (rename ρ)) (rs.map (rename ρ)) (rename ρ e) =
      (substituteMany ss rs e).map (rename ρ) := by
  rw [← renameL_eq, ← renameL_eq, ren_substituteMany hρ]

example : substituteMany [.var 0, .var 1] [.var 1, .var 0] (.bin .minus (.var 0) (.var 1) : Expr XRat) =
    .ok (.bin .minus (.var 1) (.var 0)) := by decide +kernel

/-- **C57 (quadrature)**: renaming everything, the integration variables included, keeps the value. -/
theorem C57_quadrature (hρ : ρ.Injective) (o o' : Order K) (e : Expr K) (y : K) :
    quadOf o' (gaussQuad1 o') (rename ρ e) = .ok y ↔ quadOf o (gaussQuad1 o) e = .ok y :=
  ren_quadOf o o' _ _ (ren_gauss hρ o o') e y

example : quadOf leftFirst (gaussQuad1 leftFirst)
    (rename exR (.integ (.const (some 0)) (.const (some 2)) 0 (.bin .mult (.var 0) (.var 0))) : Expr XRat) =
    .ok (some 2) := by decide +kernel

/-- **C57 (quadrature over an interval)**: so does the rule given interval, integrand and variable separately. -/
theorem C57_interval (hρ : ρ.Injective) (o o' : Order K) (lo hi : Expr K) (x : Nat) (e : Expr K) (y : K) :
    gaussQuad1 o' (rename ρ lo) (rename ρ hi) (ρ.var x) (rename ρ e) = .ok y ↔
      gaussQuad1 o lo hi x e = .ok y := ren_gauss hρ o o' lo hi x e y

/-- A renaming that makes two variables equal. -/
private def exBad : Renaming where
  var := fun _ => 0
  sym := fun i t => (i, t)

/-- **C57 (the names must stay different)**: otherwise the comparison, the derivative and the substitution change,
here of `x*y` with both variables named `x`. -/
theorem C57_identified :
    ∃ ρ : Renaming, ∃ e f : Expr XRat, deepEq (rename ρ e) (rename ρ f) ≠ deepEq e f ∧
      diff (renameD ρ (.var 0)) (rename ρ e) ≠ (diff (.var 0) e).map (rename ρ) ∧
      substitute (rename ρ (.var 0)) (.const (some 2)) (rename ρ e) ≠
        (substitute (.var 0) (.const (some 2)) e).map (rename ρ) :=
  ⟨exBad, .bin .mult (.var 0) (.var 1), .bin .mult (.var 1) (.var 0), by decide +kernel⟩

end VM.Props
