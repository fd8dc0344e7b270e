import Verif.Rt.NestLemmas
import Verif.Props.Height
import Verif.Props.Timed
import Verif.Rt.Dec
/-
C117: how deep the calls of one operation are nested.
-/
namespace VM.Props
open Spec
variable {K : Type} [Num K]

/-- C117, evaluation: at no time are more calls active than the expression is high, and if it returns a number, there is
a time when as many are. -/
theorem C117_eval (o : Order K) (v : List K) (e : Expr K) :
    (evalT o v e).val = eval o v e ∧ (evalT o v e).depth ≤ height e ∧
    ((∃ a, eval o v e = .ok a) → (evalT o v e).depth = height e) :=
  ⟨val_evalT o v e, depth_evalT o v e, fun ⟨a, h⟩ => depth_evalT_ok o v e a h⟩

/-- C117, comparison: no more than the lower of the two expressions is high. -/
theorem C117_deep_equal (e f : Expr K) :
    (deepEqT e f).val = deepEq e f ∧ (deepEqT e f).depth ≤ min (height e) (height f) :=
  ⟨val_deepEqT e f, le_min (depth_deepEqT e f).1 (depth_deepEqT e f).2⟩

/-- C117, a single simplification pass and the question whether there is anything to simplify. -/
theorem C117_pass (e : Expr K) :
    (simplifyT e).val = simplify e ∧ (simplifyT e).depth ≤ height e + 1 ∧
    (canSimplifyT e).val = canSimplify e ∧ (canSimplifyT e).depth ≤ height e :=
  ⟨val_simplifyT e, depth_simplifyT e, val_canSimplifyT e, depth_canSimplifyT e⟩

/-- C117, simplification until nothing changes: one more than the expression can become high. -/
theorem C117_simplify (e : Expr K) : (simplifiedT e).val = simplified e ∧ (simplifiedT e).depth ≤ Spec.reach e + 1 :=
  ⟨val_simplifiedT e, depth_simplifiedT e⟩

/-- C117, differentiation. -/
theorem C117_diff (x : DVar) (e : Expr K) : (diffT x e).val = diff x e ∧ (diffT x e).depth ≤ 3 * Spec.reach e + 1 :=
  ⟨val_diffT x e, depth_diffT x e⟩

/-- C117, substitution. -/
theorem C117_substitute (s r e : Expr K) :
    (substituteT s r e).val = substitute s r e ∧ (substituteT s r e).depth ≤ Spec.reach e + Spec.reach r :=
  ⟨val_substituteT s r e, depth_substituteT s r e⟩

/-- C117, simultaneous substitution: what is searched for does not matter. -/
theorem C117_substituteMany (ss rs : List (Expr K)) (m : Nat) (hr : ∀ r ∈ rs, Spec.reach r ≤ m + 1) (e : Expr K) :
    (substituteManyT ss rs e).val = substituteMany ss rs e ∧ (substituteManyT ss rs e).depth ≤ Spec.reach e + m + 1 :=
  ⟨val_substituteManyT ss rs e, depth_substituteManyT ss rs m hr e⟩

/-! ### The bounds are nearly reached -/

/-- C117: simplification, differentiation and substitution look at the whole result before they return it, so that at
some time at least as many calls are active as the result is high. -/
theorem C117_atLeast (e' : Expr K) (hb : Bare e') :
    (∀ e, simplified e = .ok e' → height e' ≤ (simplifiedT e).depth) ∧
    (∀ x e, diff x e = .ok e' → height e' ≤ (diffT x e).depth) ∧
    (∀ s r e, substitute s r e = .ok e' → height e' ≤ (substituteT s r e).depth) := by
  refine ⟨fun e h => ?_, fun x e h => ?_, fun s r e h => ?_⟩
  · exact depth_simplifyLoopT_ge _ e e' ((val_simplifiedT e).trans h) hb
  · exact depth_bindSimplifiedT_ge ((val_diffT x e).trans h) hb
  · exact depth_bindSimplifiedT_ge ((val_substituteT s r e).trans h) hb

omit [Num K] in
private theorem quots_bare (n : Nat) : Bare (quots n : Expr K) ∧ Bare (quotsDiff n : Expr K) := by
  have h : ∀ n, Bare (quots n : Expr K) := by
    intro n
    induction n with
    | zero => trivial
    | succ n ih => exact ⟨by simp, trivial, ih⟩
  refine ⟨h n, ?_⟩
  induction n with
  | zero => simp [quotsDiff, Bare]
  | succ n ih => simp [quotsDiff, Bare, h, ih]

/-- C117: the factor 3 for differentiation is needed. -/
theorem C117_diff_sharp (hone : Num.eqb (Num.lit 1 : K) (Num.lit 0) = false)
    (hone' : Num.eqb (Num.lit 1 : K) (Num.lit 1) = true) (n : Nat) :
    Spec.reach (quots (n + 1) : Expr K) = n + 2 ∧ 3 * (n + 1) ≤ (diffT (.var 0) (quots (n + 1) : Expr K)).depth := by
  obtain ⟨h1, -⟩ := C115_diff_sharp hone hone' n
  have hv : ∀ k, VectorFree (quots k : Expr K) := by
    intro k
    induction k with
    | zero => trivial
    | succ k ih => exact ⟨trivial, ih⟩
  refine ⟨by rw [(C115_reach _).2 (hv _), h1], ?_⟩
  rw [← height_quotsDiff (K := K)]
  exact (C117_atLeast _ (quots_bare n).2).2.1 _ _ (diff_quots hone hone' n)

/-! ### Non-vacuity -/

-- 1 + 2 has height 2; three calls are active when simplify asks unwrap for the value of the operand
example : (simplifyT (.bin .plus (.const (some 1)) (.const (some 2)) : Expr XRat)).depth = 3 := by decide +kernel

-- x / (x + 2) at 3
example : (evalT leftFirst [some 3] (.bin .div (.var 0) (.bin .plus (.var 0) (.const (some 2))) : Expr XRat)).depth = 3 ∧
    ∃ a, eval leftFirst [some 3] (.bin .div (.var 0) (.bin .plus (.var 0) (.const (some 2))) : Expr XRat) = .ok a :=
  ⟨by decide +kernel, _, rfl⟩

example : (diffT (.var 0) (.bin .div (.var 0) (.un (.fn .sin) (.var 0)) : Expr XRat)).depth = 6 := by decide +kernel

example : substituteMany [.var 0, .var 1] [.un (.fn .exp) (.var 1), .var 0] (.bin .minus (.var 0) (.var 1) : Expr XRat) =
      .ok (.bin .minus (.un (.fn .exp) (.var 1)) (.var 0)) ∧
    (substituteManyT [.var 0, .var 1] [.un (.fn .exp) (.var 1), .var 0]
      (.bin .minus (.var 0) (.var 1) : Expr XRat)).depth = 3 := by
  decide +kernel

end VM.Props
