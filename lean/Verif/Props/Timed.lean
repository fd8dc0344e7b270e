import Verif.Rt.TimedLemmas
import Verif.Rt.TimedMoreLemmas
import Verif.NumRat
import Verif.Rt.Dec
/-
Property C81: how many calls of member functions of nodes a call of the library makes.
-/
namespace VM.Props
open Spec
variable {K : Type} [Num K]

/-- C81, evaluation: never more calls than the expression has objects, and exactly one for each object if a number is
returned, in any order of evaluation. -/
theorem C81_eval (o : Order K) (v : List K) (e : Expr K) :
    (evalT o v e).val = eval o v e ∧ (evalT o v e).calls ≤ size e ∧
      ∀ a, eval o v e = .ok a → (evalT o v e).calls = size e :=
  ⟨val_evalT o v e, calls_evalT o v e, calls_evalT_ok o v e⟩

-- (x + 2) * x: five objects
example : eval leftFirst [some 3] (.bin .mult (.bin .plus (.var 0) (.const (some 2))) (.var 0) : Expr XRat) =
      .ok (some 15) ∧
    (evalT leftFirst [some 3] (.bin .mult (.bin .plus (.var 0) (.const (some 2))) (.var 0) : Expr XRat)).calls = 5 := by
  decide +kernel

/-- C81, comparison: at most as many calls as the smaller of the two expressions has objects. -/
theorem C81_deep_equal (e f : Expr K) :
    (deepEqT e f).val = deepEq e f ∧ (deepEqT e f).calls ≤ min (size e) (size f) :=
  ⟨val_deepEqT e f, le_min (calls_deepEqT e f).1 (calls_deepEqT e f).2⟩

/-- C81, simplification, of all expressions whatsoever: the number of calls is at most cubic in the size, whether the
call returns or throws. -/
theorem C81_simplify (e : Expr K) : (simplifiedT e).val = simplified e ∧ (simplifiedT e).calls ≤ 12 * size e ^ 3 :=
  ⟨val_simplifiedT e, calls_simplifiedT e⟩

-- ((x + 0) * 1) - 0
example : simplified (.bin .minus (.bin .mult (.bin .plus (.var 0) (.const (some 0))) (.const (some 1)))
      (.const (some 0)) : Expr XRat) = .ok (.var 0) ∧
    (simplifiedT (.bin .minus (.bin .mult (.bin .plus (.var 0) (.const (some 0))) (.const (some 1)))
      (.const (some 0)) : Expr XRat)).calls = 32 := by decide +kernel

/-- C81, limit: it is not linear.  That `x + x + ... + x` cannot be simplified takes a number of calls that is
quadratic in the number of summands, since at each sum its operands are asked anew whether they are constant. -/
theorem C81_quadratic (n : Nat) :
    size (sums n : Expr K) = 2 * n + 1 ∧ simplified (sums n : Expr K) = .ok (sums n) ∧
      (simplifiedT (sums n : Expr K)).calls = n ^ 2 + 4 * n + 1 := by
  have h := (val_canSimplifyT (sums n : Expr K)).trans (canSimplify_sums n)
  refine ⟨?_, ?_, ?_⟩
  · induction n with
    | zero => rfl
    | succ n ih =>
      rw [sums, size, ih (by rw [val_canSimplifyT, canSimplify_sums])]
      simp only [size]; omega
  · rw [simplified, simplifyLoop, canSimplify_sums]
  · rw [simplifiedT, simplifyLoopT, Timed.calls_bind_ok h, if_neg (by simp), calls_canSimplifyT_sums]
    rfl

/-- C81, substitution: polynomial in the sizes of the expression, of the searched expression and of the
replacement. -/
theorem C81_substitute (s r e : Expr K) :
    (substituteT s r e).val = substitute s r e ∧
      (substituteT s r e).calls ≤ size e * (size s + 1) + 12 * (size r * size e) ^ 3 :=
  ⟨val_substituteT s r e, calls_substituteT s r e⟩

/-- C81, substitution of lists: the same with the sum of the sizes of the searched expressions and the size of the
largest replacement. -/
theorem C81_substituteMany (ss rs : List (Expr K)) (e : Expr K) (m : Nat) (hm : 1 ≤ m) (hr : ∀ r ∈ rs, size r ≤ m) :
    (substituteManyT ss rs e).val = substituteMany ss rs e ∧
      (substituteManyT ss rs e).calls ≤ size e * ((ss.map size).sum + 1) + 12 * (m * size e) ^ 3 :=
  ⟨val_substituteManyT ss rs e, calls_substituteManyT ss rs e m hm hr⟩

-- x and y exchanged in x - y: three objects, five comparisons, and six calls to find that nothing can be simplified
example : substituteMany [.var 0, .var 1] [.var 1, .var 0] (.bin .minus (.var 0) (.var 1) : Expr XRat) =
      .ok (.bin .minus (.var 1) (.var 0)) ∧
    (substituteManyT [.var 0, .var 1] [.var 1, .var 0] (.bin .minus (.var 0) (.var 1) : Expr XRat)).calls = 14 := by
  decide +kernel

/-- C81, numerical quadrature of sums of integrals with the one-point rule: at most cubic in the size, whether it returns
or throws. -/
theorem C81_quadrature (o : Order K) (e : Expr K) :
    (quadOfT o e).val = quadOf o (gaussQuad1 o) e ∧ (quadOfT o e).calls ≤ 12 * size e ^ 3 + 3 * size e ^ 2 :=
  ⟨val_quadOfT o e, calls_quadOfT o e⟩

-- the integral of x from 0 to 2
example : quadOf leftFirst (gaussQuad1 leftFirst) (.integ (.const (some 0)) (.const (some 2)) 0 (.var 0) : Expr XRat) =
      .ok (some 2) ∧
    (quadOfT leftFirst (.integ (.const (some 0)) (.const (some 2)) 0 (.var 0) : Expr XRat)).calls = 11 := by
  decide +kernel

/-- C81, differentiation: polynomial in the size, apart from a factor two for each gradient inside a gradient. -/
theorem C81_diff (x : DVar) (e : Expr K) :
    (diffT x e).val = diff x e ∧ (diffT x e).calls ≤ 2 ^ gradDepth e * (2 * size e) + 96 * size e ^ 6 :=
  ⟨val_diffT x e, calls_diffT x e⟩

/-- C81 is false of the code for nested gradients: the derivative of `n` gradients, one inside the other, with respect
to the function symbol inside takes more than `2 ^ n` calls, although the expression has only `n + 1` objects. -/
theorem C81_gradients_exponential (h01 : Num.eqb (Num.lit 0 : K) (Num.lit 1) = false) (j t n : Nat) :
    size (nested (.fsym j t) n : Expr K) = n + 1 ∧
      (∃ e', diff (.fsym j t) (nested (.fsym j t) n : Expr K) = .ok e') ∧
      2 ^ n < (diffT (.fsym j t) (nested (.fsym j t) n : Expr K)).calls := by
  have h1 := (diffE_nested (j := j) (t := t) h01 n).1
  have h2 := calls_diffET_nested (j := j) (t := t) h01 n
  have h3 : ∀ m, canSimplify (nested (.const (Num.lit 1)) m : Expr K) = .ok false := fun m => by
    induction m with
    | zero => rfl
    | succ m ih => simp [nested, canSimplify, ih]
  refine ⟨by rw [size_nested, size]; omega, ⟨nested (.const (Num.lit 1)) n, ?_⟩, ?_⟩
  · rw [diff, h1, Res.bind_ok, simplified, simplifyLoop, h3]
  · rw [diffT, Timed.calls_bind_ok ((val_diffET _ _).trans h1), simplifiedT, simplifyLoopT,
      Timed.calls_bind_ok ((val_canSimplifyT _).trans (h3 n))]
    have h4 : 1 ≤ (canSimplifyT (nested (.const (Num.lit 1)) n : Expr K)).calls := by cases n <;> simp [nested, canSimplifyT]
    have : 1 ≤ 2 ^ n := Nat.one_le_two_pow
    omega

-- grad(grad(u)): 10 calls for the derivative and 3 to find that it cannot be simplified
example : (diffT (.fsym 0 0) (nested (.fsym 0 0) 2 : Expr XRat)).calls = 13 := by decide +kernel

-- x / sin(x) by x
example : (diffT (.var 0) (.bin .div (.var 0) (.un (.fn .sin) (.var 0)) : Expr XRat)).calls ≤ 2 * 4 + 96 * 4 ^ 6 ∧
    gradDepth (.bin .div (.var 0) (.un (.fn .sin) (.var 0)) : Expr XRat) = 0 := by decide +kernel

end VM.Props
