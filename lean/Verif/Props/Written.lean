import Verif.Ct.WrittenLemmas
/-
C49: what is written is what is evaluated.
-/
namespace VM.Props
open VM.Ct VM.Spec

/-- **C49 (value, partial)**: a formula of numbers, constants, variables, operators and functions, if it compiles,
gives an object that evaluates, at each point where the formula is defined, to the value of the formula, whatever
overloads are taken and in whatever order operands are evaluated.
Missing: quotients with run-time constants in both numerator and denominator (see `C49_quotient`). -/
theorem C49_value_partial (folds : Bool) (t : Written) (ht : PlainQuotients t) (v : Value)
    (h : t.build folds = some v) (p : List ℝ) (y : ℝ) (hy : meaning p t = some y)
    (o : MixExpr ℝ → MixExpr ℝ → Bool) (o' : Order XReal) : v.at' o o' (p.map some) = .ok (some y) :=
  (build_good ht h hy).at o o'

/-- The missing case: `((1 + x) + 2.0) / ((1 + x) + 3.0)` compiles, has the value 3/4 at 0, and evaluates to 1. -/
theorem C49_quotient (folds : Bool) : ∃ (t : Written) (v : Value), t.build folds = some v ∧
    meaning [0] t = some (3 / 4) ∧ ∀ o o', v.at' o o' [some 0] = .ok (some 1) := by
  refine ⟨.bin .div (.bin .plus (.bin .plus (.cc 1) (.cv 0)) (.rc 2)) (.bin .plus (.bin .plus (.cc 1) (.cv 0)) (.rc 3)),
    .mix (.const 1), ?_, ?_, fun _ _ => ?_⟩
  · simp [Written.build, operate, opAdd, opDiv, opGeneric, MixExpr.isCompiletime, MixExpr.defaultable, Built.value,
      MixExpr.sameType]
  · simp [meaning]
    norm_num
  · simp [Value.at', callMix, Num.lit]

/-- **C49 (compilation)**: a formula of numbers, run-time variables, `expr(...)`, operators and functions compiles
exactly if it does not apply `exp` directly to a function call (for which the overload is missing). -/
theorem C49_compiles (folds : Bool) (t : Written) (ht : RunTime t) : t.build folds ≠ none ↔ ¬ ExpOfCall t := by
  obtain ⟨h1, h2⟩ := build_runTime (folds := folds) ht
  refine ⟨fun h h' => h (h1 h'), fun h h' => ?_⟩
  obtain ⟨v, hv, -⟩ := h2 h
  rw [h'] at hv
  cases hv

/-- A compile-time expression that holds a run-time constant cannot be combined any further with another
compile-time expression: `(2.5 + (1 + x)) * x` does not compile. -/
theorem C49_constant_inside (folds : Bool) (c : ℝ) (n : Int) (i j : Nat) :
    (Written.bin .mult (.bin .plus (.rc c) (.bin .plus (.cc n) (.cv i))) (.cv j)).build folds = none := by
  simp [Written.build, operate, opAdd, opMul, opGeneric, MixExpr.isCompiletime, MixExpr.defaultable, Built.value]

-- sin(x * x) + exp(expr(cos(y))) / 2.0 with a compile-time x and a run-time y: compiles, has a value at (1, 2)
example : ∃ v, (Written.bin .plus (.fn .sin (.bin .mult (.cv 0) (.cv 0)))
      (.bin .div (.fn .exp (.expr (.fn .cos (.rv 1)))) (.num 2))).build false = some v ∧
    meaning [1, 2] (.bin .plus (.fn .sin (.bin .mult (.cv 0) (.cv 0)))
      (.bin .div (.fn .exp (.expr (.fn .cos (.rv 1)))) (.num 2))) =
      some (Real.sin (1 * 1) + Real.exp (Real.cos 2) / 2) := by
  refine ⟨_, rfl, ?_⟩
  simp [meaning, realFn]
example : PlainQuotients (.bin .plus (.fn .sin (.bin .mult (.cv 0) (.cv 0)))
    (.bin .div (.fn .exp (.expr (.fn .cos (.rv 1)))) (.num 2))) := by simp [PlainQuotients, NoConstant]
-- 2.5 + (1 + x) is folded
example : (Written.bin .plus (.rc 2.5) (.bin .plus (.cc 1) (.cv 0))).build false =
    some (.mix (.bin (.rc (2.5 + (1 : Int))) .plus (.var 0))) := by
  simp [Written.build, operate, opAdd, opGeneric, MixExpr.isCompiletime, MixExpr.defaultable, Built.value]
-- exp(sin(x)) does not compile, sin(exp(x)) and exp(sin(2.0)) do
example : (Written.fn .exp (.fn .sin (.rv 0))).build false = none := rfl
example : RunTime (.fn .exp (.fn .sin (.rv 0))) ∧ ExpOfCall (.fn .exp (.fn .sin (.rv 0))) := by
  simp [RunTime, ExpOfCall, Call, IsNumber]
example : RunTime (.fn .sin (.fn .exp (.rv 0))) ∧ ¬ ExpOfCall (.fn .sin (.fn .exp (.rv 0))) := by
  simp [RunTime, ExpOfCall, Call]
example : ¬ ExpOfCall (.fn .exp (.fn .sin (.num 2))) := by simp [ExpOfCall, Call, IsNumber]

end VM.Props
