import Verif.Ct.FoldedLemmas
import Mathlib.Tactic.NormNum
/-
C121: which compile-time expressions formulas build.
-/
namespace VM.Props
open VM.Ct VM.Spec

/-- **C121 (folded)**: a formula of compile-time constants, variables and operators, if it compiles, is a compile-time
object in which nothing is left to fold. -/
theorem C121_folded (folds : Bool) (t : Written) (ht : CompileTimeFormula t) (v : Value) (h : t.build folds = some v) :
    ∃ e, v = .mix e ∧ Folded e :=
  build_folded ht h

/-- **C121 (itself)**: an expression of compile-time constants and variables in which nothing is left to fold, written
down as a formula, compiles and is exactly itself. -/
theorem C121_itself (folds : Bool) (e : MixExpr ℝ) (he : Folded e) :
    CompileTimeFormula (formulaOf e) ∧ (formulaOf e).build folds = some (.mix e) :=
  folded_build he folds

/-- Both together: exactly the folded expressions are built. -/
theorem C121_exactly (folds : Bool) (e : MixExpr ℝ) :
    (∃ t, CompileTimeFormula t ∧ t.build folds = some (.mix e)) ↔ Folded e := by
  constructor
  · rintro ⟨t, ht, h⟩
    obtain ⟨e', h', he'⟩ := C121_folded folds t ht _ h
    cases h'
    exact he'
  · exact fun he => ⟨formulaOf e, C121_itself folds e he⟩

/-- **C121 (again)**: what a formula builds, written down and built once more, is the same. -/
theorem C121_again (folds : Bool) (t : Written) (ht : CompileTimeFormula t) (e : MixExpr ℝ)
    (h : t.build folds = some (.mix e)) : (formulaOf e).build folds = some (.mix e) :=
  (C121_itself folds e ((C121_exactly folds e).1 ⟨t, ht, h⟩)).2

/-- **C121 (one constant)**: what a formula builds never combines two constants by `+`, `-` or `*`, and begins with at
most one constant: where it is `n + X` or `n - X`, the rest `X` does not begin with a constant. -/
theorem C121_one_constant (folds : Bool) (t : Written) (ht : CompileTimeFormula t) (l r : MixExpr ℝ) (op : COp) (n : Int)
    (h : t.build folds = some (.mix (.bin l op r))) (hl : l = .const n) :
    (op ≠ .div → ∀ m, r ≠ .const m) ∧ (op = .plus ∨ op = .minus → ∀ m, ¬ Leads r m) := by
  have hf := ((C121_exactly folds _).1 ⟨t, ht, h⟩ : Folded _)
  subst hl
  have h3 : ¬ Folds (.const n) op r := hf.2.2
  constructor
  · rintro ho m rfl
    cases op with
    | plus => exact h3 (.inl ⟨n, m, .const n, .const m, .inl rfl⟩)
    | minus => exact h3 (.inl ⟨n, m, .const n, .const m, .inl rfl⟩)
    | mult => exact h3 ⟨n, m, rfl, rfl⟩
    | div => exact ho rfl
  · rintro (rfl | rfl) m hm
    · exact h3 (.inl ⟨n, m, .const n, hm, .inl rfl⟩)
    · exact h3 (.inl ⟨n, m, .const n, hm, .inl rfl⟩)

/-- **C121 (compiles)**: a formula of compile-time constants, variables and operators compiles if its constants, added
where the formula adds, subtracts or divides and multiplied where it multiplies, are no larger than the largest `long`;
and then no constant of the result is larger than this number. -/
theorem C121_compiles (folds : Bool) (t : Written) (ht : CompileTimeFormula t) (hw : constantBound t ≤ 2 ^ 63 - 1) :
    ∃ e, t.build folds = some (.mix e) ∧ ConstantsUpTo (constantBound t) e :=
  build_weight ht hw

/-- `(1000 * 1000) - (x0 + x0)` has the number 1000002. -/
example : CompileTimeFormula (.bin .minus (.bin .mult (.cc 1000) (.cc 1000)) (.bin .plus (.cv 0) (.cv 0))) ∧
    constantBound (.bin .minus (.bin .mult (.cc 1000) (.cc 1000)) (.bin .plus (.cv 0) (.cv 0))) = 1000002 := by
  simp [CompileTimeFormula, constantBound]

/-- The number is reached: `x0 + x0` has the constant 2, and one more does not compile at the largest `long`. -/
example (folds : Bool) : (Written.bin .plus (.cv 0) (.cv 0)).build folds =
    some (.mix (.bin (.const 2) .mult (.var 0))) ∧
    (Written.bin .plus (.cc (2 ^ 63 - 1)) (.cc 1)).build folds = none := by
  constructor
  · simp [Written.build, operate, opAdd, Built.value]
  · have : fit 9223372036854775808 = none := by decide
    simp [Written.build, operate, opAdd, withConst, this]

/-- `3 + (2 - x0)` compiles and is `5 - x0`, which is folded. -/
example (folds : Bool) : (Written.bin .plus (.cc 3) (.bin .minus (.cc 2) (.cv 0))).build folds =
    some (.mix (.bin (.const 5) .minus (.var 0))) ∧ Folded (.bin (.const 5) .minus (.var 0) : MixExpr ℝ) := by
  refine ⟨?_, trivial, trivial, ?_⟩
  · have : fit 5 = some 5 := by decide
    simp [Written.build, operate, opAdd, opSub, opGeneric, MixExpr.isCompiletime, MixExpr.defaultable, Built.value,
      withConst, this]
  · rintro (⟨_, m, -, hm, -⟩ | ⟨i, h, -⟩ | ⟨i, y, h, -⟩)
    · cases hm
    · cases h
    · cases h

/-- Quotients of constants and sums to the right are left as they are: `1 / 2` and `x0 + (1 + x0)` are folded. -/
example : Folded (.bin (.const 1) .div (.const 2) : MixExpr ℝ) ∧
    Folded (.bin (.var 0) .plus (.bin (.const 1) .plus (.var 0)) : MixExpr ℝ) := by
  have h1 : ∀ n, ¬ Leads (.var 0 : MixExpr ℝ) n := fun n h => nomatch h
  refine ⟨⟨trivial, trivial, by simp [Folds]⟩, trivial, ⟨trivial, trivial, ?_⟩, ?_⟩
  · rintro (⟨_, m, -, hm, -⟩ | ⟨i, h, -⟩)
    · exact h1 m hm
    · cases h
  · rintro (⟨n, _, hn, -, -⟩ | ⟨i, -, h⟩)
    · exact h1 n hn
    · cases h

end VM.Props
