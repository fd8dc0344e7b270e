import Verif.Ct.WritableLemmas
/-
C120: which expressions formulas build.
-/
namespace VM.Props
open VM.Ct VM.Spec

/-- **C120 (every)**: each expression of numbers, variables, the four operators and the mathematical functions is
built, as exactly this tree, by some formula of numbers, run-time variables, operators, functions and `expr`. -/
theorem C120_every (folds : Bool) (e : Expr XReal) (he : Writable e) :
    ∃ t, RunTime t ∧ t.build folds = some (.rt .expr e) :=
  writable_written he folds

/-- **C120 (only)**: no formula that compiles, with compile-time objects or without, builds any other expression. -/
theorem C120_only (folds : Bool) (t : Written) (v : Value) (h : t.build folds = some v) (e : Expr XReal)
    (he : v.clone = some e) : Writable e :=
  (build_writable h).clone he

/-- Both together. -/
theorem C120_exactly (folds : Bool) (e : Expr XReal) :
    (∃ (t : Written) (v : Value), t.build folds = some v ∧ v.clone = some e) ↔ Writable e := by
  constructor
  · rintro ⟨t, v, h, he⟩
    exact C120_only folds t v h e he
  · intro h
    obtain ⟨t, -, ht⟩ := C120_every folds e h
    exact ⟨t, _, ht, rfl⟩

/-- **C120 (tree)**: a formula of run-time objects in which the language does not compute with numbers alone, and
which does not apply `exp` directly to a function call, compiles and builds exactly the tree it is written as. -/
theorem C120_tree (folds : Bool) (t : Written) (ht : RunTime t) (hx : ¬ ExpOfCall t) (hn : NoNumbers t) :
    ∃ v, t.build folds = some v ∧ v.clone = some (treeOf t) := by
  obtain ⟨v, hv, -, hc⟩ := build_tree (folds := folds) ht hx hn
  exact ⟨v, hv, hc⟩

/-- **C120 (alike)**: two such formulas with the same tree build the same expression, wherever `expr` is written. -/
theorem C120_alike (folds : Bool) (t t' : Written) (ht : RunTime t) (hx : ¬ ExpOfCall t) (hn : NoNumbers t)
    (ht' : RunTime t') (hx' : ¬ ExpOfCall t') (hn' : NoNumbers t') (h : treeOf t = treeOf t') :
    (Written.expr t).build folds = (Written.expr t').build folds := by
  obtain ⟨v, hv, hc⟩ := C120_tree folds t ht hx hn
  obtain ⟨v', hv', hc'⟩ := C120_tree folds t' ht' hx' hn'
  simp [Written.build, hv, hv', hc, hc', h]

/-- `exp(exp(x0)) - 2.0`, which is not built without `expr`. -/
example : Writable (.bin .minus (.un (.fn .exp) (.un (.fn .exp) (.var 0))) (.const (some 2)) : Expr XReal) ∧
    ¬ Writable (.un (.fn .id) (.var 0) : Expr XReal) ∧ ¬ Writable (.vec [] : Expr XReal) := by
  simp [Writable]

/-- `sin(x0 * 2.0) - 1.0`, with and without `expr`. -/
example : let t := Written.bin .minus (.fn .sin (.bin .mult (.rv 0) (.num 2))) (.num 1)
    let t' := Written.bin .minus (.fn .sin (.expr (.bin .mult (.rv 0) (.expr (.num 2))))) (.num 1)
    RunTime t ∧ ¬ ExpOfCall t ∧ NoNumbers t ∧ RunTime t' ∧ ¬ ExpOfCall t' ∧ NoNumbers t' ∧ treeOf t = treeOf t' ∧
      treeOf t = .bin .minus (.un (.fn .sin) (.bin .mult (.var 0) (.const (some 2)))) (.const (some 1)) := by
  simp [RunTime, ExpOfCall, NoNumbers, IsNumber, treeOf]

/-- Numbers alone are computed: `1.0 + 2.0` builds no sum, although it compiles. -/
example (folds : Bool) : ∃ v, (Written.bin .plus (.num 1) (.num 2)).build folds = some v ∧
    v.clone ≠ some (treeOf (.bin .plus (.num 1) (.num 2))) :=
  ⟨_, rfl, by simp [Value.clone, treeOf]⟩

end VM.Props
