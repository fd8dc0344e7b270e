import Verif.Ct.AddendsLemmas
/-
Properties C112 and C113: the addends of what `expand` returns, and expanding again.
-/
namespace VM.Props
open VM.Ct VM.Spec

/-! ### C112 -/

/-- The addends written in the result are, from left to right, the products of one addend of each factor, in all
ways and each exactly once: with their signs, their factors and the values of their denominators. -/
theorem C112_addends (F : Type*) [Field F] (e : CtExpr) :
    (ctPieces (expand e)).map (readPiece F) = choices F e ∧ ∀ p ∈ ctPieces (expand e), NoSum p.2.1 := by
  obtain ⟨h1, h2⟩ := ctPieces_expanded (F := F) (expand_shape.1 e)
  exact ⟨h1.trans (expand_choices.1 e), h2⟩

/-- Their number: sums add, products multiply, and denominators do not count. -/
theorem C112_count (e : CtExpr) : (ctPieces (expand e)).length = addendCount e := by
  rw [← choices_length (F := ℚ), ← (C112_addends ℚ e).1, List.length_map]

/-- A product of `n` more factors, each with `k` addends, has `k^n` times as many addends. -/
theorem C112_power (k : Nat) (e : CtExpr) (fs : List CtExpr) (h : ∀ f ∈ fs, addendCount f = k) :
    (ctPieces (expand (fs.foldl (· *' ·) e))).length = addendCount e * k ^ fs.length := by
  rw [C112_count]
  induction fs generalizing e with
  | nil => simp
  | cons f fs ih =>
    rw [List.foldl_cons, ih _ fun g hg => h g (List.mem_cons_of_mem _ hg), addendCount,
      h f List.mem_cons_self, List.length_cons, Nat.pow_succ]
    ring

/-- The size of the result, without division: as many nodes as a binary tree with that many leaves has. -/
theorem C112_size (e : CtExpr) (h : DivFree e) : nodes (expand e) + 1 = 2 * atomCount e := by
  rw [← expand_atomCount.1 e]
  exact nodes_expanded (expand_shape.1 e) (expand_divFree.1 e h)

/-- (x+1)*(y-2)*z becomes an expression with 23 nodes. -/
example : DivFree (((.var 0 +' ♯1) *' (.var 1 -' ♯2)) *' .var 2) ∧
    2 * atomCount (((.var 0 +' ♯1) *' (.var 1 -' ♯2)) *' .var 2) = 24 := by
  simp [DivFree, atomCount, addendCount]

/-- Expressions that are multiplied out to different addends are expanded to different expressions. -/
theorem C112_distinguishes (F : Type*) [Field F] (e e' : CtExpr) (h : choices F e ≠ choices F e') :
    expand e ≠ expand e' := fun he => h (by rw [← (C112_addends F e).1, he, (C112_addends F e').1])

/-- (x+1)*(y-2) has the addends x*y, -(x*2), 1*y and -(1*2). -/
example : choices ℚ ((.var 0 +' ♯1) *' (.var 1 -' ♯2)) =
    [⟨false, {.var 0, .var 1}, 0⟩, ⟨true, {.var 0, ♯2}, 0⟩, ⟨false, {♯1, .var 1}, 0⟩, ⟨true, {♯1, ♯2}, 0⟩] := rfl

example : ∀ f ∈ [.var 0 +' ♯1, .var 1 -' ♯2, (.var 0 +' .var 1) /' .var 2], addendCount f = 2 := by
  decide

example : choices ℚ (.var 0 +' ♯1) ≠ choices ℚ (.var 0 -' ♯1) := by
  intro h
  simp [choices, Monom.negate] at h

/-! ### C113 -/

/-- If the denominators below products are expanded in `e` (in particular without division), a second `expand`
changes nothing.
Missing for the full C113: other denominators, see `C113_changes_again`. -/
theorem C113_once_partial (e : CtExpr) (h : ProductDens e) : expand (expand e) = expand e :=
  expand_settled ((expandedAll_iff _).2 ⟨expand_shape.1 e, expand_dens.1 e h⟩)

example : ProductDens ((.var 0 +' ♯1) *' ((.var 1 -' ♯2) /' .var 2)) := by
  simp [ProductDens, DensExpanded, ExpandedAll]

/-- Whatever the denominators are: `expand` used once more often than denominators are nested changes nothing
when it is used again. -/
theorem C113_settles (e : CtExpr) (n : Nat) (hn : denNest e < n) :
    ∀ m, n ≤ m → expand^[m] e = expand^[n] e :=
  fun _ hm => iterate_fixed (expand_settles e n hn) hm

/-- Expanding again changes no addend, only how denominators are written. -/
theorem C113_addends (F : Type*) [Field F] (e : CtExpr) :
    (ctPieces (expand (expand e))).map (readPiece F) = (ctPieces (expand e)).map (readPiece F) := by
  rw [(C112_addends F _).1, (C112_addends F _).1, expand_choices.1]

/-- C113 is false of the code: expand(((x+1)/((y+1)*z)) * w) leaves the denominator (y+1)*z as it is, a second
`expand` does not. -/
theorem C113_changes_again : ∃ e, denNest e = 1 ∧ expand (expand e) ≠ expand e := by
  have h1 : expand (((.var 0 +' ♯1) /' ((.var 1 +' ♯1) *' .var 2)) *' .var 3) =
      (.var 0 *' .var 3 +' ♯1 *' .var 3) /' ((.var 1 +' ♯1) *' .var 2) := by
    rw [expand_mul]
    simp only [expandProduct, hasPM]
    rw [expandWith_quot _ _ _ rfl, expandWith_add, expandWith_flat _ _ rfl, expandWith_flat _ _ rfl]
  have h2 : expand ((.var 1 +' ♯1) *' .var 2) = .var 1 *' .var 2 +' ♯1 *' .var 2 := by
    rw [expand_mul]
    simp only [expandProduct, hasPM]
    rw [expandWith_add, expandWith_flat _ _ rfl, expandWith_flat _ _ rfl]
  refine ⟨((.var 0 +' ♯1) /' ((.var 1 +' ♯1) *' .var 2)) *' .var 3, rfl, ?_⟩
  rw [h1, expand_quot, h2]
  simp

end VM.Props
