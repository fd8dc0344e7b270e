import Verif.Rt.EqualLemmas
import Verif.Rt.CoversLemmas
import Verif.Rt.BlankLemmas
import Verif.Rt.Dec
import Verif.NumRat
/-
Properties C21, C22: structural equality.
-/
namespace VM.Props
open Spec
variable {K : Type} [Num K]

/-- C21.  Reflexive, for every expression without NaN constants (all node kinds). -/
theorem C21_refl (e : Expr K) (h : NoNaN e) : deepEq e e = .ok true := deepEq_refl h

/-- C21, limit: with a NaN constant an expression is not equal to itself. -/
theorem C21_nan (c : K) (h : Num.eqb c c = false) : deepEq (.const c) (.const c) = .ok false := by
  simp [deepEq, h]

/-- C21, part: symmetric, transitive and free of undefined behaviour among expressions whose vectors all
have the same size.  What is missing: vectors of different sizes (see the two theorems below). -/
theorem C21_equivalence_partial [EqbPER K] (n : Nat) (e f g : Expr K) (he : VecDim n e)
    (hf : VecDim n f) :
    (∃ b, deepEq e f = .ok b ∧ deepEq f e = .ok b) ∧
    (deepEq e f = .ok true → deepEq f g = .ok true → deepEq e g = .ok true) := by
  refine ⟨?_, deepEq_trans⟩
  obtain ⟨b, hb⟩ := deepEq_total he hf
  obtain ⟨b', hb'⟩ := deepEq_total hf he
  refine ⟨b, hb, ?_⟩
  rw [hb']
  cases b <;> cases b'
  · rfl
  · rw [deepEq_symm hf he hb'] at hb; cases hb
  · rw [deepEq_symm he hf hb] at hb'; cases hb'
  · rfl

/-- C21, all expressions: what the comparison takes for equal. -/
theorem C21_when_equal (e f : Expr K) : deepEq e f = .ok true ↔ Covers e f :=
  ⟨covers_of_deepEq e f, deepEq_of_covers⟩

/-- C21, all expressions: the comparison answers unless a vector of the second expression is longer than one of the
first. -/
theorem C21_answers (e f : Expr K) (h : ∀ es fs, SubV (.vec es) e → SubV (.vec fs) f → fs.length ≤ es.length) :
    ∃ b, deepEq e f = .ok b := deepEq_defined e f h

-- sin((x, y, 1)) and sin((x, y)): covered, and not the other way round
example : Covers (.un (.fn .sin) (.vec [.var 0, .var 1, .const (some 1)]) : Expr XRat)
    (.un (.fn .sin) (.vec [.var 0, .var 1])) ∧
    ¬ Covers (.un (.fn .sin) (.vec [.var 0, .var 1]) : Expr XRat)
      (.un (.fn .sin) (.vec [.var 0, .var 1, .const (some 1)])) :=
  ⟨(C21_when_equal _ _).1 (by decide +kernel), fun h => absurd ((C21_when_equal _ _).2 h) (by decide +kernel)⟩

/-- C21 is false of the code: comparing a vector with a longer one of which it is a prefix reads past
the end of the vector. -/
theorem C21_undefined :
    deepEq (.vec [.var 0] : Expr K) (.vec [.var 0, .var 1]) = .ub := by
  simp [deepEq, deepEqL]

/-- C21 is false of the code: a vector equals its proper prefixes, so equality is not symmetric. -/
theorem C21_not_symmetric : ∃ e f : Expr K, deepEq e f = .ok true ∧ deepEq f e ≠ .ok true :=
  ⟨.vec [.var 0, .var 1], .vec [.var 0], by simp [deepEq, deepEqL], by simp [deepEq, deepEqL]⟩

example : deepEq (.vec [.var 0, .bin .plus (.var 1) (.const (some 2))] : Expr XRat)
    (.vec [.var 0, .bin .plus (.var 1) (.const (some 2))]) = .ok true := by decide +kernel
example : VecDim 2 (.vec [.var 0, .bin .plus (.var 1) (.const (some 2))] : Expr XRat) :=
  .vec rfl (by
    intro e he
    simp only [List.mem_cons, List.not_mem_nil, or_false] at he
    rcases he with rfl | rfl
    · exact .var 0
    · exact .bin _ (.var 1) (.const _))

/-- C22, evaluation: structurally equal expressions, of every node kind, have the same outcome when
evaluated, for every evaluation order that treats structurally equal operands alike. -/
theorem C22_same_outcome [EqbSound K] (o : Order K)
    (ho : ∀ l l' r r', deepEq l l' = .ok true → deepEq r r' = .ok true → o l r = o l' r')
    (v : List K) (e f : Expr K) (h : deepEq e f = .ok true) : eval o v e = eval o v f :=
  deepEq_eval ho v h

/-- C22, part: without integrals, and with vectors of one size, structurally equal expressions are
identical, so no operation whatsoever can tell them apart.  What is missing: integrals. -/
theorem C22_interchangeable_partial [EqbSound K] (n : Nat) (e f : Expr K) (he : VecDim n e)
    (hf : VecDim n f) (hi : NoInteg e) (h : deepEq e f = .ok true) :
    e = f ∧ ∀ {α : Type} (operation : Expr K → α), operation e = operation f := by
  have := deepEq_eq he hf hi h
  exact ⟨this, fun _ => by rw [this]⟩

/-- C22 is false of the code: integrals over different intervals in different variables, and over
different symbolic intervals, are structurally equal. -/
theorem C22_intervals_ignored (lo hi lo' hi' e : Expr K) (x x' k k' : Nat) (he : NoNaN e) :
    deepEq (.integ lo hi x e) (.integ lo' hi' x' e) = .ok true ∧
    deepEq (.un (.symInt k) e) (.un (.symInt k') e) = .ok true := by
  simp [deepEq, deepEq_refl he, UOp.equal]

example : deepEq (.bin .mult (.var 0) (.un (.pd 1) (.fsym 0 1)) : Expr XRat)
    (.bin .mult (.var 0) (.un (.pd 1) (.fsym 0 1))) = .ok true := by decide +kernel
/-- Formal derivatives with respect to different variables are told apart. -/
example : deepEq (.un (.pd 1) (.fsym 0 1) : Expr XRat) (.un (.pd 0) (.fsym 0 1)) = .ok false := by
  decide +kernel

/-- C22.  What structural equality means, outright, for expressions without integrals and vectors of one
size: it holds exactly for expressions that are the same up to `==` of constants; in exact arithmetic
and without NaN, exactly for identical expressions. -/
theorem C22_iff_eq [EqbSound K] (n : Nat) (e f : Expr K) (he : VecDim n e) (hf : VecDim n f)
    (hi : NoInteg e) (hn : NoNaN e) : deepEq e f = .ok true ↔ e = f :=
  ⟨deepEq_eq he hf hi, fun h => h ▸ deepEq_refl hn⟩

/-- C22, with integrals: expressions with vectors of one size that are taken for equal differ only in the intervals of their
integrals. -/
theorem C22_what_differs [EqbSound K] (n : Nat) (e f : Expr K) (he : VecDim n e) (hf : VecDim n f)
    (h : deepEq e f = .ok true) : blank e = blank f := blank_eq_of_covers (covers_of_deepEq e f h) he hf

/-- C22, with integrals: what is taken for equal is treated alike.  The outcomes of simplification, differentiation and
substitution are the same up to the intervals of integrals, exceptions included. -/
theorem C22_treated_alike [EqbSound K] (n : Nat) (e f : Expr K) (he : VecDim n e) (hf : VecDim n f)
    (h : deepEq e f = .ok true) :
    (simplified e).map blank = (simplified f).map blank ∧
    (∀ x, (diff x e).map blank = (diff x f).map blank) ∧
    (∀ s r, (substitute s r e).map blank = (substitute s r f).map blank) ∧
    (∀ ss rs, (substituteMany ss rs e).map blank = (substituteMany ss rs f).map blank) := by
  have hb := C22_what_differs n e f he hf h
  refine ⟨?_, fun x => ?_, fun s r => ?_, fun ss rs => ?_⟩
  · rw [← blank_simplified, ← blank_simplified, hb]
  · rw [← blank_diff, ← blank_diff, hb]
  · rw [← blank_substitute, ← blank_substitute, hb]
  · rw [← blank_substituteMany, ← blank_substituteMany, hb]

/-- C22: searching for one of two expressions that are taken for equal is searching for the other one, without any difference
in the outcome. -/
theorem C22_searched_alike [EqbSound K] (n : Nat) (s t r e : Expr K) (hs : VecDim n s) (ht : VecDim n t)
    (h : deepEq s t = .ok true) : substitute s r e = substitute t r e := by
  have hb := C22_what_differs n s t hs ht h
  rw [substitute, substitute, substE_eq_substM, substE_eq_substM,
    substM_congr e fun u _ => findRepl_blank (ss' := [t]) (by simp [blankL, hb]) u [r]]

/-- Two integrals of one integrand over different intervals: equal for the library, simplified alike, and not the same. -/
example : let e : Expr XRat := .integ (.const (some 0)) (.var 1) 0 (.bin .plus (.var 0) (.const (some 0)))
    let f : Expr XRat := .integ (.var 2) (.const (some 1)) 3 (.bin .plus (.var 0) (.const (some 0)))
    deepEq e f = .ok true ∧ simplified e = .ok (.integ (.const (some 0)) (.var 1) 0 (.var 0)) ∧
    simplified f = .ok (.integ (.var 2) (.const (some 1)) 3 (.var 0)) := by
  intro e f; decide +kernel

end VM.Props
