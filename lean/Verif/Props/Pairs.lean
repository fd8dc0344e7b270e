import Verif.Rt.PairsLemmas
import Verif.Props.Subst
import Verif.Rt.Dec
/-
C118: the order of the pairs in a simultaneous substitution, and pairs without effect.
-/
namespace VM.Props
open Spec
variable {K : Type} [Num K]

/-- `substitute` with the lists of the searched expressions and of the replacements. -/
def substitutePairs (ps : List (Expr K × Expr K)) (e : Expr K) : Res (Expr K) :=
  substituteMany (ps.map (·.1)) (ps.map (·.2)) e

private theorem pairs_congr {ps qs : List (Expr K × Expr K)} (e : Expr K)
    (h : ∀ t, SubV t e → findRepl t (ps.map (·.1)) (ps.map (·.2)) = findRepl t (qs.map (·.1)) (qs.map (·.2))) :
    substitutePairs ps e = substitutePairs qs e := by
  simp [substitutePairs, substituteMany, substM_congr e h]

/-- C118.  The order of the pairs does not matter if no two of the searched expressions are equal. -/
theorem C118_order [EqbPER K] (ps qs : List (Expr K × Expr K)) (h : ps.Perm qs)
    (hd : ps.Pairwise fun p q => deepEq p.1 q.1 = .ok false ∧ deepEq q.1 p.1 = .ok false) (e : Expr K) :
    substitutePairs ps e = substitutePairs qs e := pairs_congr e fun t _ => findRepl_perm t h hd

/-- C118 for different variables. -/
theorem C118_variables [EqbPER K] (ps qs : List (Nat × Expr K)) (h : ps.Perm qs) (hd : (ps.map (·.1)).Nodup)
    (e : Expr K) : substitutePairs (ps.map fun p => (.var p.1, p.2)) e =
      substitutePairs (qs.map fun p => (.var p.1, p.2)) e := by
  refine C118_order _ _ (h.map _) ?_ e
  rw [List.pairwise_map]
  rw [List.Nodup, List.pairwise_map] at hd
  refine hd.imp fun hne => ?_
  simp [deepEq, hne, Ne.symm hne]

/-- C118.  If two pairs have the same searched expression, the later one has no effect. -/
theorem C118_duplicate (ps qs : List (Expr K × Expr K)) (s r r' : Expr K) (h : (s, r') ∈ ps) (e : Expr K) :
    substitutePairs (ps ++ (s, r) :: qs) e = substitutePairs (ps ++ qs) e :=
  pairs_congr e fun t _ => findRepl_drop t s r ps qs fun h' => h' _ h

/-- C118.  A pair whose searched expression equals no part of the expression has no effect, wherever it is in the list. -/
theorem C118_absent (ps qs : List (Expr K × Expr K)) (s r e : Expr K) (h : ∀ t, SubV t e → deepEq t s = .ok false) :
    substitutePairs (ps ++ (s, r) :: qs) e = substitutePairs (ps ++ qs) e :=
  pairs_congr e fun t ht => findRepl_drop t s r ps qs fun _ => h t ht

/-- C118.  Without any pairs it is simplification. -/
theorem C118_none (e : Expr K) (res : Res (Expr K)) : Simplifies e res ↔ substitutePairs [] e = res := by
  rw [Simplifies_iff, substitutePairs, substituteMany, if_pos (by simp), substM_absent (by simp)]
  rfl

/-- C118.  One pair is a substitution. -/
theorem C118_one (s r e : Expr K) : substitutePairs [(s, r)] e = substitute s r e := by
  rw [substitutePairs, substituteMany, if_pos (by simp), substitute, substE_eq_substM]
  rfl

/-- The condition is needed, and the comparison of the library decides what it means: integrals with different bounds
count as equal, so the order matters for them. -/
theorem C118_integrals : ∃ s t e : Expr K, s ≠ t ∧
    substitutePairs [(s, .var 1), (t, .var 2)] e = .ok (.var 1) ∧
    substitutePairs [(t, .var 2), (s, .var 1)] e = .ok (.var 2) := by
  refine ⟨.integ (.var 1) (.var 2) 0 (.var 0), .integ (.var 1) (.var 3) 0 (.var 0), .integ (.var 1) (.var 2) 0 (.var 0),
    by simp, ?_, ?_⟩
  · simp [substitutePairs, substituteMany, substM, findRepl, deepEq, simplified, simplifyLoop, canSimplify]
  · simp [substitutePairs, substituteMany, substM, findRepl, deepEq, simplified, simplifyLoop, canSimplify]

/-! ### Non-vacuity -/

-- x and x + y are different, and both are searched for
example : ([(.var 0, .var 5), (.bin .plus (.var 0) (.var 1), .var 6)] : List (Expr XRat × Expr XRat)).Pairwise
    (fun p q => deepEq p.1 q.1 = .ok false ∧ deepEq q.1 p.1 = .ok false) ∧
    substitutePairs [(.var 0, .var 5), (.bin .plus (.var 0) (.var 1), .var 6)]
      (.bin .mult (.bin .plus (.var 0) (.var 1)) (.var 0) : Expr XRat) = .ok (.bin .mult (.var 6) (.var 5)) ∧
    substitutePairs [(.bin .plus (.var 0) (.var 1), .var 6), (.var 0, .var 5)]
      (.bin .mult (.bin .plus (.var 0) (.var 1)) (.var 0) : Expr XRat) = .ok (.bin .mult (.var 6) (.var 5)) := by
  refine ⟨by simp [deepEq], by decide +kernel, by decide +kernel⟩

end VM.Props
