import Verif.Rt.SubstLemmas
import Verif.NumRat
/-
Properties C15-C19: run-time substitution.
-/
namespace VM.Props
open Spec
variable {K : Type} [Num K]

/-- C15.  Let `w` be the vector `v` with the value of `r` at entry `i`.  If `e` evaluates at `w` to a
number that is not undefined, `substitute(x_i, r, e)` returns an expression that evaluates at `v` to the
same number.  (`e` and `r` are arbitrary; `r` has to be evaluable only if `x_i` occurs in `e`.) -/
theorem C15_substitute_value [SimpLaws K] (o : Order K) (v w : List K) (i : Nat) (r e : Expr K) (a : K)
    (hw : ∀ j, j ≠ i → w[j]? = v[j]?)
    (hr : Occurs i e → ∃ b, eval o v r = .ok b ∧ w[i]? = some b)
    (he : eval o w e = .ok a) (hb : ¬ SimpLaws.bad a) :
    ∃ t, substitute (.var i) r e = .ok t ∧ eval o v t = .ok a := by
  obtain ⟨t, ht, hv⟩ := substM_vars_value (o := o) (v := v) (w := w) (is := [i]) (rs := [r]) rfl
    (by simpa using hw)
    (by
      intro k i' r' hi _ hr' hoc
      cases k with
      | zero =>
        simp only [List.getElem?_cons_zero, Option.some.injEq] at hi hr'
        subst hi hr'
        exact hr hoc
      | succ k => simp at hi) he
  obtain ⟨t', ht'⟩ := simplified_ok_arith (Arith.of_eval hv)
  refine ⟨t', ?_, simplified_value ht' o v hv hb⟩
  simp only [List.map_cons, List.map_nil] at ht
  simp [substitute, substE_eq_substM, ht, ht']

/-- `x0 * (x1 + 0)` with `x1 := x0 + 3`, at `x0 = 2`: `2 * 5 = 10`. -/
example : substitute (.var 1) (.bin .plus (.var 0) (.const (some 3)))
      (.bin .mult (.var 0) (.bin .plus (.var 1) (.const (some 0))) : Expr XRat) =
      .ok (.bin .mult (.var 0) (.bin .plus (.var 0) (.const (some 3)))) ∧
    eval leftFirst [some 2]
      (.bin .mult (.var 0) (.bin .plus (.var 0) (.const (some 3))) : Expr XRat) = .ok (some 10) ∧
    eval leftFirst [some 2, some 5]
      (.bin .mult (.var 0) (.bin .plus (.var 1) (.const (some 0))) : Expr XRat) = .ok (some 10) :=
  ⟨by with_unfolding_all rfl, by decide +kernel, by decide +kernel⟩

/-- C16.  The result of substituting lists is, before simplification, the expression in which every
outermost match of one of the searched expressions is replaced by the replacement of the first match,
and nothing else is changed, in particular not inside replacements.  For all expressions whose vectors
have one size. -/
theorem C16_simultaneous (n : Nat) (ss rs : List (Expr K)) (e : Expr K)
    (hlen : ss.length = rs.length) (hss : ∀ s ∈ ss, VecDim n s) (he : VecDim n e) :
    ∃ e', Replaced (FirstMatch ss rs) (fun t => ∀ s ∈ ss, deepEq t s = .ok false) e e' ∧
      (∀ e'', Replaced (FirstMatch ss rs) (fun t => ∀ s ∈ ss, deepEq t s = .ok false) e e'' →
        e'' = e') ∧
      ∀ res, Simplifies e' res → substituteMany ss rs e = res := by
  obtain ⟨e', he'⟩ := substM_total hss hlen he
  have hrep := substM_replaced he'
  refine ⟨e', hrep, fun e'' h => ?_, fun res hres => ?_⟩
  · exact (Replaced_unique (fun _ _ h => h.not_miss) (fun _ _ _ h h' => h.unique h') hrep h).symm
  · simp only [substituteMany, hlen, if_true, he', Res.bind_ok]
    exact Simplifies_iff.1 hres

/-- C16, variables: let `w` be `v` with the value of the `k`-th replacement at the `k`-th variable, all at
once (for a repeated variable the first replacement counts).  The result evaluates at `v` to what `e`
evaluates to at `w`. -/
theorem C16_variables_at_once [SimpLaws K] (o : Order K) (v w : List K) (is : List Nat)
    (rs : List (Expr K)) (hlen : is.length = rs.length) (e : Expr K) (a : K)
    (hw : ∀ j, j ∉ is → w[j]? = v[j]?)
    (hr : ∀ (k : Nat) i r, is[k]? = some i → (∀ k' < k, is[k']? ≠ some i) → rs[k]? = some r →
      Occurs i e → ∃ b, eval o v r = .ok b ∧ w[i]? = some b)
    (he : eval o w e = .ok a) (hb : ¬ SimpLaws.bad a) :
    ∃ t, substituteMany (is.map .var) rs e = .ok t ∧ eval o v t = .ok a := by
  obtain ⟨t, ht, hv⟩ := substM_vars_value hlen hw hr he
  obtain ⟨t', ht'⟩ := simplified_ok_arith (Arith.of_eval hv)
  exact ⟨t', by simp [substituteMany, hlen, ht, ht'], simplified_value ht' o v hv hb⟩

/-- C16, limit: lists of different lengths fail an assertion. -/
theorem C16_lengths (ss rs : List (Expr K)) (e : Expr K) (h : ss.length ≠ rs.length) :
    substituteMany ss rs e = .ub := by simp [substituteMany, h]

/-- Swapping `x0` and `x1` in `x0 - 2*x1`. -/
example : substituteMany [.var 0, .var 1] [.var 1, .var 0]
      (.bin .minus (.var 0) (.bin .mult (.const (some 2)) (.var 1)) : Expr XRat) =
    .ok (.bin .minus (.var 1) (.bin .mult (.const (some 2)) (.var 0))) := by with_unfolding_all rfl
example : eval leftFirst [some 5, some 7]
      (.bin .minus (.var 1) (.bin .mult (.const (some 2)) (.var 0)) : Expr XRat) = .ok (some (-3)) ∧
    eval leftFirst [some 7, some 5]
      (.bin .minus (.var 0) (.bin .mult (.const (some 2)) (.var 1)) : Expr XRat) = .ok (some (-3)) := by
  decide +kernel

/-- C17.  Replacing by an expression of the same value at `v` does not change the value at `v`. -/
theorem C17_equals_for_equals [SimpLaws K] [EqbSound K] (o : Order K)
    (ho : ∀ l l' r r', deepEq l l' = .ok true → deepEq r r' = .ok true → o l r = o l' r')
    (v : List K) (s r e : Expr K) (b a : K) (hs : eval o v s = .ok b) (hr : eval o v r = .ok b)
    (he : eval o v e = .ok a) (hb : ¬ SimpLaws.bad a) :
    ∃ t, substitute s r e = .ok t ∧ eval o v t = .ok a := by
  obtain ⟨t, ht, hv⟩ := substM_value (o := o) (v := v) (w := v) (ss := [s]) (rs := [r])
    (fun t ht => findRepl_total (n := 1) (ht.vecDim 1)
      (by simpa using (Arith.of_eval hs).vecDim 1) rfl) (Arith.of_eval he)
    (by
      intro t r' a' _ _ hf hea
      obtain ⟨k, s', hs', hr', hm, _⟩ := findRepl_some hf
      cases k with
      | zero =>
        simp only [List.getElem?_cons_zero, Option.some.injEq] at hs' hr'
        subst hs' hr'
        rw [deepEq_eval ho v hm, hs] at hea
        cases hea; exact hr
      | succ k => simp at hs')
    (fun _ _ _ => rfl) he
  obtain ⟨t', ht'⟩ := simplified_ok_arith (Arith.of_eval hv)
  exact ⟨t', by simp [substitute, substE_eq_substM, ht, ht'], simplified_value ht' o v hv hb⟩

/-- `x0 + x1` by `7` in `(x0 + x1) * x0` at `(3, 4)`. -/
example : substitute (.bin .plus (.var 0) (.var 1)) (.const (some 7))
      (.bin .mult (.bin .plus (.var 0) (.var 1)) (.var 0) : Expr XRat) =
    .ok (.bin .mult (.const (some 7)) (.var 0)) := by with_unfolding_all rfl
example : eval leftFirst [some 3, some 4] (.bin .plus (.var 0) (.var 1) : Expr XRat) =
    .ok (some 7) := by decide +kernel

/-- C18.  After substituting `x_i` by an expression not containing it, it does not occur any more; hence
(C02) the outcome of evaluating the result does not depend on the value given to `x_i`.  Integrals are
allowed as long as `x_i` is not an integration variable and not in a bound. -/
theorem C18_variable_gone (i : Nat) (r e t : Expr K) (hr : ¬ Occurs i r) (he : ¬ InInterval i e)
    (h : substitute (.var i) r e = .ok t) :
    ¬ Occurs i t ∧ ∀ (o : Order K) (v : List K) (x : K), eval o (v.set i x) t = eval o v t := by
  simp only [substitute, substE_eq_substM, Res.bind_eq_ok] at h
  obtain ⟨t', ht', hs⟩ := h
  have hno : ¬ Occurs i t := fun hi =>
    substM_occurs ht' (by simp) (by simpa using hr) he
      ((simplified_induct (P := fun e' => Occurs i e' → Occurs i t')
        (fun _ _ hp ih hi => ih (hp.occurs hi)) hs id).1 hi)
  refine ⟨hno, fun o v x => eval_congr o _ _ (by simp) t fun j hj => ?_⟩
  rw [List.getElem?_set_ne]
  rintro rfl; exact hno hj

/-- An integral over `x1` in which the parameter `x0` is replaced. -/
example : substitute (.var 0) (.const (some 3))
      (.integ (.const (some 0)) (.const (some 1)) 1 (.bin .mult (.var 0) (.var 1)) : Expr XRat) =
    .ok (.integ (.const (some 0)) (.const (some 1)) 1 (.bin .mult (.const (some 3)) (.var 1))) := by
  with_unfolding_all rfl

/-- C19.  If no subexpression (operands, arguments, entries of vectors) equals the searched expression,
substitution is simplification. -/
theorem C19_absent (s r e : Expr K) (h : ∀ t, SubV t e → deepEq t s = .ok false) :
    ∀ res, Simplifies e res ↔ substitute s r e = res := by
  intro res
  rw [Simplifies_iff, substitute, substE_eq_substM, substM_absent (by simpa using h)]
  rfl

/-- C19 for variables: substituting a variable that does not occur is simplification. -/
theorem C19_absent_variable (i : Nat) (r e : Expr K) (h : ¬ Occurs i e) :
    ∀ res, Simplifies e res ↔ substitute (.var i) r e = res := by
  refine C19_absent _ r e fun t ht => ?_
  rcases deepEq_var t i with ⟨_, rfl⟩ | ⟨h', _⟩
  · exfalso; apply h
    clear h
    induction ht with
    | refl => exact .var
    | un _ ih => exact .un ih
    | integ _ ih => exact .integBody ih
    | binL _ ih => exact .binL ih
    | binR _ ih => exact .binR ih
    | vec hm _ ih => exact .vec hm ih
  · exact h'

example : substitute (.bin .plus (.var 1) (.var 0)) (.const (some 7))
      (.bin .mult (.bin .plus (.var 0) (.var 1)) (.const (some 1)) : Expr XRat) =
    .ok (.bin .plus (.var 0) (.var 1)) := by with_unfolding_all rfl

end VM.Props
