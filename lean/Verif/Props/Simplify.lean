import Verif.Rt.ValLemmas
import Verif.NumRat
/-
Properties C06-C10: run-time simplification.
-/
namespace VM.Props
open Spec
variable {K : Type} [Num K]

/-- C06.  Where the expression evaluates to a number that is not undefined, the simplified expression
evaluates to the same number: for every arithmetic with the laws `SimpLaws`, every evaluation order,
every vector. -/
theorem C06_simplify_value [SimpLaws K] (e e' : Expr K) (h : Simplifies e (.ok e')) (o : Order K)
    (v : List K) (a : K) (he : eval o v e = .ok a) (hb : ¬ SimpLaws.bad a) : eval o v e' = .ok a :=
  simplified_value (Simplifies_iff.1 h) o v he hb

/-- C06.  The same for evaluation at a scalar. -/
theorem C06_simplify_value_scalar [SimpLaws K] (e e' : Expr K) (h : Simplifies e (.ok e'))
    (o : Order K) (s a : K) (he : evalS o s e = .ok a) (hb : ¬ SimpLaws.bad a) :
    evalS o s e' = .ok a := by
  rw [evalS_eq_eval] at *
  exact simplified_value (Simplifies_iff.1 h) o _ he hb

/-- `(0 - x0) * (1 * (x1 + 0))` simplifies to `(-1 * x0) * x1`. -/
def exSimp : Expr XRat :=
  .bin .mult (.bin .minus (.const (some 0)) (.var 0))
    (.bin .mult (.const (some 1)) (.bin .plus (.var 1) (.const (some 0))))

example : Simplifies exSimp
    (.ok (.bin .mult (.bin .mult (.const (some (-1))) (.var 0)) (.var 1))) := ⟨2, rfl⟩
example : eval leftFirst [some 2, some 3] exSimp = .ok (some (-6)) ∧
    ¬ SimpLaws.bad (K := XRat) (some (-6)) := ⟨by decide +kernel, by simp [SimpLaws.bad]⟩

/-- C06, limit of the claim: at a point where the expression is undefined, the value may change.
Witness: `0 * (1 / x0)` at `x0 = 0`; likewise `0 / x0`. -/
theorem C06_undefined_may_change :
    ∃ (e e' : Expr XRat), Simplifies e (.ok e') ∧ eval leftFirst [some 0] e = .ok none ∧
      eval leftFirst [some 0] e' = .ok (some 0) :=
  ⟨.bin .div (.const (some 0)) (.var 0), .const (some 0), ⟨2, rfl⟩, by decide +kernel, rfl⟩

/-- C06, limit of the claim: an expression that throws may become one that evaluates.
Witness: `0 * x1` with only one value. -/
theorem C06_exception_may_vanish :
    ∃ (e e' : Expr XRat), Simplifies e (.ok e') ∧
      eval leftFirst [some 5] e = .throw (.indexOutOfBounds 1 1) ∧
      eval leftFirst [some 5] e' = .ok (some 0) :=
  ⟨.bin .mult (.const (some 0)) (.var 1), .const (some 0), ⟨2, rfl⟩, by decide +kernel, rfl⟩

/-- C06 for the symbolic node kinds, which `eval` refuses: under every interpretation of function symbols,
formal derivatives and integrals, a simplified expression means the same (products of vectors and
integrals included). -/
theorem C06_simplify_meaning [SimpLaws K] (e e' : Expr K) (h : Simplifies e (.ok e')) (I : Interp K)
    (hI : ∀ x, I.good x → ¬ SimpLaws.bad x) (ρ : Nat → Option K) (a : K) (he : Val I ρ e a)
    (hb : ¬ SimpLaws.bad a) : Val I ρ e' a :=
  simplified_val (Simplifies_iff.1 h) hI he hb

/-- `(u, x0) * (3, 1 + 1)` has the value `3u + 2x0`. -/
example : Val (⟨fun _ _ => some (some 5), fun _ _ _ => none, fun _ => False, fun _ _ _ => False,
      fun _ _ _ _ => False⟩ : Interp XRat) (fun _ => some (some 4))
    (.bin .mult (.vec [.fsym 0 0, .var 0])
      (.vec [.const (some 3), .bin .plus (.const (some 1)) (.const (some 1))])) (some 23) :=
  (show Num.add (Num.mul (some 5) (some 3)) (Num.mul (some 4) (some 2)) = (some 23 : XRat) by
    decide +kernel) ▸ .dotSnoc (ls := [.fsym 0 0]) (rs := [.const (some 3)])
      (.dotOne (.bin (.fsym rfl) .const rfl))
      (.bin (.var rfl) (.bin .const .const (c := some 2)
        (by rw [show (some 2 : XRat) = Num.add (some 1) (some 1) by decide +kernel]; rfl)) rfl)

/-- C07.  Simplification introduces no variables. -/
theorem C07_no_new_variables (e e' : Expr K) (h : Simplifies e (.ok e')) (i : Nat)
    (hi : Occurs i e') : Occurs i e :=
  (simplified_induct (P := fun e' => Occurs i e' → Occurs i e)
    (fun _ _ hp ih hi => ih (hp.occurs hi)) (Simplifies_iff.1 h) id).1 hi

/-- C07.  If the expression can be evaluated, so can the simplified one (in any arithmetic). -/
theorem C07_stays_evaluable (e e' : Expr K) (h : Simplifies e (.ok e')) (o : Order K) (v : List K)
    (he : ∃ a, eval o v e = .ok a) : ∃ b, eval o v e' = .ok b := by
  obtain ⟨a, ha⟩ := he
  have har := Arith.of_eval ha
  have har' := (simplified_induct (P := Arith) (fun _ _ hp => hp.arith) (Simplifies_iff.1 h) har).1
  refine eval_arith_ok o v har' fun i hi => ?_
  rcases eval_arith_cases o v har with ⟨_, _, hb⟩ | ⟨j, _, _, hj⟩
  · exact hb i (C07_no_new_variables e e' h i hi)
  · rw [ha] at hj; cases hj

example : ∃ a, eval leftFirst [some 2, some 3] exSimp = .ok a := ⟨some (-6), by decide +kernel⟩

/-- C08.  The loop ends on every expression whatsoever, in every arithmetic. -/
theorem C08_terminates (e : Expr K) : ∃ r, Simplifies e r := ⟨_, Simplifies_simplified e⟩

/-- C08.  On well-formed expressions whose vectors all have the same non-zero size it ends without
exception or undefined behaviour, the result reports that it cannot be simplified, and simplifying the
result again returns it unchanged. -/
theorem C08_simplify_ok (n : Nat) (hn : 0 < n) (e : Expr K) (hw : WellFormed e) (hd : VecDim n e) :
    ∃ e', Simplifies e (.ok e') ∧ canSimplify e' = .ok false ∧ Simplifies e' (.ok e') := by
  obtain ⟨e', he⟩ := simplified_ok hn hw hd
  have hc := (simplified_induct (P := fun _ => True) (fun _ _ _ _ => trivial) he trivial).2
  exact ⟨e', Simplifies_iff.2 he, hc, ⟨1, by simp [simplifyLoop, hc]⟩⟩

/-- A product of two vectors with an inner `x + 0`: three passes. -/
example : Simplifies (.bin .mult (.vec [.var 0, .bin .plus (.var 1) (.const (some 0))])
      (.bin .mult (.const (some 1)) (.vec [.var 2, .const (some (1 : Rat))])) : Expr XRat)
    (.ok (.bin .plus (.bin .mult (.var 0) (.var 2)) (.var 1))) := ⟨4, rfl⟩

/-- C08, limit: vectors of different sizes make the product undefined (failed assertion). -/
theorem C08_dimension_mismatch :
    Simplifies (.bin .mult (.vec [.var 0]) (.vec [.var 0, .var 1]) : Expr K) .ub := ⟨1, rfl⟩

/-- C08, limit: the ill-formed node of C24 makes simplification throw. -/
theorem C08_ill_formed (c : K) :
    Simplifies (.bin .uid (.const c) (.const c)) (.throw .rhsForUnary) := ⟨1, rfl⟩

theorem canSimplify_false_sub {s e : Expr K} (hs : Sub s e) (hw : WellFormed e)
    (h : canSimplify e = .ok false) : canSimplify s = .ok false ∧ WellFormed s := by
  induction hs with
  | refl => exact ⟨h, hw⟩
  | un _ ih => cases hw with | un _ hw => exact ih hw h
  | integ _ ih => cases hw with | integ _ _ _ hw => exact ih hw h
  | @binL op l r _ ih | @binR op l r _ ih =>
    cases hw with | bin ho hl hr =>
    simp only [canSimplify] at h
    split at h
    · cases h
    · obtain ⟨b, hb⟩ := canSimplify_ok hl
      obtain ⟨b', hb'⟩ := canSimplify_ok hr
      rw [hb, hb'] at h
      have key : ∀ (e : Expr K) (p : K → Bool) (rest : Res Bool), constCheck e p rest = .ok false →
          rest = .ok false := by
        intro e p rest h
        simp only [constCheck] at h
        split at h
        · obtain ⟨c, _, h⟩ := Res.bind_eq_ok.1 h
          split at h
          · cases h
          · exact h
        · exact h
      have hbb : ((Res.ok b).bind fun x => if x then .ok true else Res.ok b') = .ok false →
          b = false ∧ b' = false := by cases b <;> cases b' <;> simp
      have hh : b = false ∧ b' = false := by
        rcases ho with rfl | rfl | rfl | rfl <;> simp only [canBin] at h
        · exact hbb (key _ _ _ (key _ _ _ h))
        · exact hbb (key _ _ _ (key _ _ _ h))
        · have h := key _ _ _ (key _ _ _ h)
          split at h
          · cases h
          · exact hbb h
        · exact hbb (key _ _ _ (key _ _ _ h))
      first
      | exact ih hl (by rw [hb, hh.1])
      | exact ih hr (by rw [hb', hh.2])

/-- C09.  No trivial operation is left anywhere in the result (operands and arguments at any depth;
entries of vectors and integration bounds are not reached by the simplifier, see below). -/
theorem C09_normal_form (e e' : Expr K) (hw : WellFormed e) (h : Simplifies e (.ok e')) (s : Expr K)
    (hs : Sub s e') : ¬ Trivial s := by
  obtain ⟨hw', hc⟩ := simplified_induct (P := WellFormed) (fun _ _ hp => hp.wellFormed)
    (Simplifies_iff.1 h) hw
  obtain ⟨hcs, hws⟩ := canSimplify_false_sub hs hw' hc
  have isc : ∀ {e : Expr K}, ConstArith e → isConst e = true := by
    intro e h
    induction h with
    | const c => rfl
    | bin _ _ _ h1 h2 => simp [isConst, h1, h2]
  intro ht
  cases ht with
  | consts h1 h2 => simp [canSimplify, isc h1, isc h2] at hcs
  | plusL h0 | minusL h0 | multZeroL h0 | multOneL h0 | divL h0 =>
    rename_i c r
    simp only [canSimplify, isConst, Bool.true_and] at hcs
    split at hcs
    · cases hcs
    · simp [canBin, constCheck, isConst, unwrap, h0] at hcs
  | plusR h0 | minusR h0 | multZeroR h0 | multOneR h0 | divR h0 =>
    rename_i c l
    simp only [canSimplify, isConst, Bool.and_true] at hcs
    split at hcs
    · cases hcs
    · rename_i hl
      simp [canBin, constCheck, isConst, unwrap, h0, hl] at hcs

/-- The hypotheses are met by an expression that does contain trivial operations. -/
example : ∃ e e' s : Expr XRat, WellFormed e ∧ Simplifies e (.ok e') ∧ Sub s e ∧ Trivial s := by
  refine ⟨exSimp, _, .bin .minus (.const (some 0)) (.var 0), ?_, ⟨2, rfl⟩, .binL .refl, ?_⟩
  · exact .bin (.inr (.inr (.inl rfl))) (.bin (.inr (.inl rfl)) (.const _) (.var _))
      (.bin (.inr (.inr (.inl rfl))) (.const _) (.bin (.inl rfl) (.var _) (.const _)))
  · exact .minusL (by decide +kernel)

/-- C09, limit: entries of a vector are not simplified at all. -/
theorem C09_vector_entries_untouched (es : List (Expr K)) :
    Simplifies (.vec es) (.ok (.vec es)) := ⟨1, rfl⟩

/-- C09, limit: a function of a constant is left alone when nothing else needs simplification, but is
folded when something else does.  Witness: `sin(0)` alone and in `sin(0) + (x0 + 0)`. -/
theorem C09_function_of_constant :
    Simplifies (.un (.fn .sin) (.const (some 0)) : Expr XRat)
      (.ok (.un (.fn .sin) (.const (some 0)))) ∧
    Simplifies (.bin .plus (.un (.fn .sin) (.const (some 0)))
        (.bin .plus (.var 0) (.const (some 0))) : Expr XRat) (.ok (.var 0)) :=
  ⟨⟨1, rfl⟩, ⟨3, rfl⟩⟩

/-- C10.  Arithmetic of constants becomes one constant, whose value is the value of the expression
(at every vector, in every order). -/
theorem C10_constant_folding (e : Expr K) (h : ConstArith e) :
    ∃ c, Simplifies e (.ok (.const c)) ∧ ∀ o v, eval o v e = .ok c := by
  have hw : WellFormed e := by
    induction h with
    | const c => exact .const c
    | bin ho _ _ h1 h2 => exact .bin ho h1 h2
  have hc : isConst e = true := by
    clear hw
    induction h with
    | const c => rfl
    | bin _ _ _ h1 h2 => simp [isConst, h1, h2]
  obtain ⟨c, hu, hv⟩ := isConst_value hw hc
  refine ⟨c, ?_, hv⟩
  cases h with
  | const c' =>
    have := hv leftFirst []
    simp only [eval, Res.ok.injEq] at this; subst this
    exact ⟨1, rfl⟩
  | @bin op l r ho h1 h2 =>
    simp only [isConst] at hc
    have hs : simplify (.bin op l r) = .ok (.const c) := by
      simp only [simplify, hc, if_true, hu, Res.map_ok]
    exact ⟨2, by simp [simplifyLoop, canSimplify, hc, hs]⟩

example : Simplifies (.bin .mult (.bin .minus (.const (some 1)) (.const (some 4)))
    (.const (some 2)) : Expr XRat) (.ok (.const (some (-6)))) := ⟨2, by with_unfolding_all rfl⟩

end VM.Props
