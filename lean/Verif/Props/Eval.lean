import Verif.Rt.EvalLemmas
import Verif.NumRat
/-
Properties C01-C05: evaluation.
-/
namespace VM.Props
open Spec
variable {K : Type} [Num K]

/-- C01.  An arithmetic expression evaluates to a number iff every occurring variable has a value;
otherwise the out-of-bounds exception names an occurring variable without a value and the length of
the vector.  For every evaluation order; no other outcome (in particular no undefined behaviour). -/
theorem C01_eval_arith (o : Order K) (v : List K) (e : Expr K) (ha : Arith e) :
    ((∀ i, Occurs i e → i < v.length) → ∃ a, eval o v e = .ok a) ∧
    ((∃ i, Occurs i e ∧ v.length ≤ i) →
      ∃ i, Occurs i e ∧ v.length ≤ i ∧ eval o v e = .throw (.indexOutOfBounds i v.length)) := by
  refine ⟨eval_arith_ok o v ha, ?_⟩
  rintro ⟨i, ho, hi⟩
  rcases eval_arith_cases o v ha with ⟨a, _, hb⟩ | h
  · have := hb i ho; omega
  · exact h

/-- C01, evaluation order: if some order yields a number then every order yields that number. -/
theorem C01_order_irrelevant (o o' : Order K) (v : List K) (e : Expr K) (a : K)
    (h : eval o v e = .ok a) : eval o' v e = .ok a :=
  eval_order o o' v h

/-- `x0 * exp(x1) + 2` needs two values. -/
def exArith : Expr XRat :=
  .bin .plus (.bin .mult (.var 0) (.un (.fn .exp) (.var 1))) (.const (some 2))

example : Arith exArith :=
  .bin (.inl rfl) (.bin (.inr (.inr (.inl rfl))) (.var 0) (.fn _ (.var 1))) (.const _)
example : eval (fun _ _ => true) [some 3, some 0] exArith = .ok (some 5) := by decide +kernel
example : eval (fun _ _ => true) [some 3] exArith = .throw (.indexOutOfBounds 1 1) := by
  decide +kernel
/-- The order really matters for which exception is thrown. -/
example : eval (fun _ _ => true) [] exArith = .throw (.indexOutOfBounds 0 0) ∧
    eval (fun _ _ => false) [] exArith = .throw (.indexOutOfBounds 1 0) := by decide +kernel

omit [Num K] in
/-- C01, negative part: the overload of `eval` for a single compile-time variable does not check the
range, so evaluating it with too few values is undefined behaviour instead of an exception. -/
theorem C01_ct_variable_unchecked (i : Nat) (v : List K) :
    evalCtVariable i v = .ub ↔ v.length ≤ i := by
  simp only [evalCtVariable]
  by_cases h : i < v.length
  · simp [h]
  · simp [h]; omega

example : evalCtVariable 1 ([some 3] : List XRat) = .ub := by decide +kernel

/-- C02.  Vectors of equal length which agree at the occurring variables give the same outcome. -/
theorem C02_eval_frame (o : Order K) (v w : List K) (hlen : v.length = w.length) (e : Expr K)
    (h : ∀ i, Occurs i e → v[i]? = w[i]?) : eval o v e = eval o w e :=
  eval_congr o v w hlen e h

/-- C02.  Nor does the length of the vector matter to an evaluation that returns: values beyond those that
occur can be added, or left out. -/
theorem C02_any_length (o : Order K) (v w : List K) (e : Expr K) (a : K)
    (h : ∀ i, Occurs i e → v[i]? = w[i]?) (ha : eval o v e = .ok a) : eval o w e = .ok a := by
  induction e using Expr.ind generalizing a with
  | const c => exact ha
  | var i =>
    simp only [eval, ← h i .var] at ha ⊢
    split at ha
    · exact ha
    · cases ha
  | fsym i t => simp [eval] at ha
  | un op e ih =>
    simp only [eval, Res.bind_eq_ok] at ha ⊢
    obtain ⟨x, hx, hy⟩ := ha
    exact ⟨x, ih x (fun i hi => h i (.un hi)) hx, hy⟩
  | integ lo hi x e _ _ ih =>
    simp only [eval, Res.bind_eq_ok] at ha
    obtain ⟨x, hx, hy⟩ := ha
    cases hy
  | bin op l r ihl ihr =>
    have hl : ∃ x, eval o v l = .ok x := by
      cases hx : eval o v l with
      | ok x => exact ⟨x, rfl⟩
      | _ => cases hy : eval o v r <;> simp [eval, Res.both, hx, hy] at ha <;> split at ha <;> cases ha
    have hr : ∃ y, eval o v r = .ok y := by
      obtain ⟨x, hx⟩ := hl
      cases hy : eval o v r with
      | ok y => exact ⟨y, rfl⟩
      | _ => simp [eval, Res.both, hx, hy] at ha
    obtain ⟨x, hx⟩ := hl
    obtain ⟨y, hy⟩ := hr
    have hx' := ihl x (fun i hi => h i (.binL hi)) hx
    have hy' := ihr y (fun i hi => h i (.binR hi)) hy
    simp only [eval, hx, hy, hx', hy', Res.both] at ha ⊢
    simpa using ha
  | vec es _ => simp [eval] at ha

/-- Variable 1 does not occur here, and its value is irrelevant. -/
example : ∃ (e : Expr XRat) (v w : List XRat), v ≠ w ∧ v.length = w.length ∧
    (∀ i, Occurs i e → v[i]? = w[i]?) ∧ Occurs 2 e := by
  refine ⟨.bin .mult (.var 0) (.var 2), [some 1, some 2, some 3], [some 1, some 7, some 3],
    by decide +kernel, rfl, ?_, .binR .var⟩
  intro i hi
  cases hi with
  | binL h => cases h; rfl
  | binR h => cases h; rfl

/-- C03.  Evaluating at a scalar and at the vector with that one entry have the same outcome. -/
theorem C03_scalar_eq_vector (o : Order K) (s : K) (e : Expr K) :
    evalS o s e = eval o [s] e := evalS_eq_eval o s e

example : evalS (fun _ _ => true) (some 3) exArith = .throw (.indexOutOfBounds 1 1) ∧
    evalS (fun _ _ => true) (some 3 : XRat) (.bin .mult (.var 0) (.var 0)) = .ok (some 9) := by
  decide +kernel

/-- C03, negative part: calling a variable *object* with a scalar is guarded by an `assert` only: for
a non-zero id this is undefined behaviour, where evaluation as an expression throws. -/
theorem C03_variable_object_call (o : Order K) (i : Nat) (s : K) :
    (variableCallScalar i s = .ok s ↔ i = 0) ∧ (variableCallScalar i s = .ub ↔ i ≠ 0) ∧
    (i ≠ 0 → evalS o s (.var i) = .throw (.indexOutOfBounds i 1)) := by
  by_cases h : i = 0
  · simp [variableCallScalar, h]
  · refine ⟨by simp [variableCallScalar, h], by simp [variableCallScalar, h], fun _ => ?_⟩
    simp only [evalS]; rw [if_pos (by omega)]

/-- C04.  An expression with a symbolic part where a number is needed always throws. -/
theorem C04_symbolic_throws (o : Order K) (v : List K) (e : Expr K) (h : Symbolic e) :
    ∃ x, eval o v e = .throw x := eval_symbolic o v h

/-- C04.  Evaluation never has undefined behaviour, whatever the expression. -/
theorem C04_eval_no_ub (o : Order K) (v : List K) (e : Expr K) : eval o v e ≠ .ub :=
  eval_ne_ub o v e

omit [Num K] in
/-- C04, converse: an expression without symbolic part and without ill-formed nodes is arithmetic, so
evaluation is governed by C01. -/
theorem C04_not_symbolic (e : Expr K) (hw : WellFormed e) (h : ¬ Symbolic e) : Arith e := by
  induction hw with
  | const c => exact .const c
  | var i => exact .var i
  | fsym i t => exact absurd (.fsym i t) h
  | @un op e _ ih =>
    have := ih fun hs => h (.un hs)
    cases op with
    | fn f => exact .fn f this
    | grad => exact absurd (.grad _) h
    | divg => exact absurd (.divg _) h
    | pd i => exact absurd (.pd i _) h
    | symInt i => exact absurd (.symInt i _) h
  | integ => exact absurd (.integ _ _ _ _) h
  | bin hop _ _ ihl ihr => exact .bin hop (ihl fun hs => h (.binL hs)) (ihr fun hs => h (.binR hs))
  | vec => exact absurd (.vec _) h

/-- `0 * grad(u)` and a variable: the gradient throws although multiplied by 0. -/
example : Symbolic (.bin .mult (.const (some 0 : XRat)) (.un .grad (.fsym 0 0))) :=
  .binR (.grad _)
example : eval (fun _ _ => true) [] (.bin .mult (.const (some 0 : XRat)) (.un .grad (.var 0))) =
    .throw (.indexOutOfBounds 0 0) := by decide +kernel

/-- C05.  A well-formed expression reported constant unwraps to a number, in every order, and evaluates
to that number at every vector and scalar. -/
theorem C05_is_constant (e : Expr K) (hw : WellFormed e) (hc : isConst e = true) :
    ∃ c, (∀ o, unwrap o e = .ok c) ∧ (∀ o v, eval o v e = .ok c) ∧ ∀ o s, evalS o s e = .ok c := by
  obtain ⟨c, h1, h2⟩ := isConst_value hw hc
  exact ⟨c, h1, h2, fun o s => by rw [evalS_eq_eval]; exact h2 o [s]⟩

omit [Num K] in
/-- C05, which well-formed expressions are reported constant: arithmetic of constants, nothing else. -/
theorem C05_is_constant_iff (e : Expr K) (hw : WellFormed e) :
    isConst e = true ↔ ConstArith e := by
  induction hw with
  | const c => exact ⟨fun _ => .const c, fun _ => rfl⟩
  | bin hop _ _ ihl ihr =>
    simp only [isConst, Bool.and_eq_true, ihl, ihr]
    constructor
    · rintro ⟨h1, h2⟩; exact .bin hop h1 h2
    · intro h; cases h with | bin _ h1 h2 => exact ⟨h1, h2⟩
  | _ =>
    constructor
    · intro h; simp [isConst] at h
    · intro h; cases h

example : isConst (.bin .div (.const (some 1 : XRat)) (.bin .plus (.const (some 1)) (.const (some 2))))
    = true := rfl

/-- C05, negative part: the ill-formed node left behind by assigning a number to a binary expression
object (C24) is reported constant, but neither unwraps nor evaluates. -/
theorem C05_ill_formed (o : Order K) (c : K) (v : List K) :
    isConst (.bin .uid (.const c) (.const c)) = true ∧
    unwrap o (.bin .uid (.const c) (.const c)) = .throw .rhsForUnary ∧
    eval o v (.bin .uid (.const c) (.const c)) = .throw .rhsForUnary := by
  refine ⟨rfl, ?_, ?_⟩ <;> simp [unwrap, eval, applyB]

end VM.Props
