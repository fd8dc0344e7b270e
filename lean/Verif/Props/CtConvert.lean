import Verif.Ct.ConvertLemmas
import Verif.NumRat
/-
C44: converting compile-time expressions to run-time expressions.

Nothing is assumed of the numeric type; both sides do the same operations on the same numbers.
-/
namespace VM.Props
open VM.Ct VM.Spec
variable {K : Type} [Num K]

/-- **C44 (which expressions convert)**: exactly those without function symbols, which are also exactly those
that can be evaluated. -/
theorem C44_converts (o : CtOrder) (v : List K) (e : CtExpr) :
    ((∃ r : Expr K, toRt e = some r) ↔ NoSym e) ∧ ((∃ res, ctCall o v e = some res) ↔ NoSym e) := by
  rw [toRt_eq, ctCall]
  rw [← callable_iff]
  cases callable e <;> simp

/-- **C44 (value)**: the run-time expression and the compile-time expression have the same value at every
vector, whatever the orders in which operands are evaluated. -/
theorem C44_value (e : CtExpr) (r : Expr K) (h : toRt e = some r) (o : CtOrder) (o' : Order K) (v : List K)
    (x : K) : ctCall o v e = some (.ok x) ↔ eval o' v r = .ok x := by
  obtain ⟨hn, rfl⟩ := toRt_some h
  rw [ctCall, if_pos (callable_iff.2 hn), Option.some_inj]
  exact callAux_ok hn

/-- **C44 (out of range)**: both have the value the expression stands for if every variable of the expression
is an entry of the vector; otherwise both throw, for a variable of the expression beyond the vector, and report the vector's size. -/
theorem C44_out_of_range (e : CtExpr) (r : Expr K) (h : toRt e = some r) (o : CtOrder) (o' : Order K)
    (v : List K) :
    ((∀ i, Has i e → i < v.length) → ∀ d : K,
      ctCall o v e = some (.ok (numAt (fun i => v.getD i d) e)) ∧
      eval o' v r = .ok (numAt (fun i => v.getD i d) e)) ∧
    ((∃ i, Has i e ∧ v.length ≤ i) →
      ∃ res, ctCall o v e = some res ∧ OutOfRange v e res ∧ OutOfRange v e (eval o' v r)) := by
  obtain ⟨hn, rfl⟩ := toRt_some h
  rw [ctCall, if_pos (callable_iff.2 hn)]
  have h1 := callAux_cases o v hn
  have h2 := callAux_cases (fun l r => o' (image l) (image r)) v hn
  rw [callAux_eq hn] at h2
  constructor
  · intro hall d
    have := callAux_num o v d hn hall
    exact ⟨by rw [this], (callAux_ok hn).1 this⟩
  · rintro ⟨i, hi, hv⟩
    obtain ⟨h, _⟩ | h1 := h1
    · exact absurd (h i hi) (Nat.not_lt.2 hv)
    obtain ⟨h, _⟩ | h2 := h2
    · exact absurd (h i hi) (Nat.not_lt.2 hv)
    exact ⟨_, rfl, h1, h2⟩

/-- **C44 (which exception)**: when the operands are evaluated in the same order the outcomes are the same,
the exception included. -/
theorem C44_same_order (e : CtExpr) (r : Expr K) (h : toRt e = some r) (o' : Order K) :
    ∃ o : CtOrder, ∀ v : List K, ctCall o v e = some (eval o' v r) := by
  obtain ⟨hn, rfl⟩ := toRt_some h
  refine ⟨fun l r => o' (image l) (image r), fun v => ?_⟩
  rw [ctCall, if_pos (callable_iff.2 hn), callAux_eq hn]

/-- At a single number (an `rt_constant`) the values agree as well.  The exceptions do not: the compile-time
variable reports size 0, the run-time variable size 1. -/
theorem C44_at_constant (e : CtExpr) (r : Expr K) (h : toRt e = some r) (o : CtOrder) (o' : Order K) (s x : K) :
    ctCallConst o s e = some (.ok x) ↔ evalS o' s r = .ok x := by
  obtain ⟨hn, rfl⟩ := toRt_some h
  rw [ctCallConst, if_pos (callable_iff.2 hn), Option.some_inj]
  exact callConst_ok hn

theorem C44_at_constant_differs (o : CtOrder) (o' : Order K) (s : K) :
    toRt (K := K) (.var 1) = some (.var 1) ∧
    ctCallConst o s (.var 1) = some (.throw (.indexOutOfBounds 1 0)) ∧
    evalS o' s (.var 1) = .throw (.indexOutOfBounds 1 1) := ⟨rfl, rfl, rfl⟩

/-- **C44 (assignment to an `expr`)**: what can be assigned is what would be constructed.  A lone variable
cannot be assigned (it does not compile). -/
theorem C44_expr_assign (e : CtExpr) :
    ((∃ i, e = .var i) → exprAssign (K := K) e = none) ∧
    ((∀ i, e ≠ .var i) → exprAssign (K := K) e = toRt e) := by
  cases e <;> simp [exprAssign]

/-- **C44 (assignment to a `binary_expr`)**: if neither both operands are constants nor the whole is one,
what is assigned is what would be constructed. -/
theorem C44_binary_assign_partial (e : CtExpr) (r : Expr K) (h : binAssign e = some r)
    (h1 : ∀ n, e ≠ .const n) (h2 : ∀ a op b, e ≠ .bin (.const a) op (.const b)) :
    toRt e = some r := by
  cases e with
  | const n => exact absurd rfl (h1 n)
  | var i => cases h
  | fsym t => cases h
  | bin l op r' =>
    cases l <;> cases r' <;> simp_all [toRt, binFrom, binAssign]

/-- **C44 (assignment to a `binary_expr`, what is wrong)**: an assigned constant, or an assigned combination of
two constants, cannot be evaluated at all. -/
theorem C44_binary_assign_constants (e : CtExpr)
    (h : (∃ n, e = .const n) ∨ ∃ a op b, e = .bin (.const a) op (.const b)) (o : Order K) (v : List K) :
    ∃ r : Expr K, binAssign e = some r ∧ eval o v r = .throw .rhsForUnary := by
  obtain ⟨n, rfl⟩ | ⟨a, op, b, rfl⟩ := h
  · exact ⟨_, rfl, by simp [eval, applyB]⟩
  · exact ⟨_, rfl, by simp [eval, applyB]⟩

/-! Concrete cases -/
open VM.Ct

-- (x + 2) * y / 3 converts; at (1, 4) both are 4
example : toRt (K := XRat) ((.var 0 +' ♯2) *' .var 1 /' ♯3) = some
    (.bin .div (.bin .mult (.bin .plus (.var 0) (.const (Num.lit 2))) (.var 1)) (.const (Num.lit 3))) := rfl
example : eval (fun _ _ => true) [some 1, some 4] (.bin .div (.bin .mult (.bin .plus (.var 0)
    (.const (Num.lit 2))) (.var 1)) (.const (Num.lit 3)) : Expr XRat) = .ok (some 4) := by decide +kernel
example : ctCall (K := XRat) (fun _ _ => false) [some 1, some 4] ((.var 0 +' ♯2) *' .var 1 /' ♯3) =
    some (.ok (some 4)) := by decide +kernel
-- beyond the vector both throw; which variable is reported may differ with the order
example : ctCall (K := XRat) (fun _ _ => false) [some 1] (.var 1 *' .var 2) =
    some (.throw (.indexOutOfBounds 2 1)) := by decide +kernel
example : eval (fun _ _ => true) [some 1] (.bin .mult (.var 1) (.var 2) : Expr XRat) =
    .throw (.indexOutOfBounds 1 1) := by decide +kernel
-- a product of two variables cannot be assigned to a `binary_expr`
example : binAssign (K := XRat) (.var 0 *' .var 1) = none := rfl
example : binAssign (K := XRat) ((.var 0 *' .var 1) +' ♯2) =
    some (.bin .plus (.bin .mult (.var 0) (.var 1)) (.const (Num.lit 2))) := rfl

end VM.Props
