import Verif.Ct.DegreeLemmas
import Verif.Props.CtNormal
import Verif.Props.CtIterated
import Verif.Props.Worlds
import Verif.Ct.NestedLemmas
/-
Property C110: compile-time derivatives of polynomials end in a number and then in 0.
-/
namespace VM.Props
open VM.Spec VM.Ct
variable {n : Nat}

/-- What compilers do to numbers that leave the range of `int`, and refusing them, both keep 0. -/
theorem keepsZero_narrow : KeepsZero narrow := by
  intro y h; simp only [narrow, Option.some.injEq] at h; omega

theorem keepsZero_strict : KeepsZero strict := fun y h => strict_exact 0 y h

/-- The run of the steps, then simplification. -/
theorem runWith_simplified {cv : Conv} {l : List CtStep} {e z : CtExpr}
    (h : CtStep.runWith cv (l ++ [.simplify]) e = some z) :
    ∃ d, CtStep.runWith cv l e = some d ∧ ctSimplify cv d = some z := by
  rw [runWith_append, Option.bind_eq_some_iff] at h
  obtain ⟨d, h1, h2⟩ := h
  simp only [CtStep.runWith, Option.bind_eq_some_iff, Option.some.injEq] at h2
  obtain ⟨y, h2, rfl⟩ := h2
  exact ⟨d, h1, h2⟩

theorem runWith_end {cv : Conv} (hcv : KeepsZero cv) {S : Nat → Prop} {d : Nat} {e z : CtExpr} (h : CtDegree S d e)
    {l : List CtStep} (hi : ∀ i ∈ CtStep.byVars l, S i) (hr : CtStep.runWith cv (l ++ [.simplify]) e = some z) :
    BelowC S (d + 1 - (CtStep.byVars l).length) z ∧ ∀ s, Part s z → ¬ TrivialOp s := by
  obtain ⟨y, h1, h2⟩ := runWith_simplified hr
  exact ⟨simplifyAny_below hcv (ctSimplify_any _ le_rfl h2) (runWith_below hcv l hi h1 (Ct.CtDegree.below h)),
    fun s hs => (C46_no_trivial_operation h2 hs).1⟩

/-- C110.  Every differentiation takes one off the degree. -/
theorem C110_degree {cv : Conv} (hcv : KeepsZero cv) (S : Nat → Prop) (d : Nat) (e z : CtExpr) (h : CtDegree S d e)
    (l : List CtStep) (hi : ∀ i ∈ CtStep.byVars l, S i) (hd : (CtStep.byVars l).length ≤ d)
    (hr : CtStep.runWith cv (l ++ [.simplify]) e = some z) :
    ∃ m, m ≤ d - (CtStep.byVars l).length ∧ CtDegree S m z := by
  obtain ⟨h1, h2⟩ := runWith_end hcv h hi hr
  obtain ⟨m, hm, h3⟩ := h1.degree h2 (by omega)
  exact ⟨m, by omega, h3⟩

/-- C110.  As many differentiations as the degree says: none of the variables is left. -/
theorem C110_coefficient {cv : Conv} (hcv : KeepsZero cv) (S : Nat → Prop) (e z : CtExpr) (l : List CtStep)
    (h : CtDegree S (CtStep.byVars l).length e) (hi : ∀ i ∈ CtStep.byVars l, S i)
    (hr : CtStep.runWith cv (l ++ [.simplify]) e = some z) (i : Nat) (hS : S i) : ¬ Has i z := by
  obtain ⟨h1, h2⟩ := runWith_end hcv h hi hr
  exact (h1.mono (by omega)).one h2 i hS

/-- C110.  One more: the result is the constant 0, wherever one simplifies and expands in between. -/
theorem C110_zero {cv : Conv} (hcv : KeepsZero cv) (S : Nat → Prop) (d : Nat) (e z : CtExpr) (h : CtDegree S d e)
    (l : List CtStep) (hi : ∀ i ∈ CtStep.byVars l, S i) (hd : d < (CtStep.byVars l).length)
    (hr : CtStep.runWith cv (l ++ [.simplify]) e = some z) : z = ♯0 := by
  obtain ⟨h1, h2⟩ := runWith_end hcv h hi hr
  exact (h1.mono (by omega)).zero h2

/-- C110.  A polynomial in all its variables, differentiated as often as its degree says: one number, and (if no number
left the range of `int` on the way) it is the partial derivative, at every point where the expression is defined. -/
theorem C110_number (e z : CtExpr) (l : List CtStep) (is : List (Fin n)) (hv : CtStep.byVars l = is.map Fin.val)
    (h : CtDegree (fun _ => True) is.length e) (hn : NoSym e)
    (hr : CtStep.run (l ++ [.simplify]) e = some z) :
    ((∃ a, z = ♯a) ∨ ∃ a b, z = ♯a /' ♯b ∧ a ≠ 0 ∧ b ≠ 0 ∧ b ≠ 1) ∧
      ∀ (v φ : Nat → ℝ) (p : Fin n → ℝ), CDefined (startingWith v p) φ e →
        CVal (startingWith v p) φ z (partialDerivs is (fun q => cval (startingWith v q) φ e) p) := by
  have hr' := hr
  rw [← runWith_strict] at hr'
  have hb : CtStep.byVars (l ++ [.simplify]) = is.map Fin.val := by
    rw [← hv]
    clear hv hr hr'
    induction l with
    | nil => rfl
    | cons s l ih => cases s <;> simp [CtStep.byVars, ih]
  constructor
  · have hz := C110_coefficient keepsZero_strict (fun _ => True) e z l (by rw [hv]; simpa using h)
      (fun _ _ => trivial) hr'
    obtain ⟨d, h1, h2⟩ := runWith_simplified hr'
    have hs : NoSym z := by
      have key : ∀ (l : List CtStep) {e d : CtExpr}, CtStep.runWith strict l e = some d → NoSym e → NoSym d := by
        intro l
        induction l with
        | nil => intro e d h hn; cases h; exact hn
        | cons s l ih =>
          intro e d h hn
          cases s with
          | diff i =>
            simp only [CtStep.runWith, Option.bind_eq_some_iff] at h
            obtain ⟨e', h1, h2⟩ := h
            exact ih h2 (ctDiff_noSym h1)
          | simplify =>
            simp only [CtStep.runWith, Option.bind_eq_some_iff] at h
            obtain ⟨e', h1, h2⟩ := h
            exact ih h2 (ctSimplify_noSym h1 hn)
          | expand => exact ih h (expand_noSym.1 e hn)
      exact key _ hr' hn
    have hnum : Numeric z := by
      clear h1 h2 hr hr'
      induction z with
      | const a => trivial
      | var i => exact absurd rfl (hz i trivial)
      | fsym t => exact hs.elim
      | bin a op b iha ihb =>
        exact ⟨iha (fun i hi hh => hz i hi (.inl hh)) hs.1, ihb (fun i hi hh => hz i hi (.inr hh)) hs.2⟩
    exact C46_numbers_fold (C46_idempotent h2) hnum
  · exact fun v φ p hd => (C98_iterated _ is hn hb hr v φ p hd).2

/-- C110, limit: the derivative of a quotient of integers times a variable is never simplified; two
specialisations match `(p/q) * 1` and neither is more special. -/
theorem C110_fraction_rejected (cv : Conv) (p q : Int) (i : Nat) :
    CtStep.runWith cv [.diff i, .simplify] (♯p /' ♯q *' .var i) = none := by
  have h : simplifyImpl cv (♯p /' ♯q *' ♯1) = none := by
    have hb : best (cands (♯p /' ♯q *' ♯1)) = none := by
      by_cases hp : p = 1
      · subst hp
        simp [cands, specs, specsPlus, specsMinus, specsMult, specsDiv, Pat.fits, best, Pat.le, HAdd.hAdd, Add.add,
          HSub.hSub, Sub.sub, HMul.hMul, Mul.mul, HDiv.hDiv, Div.div]
      · have hp' : ¬ (1 : Int) = p := fun h => hp h.symm
        simp [cands, specs, specsPlus, specsMinus, specsMult, specsDiv, Pat.fits, best, Pat.le, HAdd.hAdd, Add.add,
          HSub.hSub, Sub.sub, HMul.hMul, Mul.mul, HDiv.hDiv, Div.div, hp']
    have hc : cands (♯p /' ♯q *' ♯1) ≠ [] := by
      simp [cands, specs, specsPlus, specsMinus, specsMult, specsDiv, Pat.fits, HAdd.hAdd, Add.add,
          HSub.hSub, Sub.sub, HMul.hMul, Mul.mul, HDiv.hDiv, Div.div]
    rw [simplifyImpl, if_neg hc, hb]; rfl
  have hd : ctDiff i (♯p /' ♯q *' .var i) =
      some ((♯0 *' ♯q -' ♯p *' ♯0) /' (♯q *' ♯q) *' .var i +' ♯p /' ♯q *' ♯1) := by
    simp [ctDiff]
  have hc : cands ((♯0 *' ♯q -' ♯p *' ♯0) /' (♯q *' ♯q) *' .var i +' ♯p /' ♯q *' ♯1) = [] := by
    simp [cands, specs, specsPlus, specsMinus, specsMult, specsDiv, Pat.fits, HAdd.hAdd, Add.add,
      HSub.hSub, Sub.sub, HMul.hMul, Mul.mul, HDiv.hDiv, Div.div]
  have hs : ctSimplify cv ((♯0 *' ♯q -' ♯p *' ♯0) /' (♯q *' ♯q) *' .var i +' ♯p /' ♯q *' ♯1) = none := by
    obtain ⟨k, hk⟩ : ∃ k, Ct.weight ((♯0 *' ♯q -' ♯p *' ♯0) /' (♯q *' ♯q) *' .var i +' ♯p /' ♯q *' ♯1) = k + 1 :=
      ⟨_, rfl⟩
    rw [ctSimplify, hk, simplifyN, simplifyImpl, if_pos hc, h]
    simp
  simp only [CtStep.runWith, hd, Option.bind_some, hs, Option.bind_none]

/-! ### Concrete cases -/

/-- `x * x * y / 3`, by `x`, `y`, `x`: 2/3, not reduced (C36); once more: 0. -/
example : CtStep.run [.diff 0, .simplify, .diff 1, .simplify, .diff 0, .simplify] (.var 0 *' .var 0 *' .var 1 /' ♯3) =
      some (♯4374 /' ♯6561) ∧
    CtStep.runWith narrow [.diff 0, .diff 1, .simplify, .diff 0, .diff 0, .simplify]
      (.var 0 *' .var 0 *' .var 1 /' ♯3) = some ♯0 := by
  constructor <;> decide +kernel

example : CtDegree (fun _ => True) 3 (.var 0 *' .var 0 *' .var 1 /' ♯3) :=
  .div (.mult (.mult (.var 0) (.var 0)) (.var 1)) fun _ _ => id

/-- Expanded before: `(x + 1) * y`. -/
example : CtStep.runWith narrow [.expand, .diff 1, .simplify, .diff 0, .diff 0, .simplify]
      ((.var 0 +' ♯1) *' .var 1) = some ♯0 := by
  have h : expand ((.var 0 +' ♯1) *' .var 1) = .var 0 *' .var 1 +' ♯1 *' .var 1 := by
    simp [expand_mul, expandProduct, hasPM, expandWith_add, expandWith_flat (.var 0) (.var 1) rfl,
      expandWith_flat ♯1 (.var 1) rfl]
  simp only [CtStep.runWith, h]
  decide +kernel

/-- Numbers out of the range of `int` do not matter to the end: `(2^32 + 1) / 3 * 3 * x`. -/
example : CtStep.run [.simplify, .diff 0, .diff 0, .simplify] (♯(2 ^ 32 + 1) /' ♯3 *' ♯3 *' .var 0) = none ∧
    CtStep.runWith narrow [.simplify, .diff 0, .diff 0, .simplify] (♯(2 ^ 32 + 1) /' ♯3 *' ♯3 *' .var 0) =
      some ♯0 := by
  constructor <;> decide +kernel

end VM.Props
