import Verif.Rt.ExactLemmas
import Verif.Rt.Chop
/-
Property C84: polynomials with integer coefficients are computed without rounding errors.
-/
namespace VM.Props
open Spec MvPolynomial
variable {R : Rounding} {N : ℕ} {w : ℕ → ℕ} {e : Expr (Ieee R)} {p : MvPolynomial ℕ ℤ} {m d : ℕ}

/-- C84.  A polynomial written with integer coefficients and `+`, `-`, `*` evaluates, in any order, to exactly its value at
integer points, as long as that is bounded term by term by the integers of the format. -/
theorem C84_eval (hN : Integers R N) (h : SaysPoly w e p m d) (hm : m ≤ N) (o : Order (Ieee R)) {a : ℕ → ℤ}
    {v : List (Ieee R)} (hv : AtInts w a v) : ∃ x, eval o v e = .ok x ∧ IsInteger x (MvPolynomial.eval a p) := by
  obtain ⟨x, h1, h2, -⟩ := h.run hN hm hv
  exact ⟨x, h1.eval o, h2⟩

/-- C84.  The simplified expression says the same polynomial with integer coefficients, within the same bounds. -/
theorem C84_simplify (hN : Integers R N) (h : SaysPoly w e p m d) (hm : m ≤ N) :
    ∃ e' m' d', Simplifies e (.ok e') ∧ SaysPoly w e' p m' d' ∧ m' ≤ m ∧ d' ≤ d := by
  obtain ⟨e', m', d', h1, h2⟩ := simplified_says hN h hm
  exact ⟨e', m', d', Simplifies_iff.2 h1, h2⟩

/-- C84.  The derivative says the derivative of the polynomial, within the bounds multiplied with the number of factors. -/
theorem C84_diff (hN : Integers R N) (i : ℕ) (h : SaysPoly w e p m d) (hm : d * m ≤ N) :
    ∃ e' m' d', diff (.var i) e = .ok e' ∧ SaysPoly w e' (pderiv i p) m' d' ∧ m' ≤ d * m ∧ d' ≤ d :=
  diff_says hN i h hm

/-- C84.  Substituting one such polynomial for a variable of another one says the composition; the bounds are those of the
expression for values of the variable within the bounds of the replacement. -/
theorem C84_substitute (hN : Integers R N) {i : ℕ} {r : Expr (Ieee R)} {q : MvPolynomial ℕ ℤ} {k f : ℕ}
    (hr : SaysPoly w r q k f) (h : SaysPoly (Function.update w i k) e p m d) (hm : m ≤ N) :
    ∃ e' m' d', substitute (.var i) r e = .ok e' ∧ SaysPoly w e' (bind₁ (Function.update X i q) p) m' d' ∧ m' ≤ m ∧
      d' ≤ d * f :=
  substitute_says hN hr h hm

/-- `diff(...diff(diff(e, x_i), x_j)..., x_k)`. -/
noncomputable def diffAll : List ℕ → Expr (Ieee R) → Res (Expr (Ieee R))
  | [], e => .ok e
  | i :: is, e => (diff (.var i) e).bind (diffAll is)

/-- C84.  All partial derivatives evaluate to exactly their value at integer points. -/
theorem C84_derivatives (hN : Integers R N) (is : List ℕ) (h : SaysPoly w e p m d) (hm : d ^ is.length * m ≤ N)
    (o : Order (Ieee R)) {a : ℕ → ℤ} {v : List (Ieee R)} (hv : AtInts w a v) :
    ∃ e' x, diffAll is e = .ok e' ∧ eval o v e' = .ok x ∧
      IsInteger x (MvPolynomial.eval a (is.foldl (fun q i => pderiv i q) p)) := by
  induction is generalizing e p m d with
  | nil =>
    obtain ⟨x, h1, h2⟩ := C84_eval hN h (by simpa using hm) o hv
    exact ⟨e, x, rfl, h1, h2⟩
  | cons i is ih =>
    rw [List.length_cons, Nat.pow_succ, Nat.mul_assoc] at hm
    obtain ⟨e1, m1, d1, h1, h2, h3, h4⟩ := diff_says hN i h
      ((Nat.le_mul_of_pos_left _ (Nat.pow_pos h.pos.2)).trans hm)
    obtain ⟨e', x, k1, k2⟩ := ih h2 ((Nat.mul_le_mul (Nat.pow_le_pow_left h4 _) h3).trans hm)
    exact ⟨e', x, by simp [diffAll, h1, k1], k2⟩

/-- C84.  A binary format with `k + 1` digits has the integers up to `2 ^ (k + 1)`. -/
theorem C84_binary (k : ℕ) (T : ℝ) : Integers (chop k T) (2 ^ (k + 1)) := fun _ h => Chop.mem_int h

/-- Variable 0 only. -/
def onlyFirst (b i : ℕ) : ℕ := if i = 0 then b else 0

theorem onlyFirst_pos {b i : ℕ} (h : 0 < onlyFirst b i) : i = 0 := by
  by_contra h'
  simp [onlyFirst, h'] at h

/-- The bound cannot be larger: with `k + 1` binary digits, `x0 + 1` at `x0 = 2 ^ (k + 1)` does not evaluate to
`2 ^ (k + 1) + 1`. -/
theorem C84_too_large (k : ℕ) (T : ℝ) (o : Order (Ieee (chop k T))) :
    ∃ v e x, SaysPoly (onlyFirst (2 ^ (k + 1))) e (X 0 + C 1) (2 ^ (k + 1) + 1) 1 ∧
      AtInts (onlyFirst (2 ^ (k + 1))) (fun _ => 2 ^ (k + 1)) v ∧
      eval o v e = .ok x ∧ ¬ IsInteger x (MvPolynomial.eval (fun _ => 2 ^ (k + 1)) (X 0 + C 1)) := by
  have hN := C84_binary k T
  have h1 : IsInteger (Num.lit 1 : Ieee (chop k T)) 1 := isInt_lit hN Nat.one_le_two_pow
  have h2 : IsInteger (Num.lit (2 ^ (k + 1)) : Ieee (chop k T)) (2 ^ (k + 1)) :=
    isInt_lit hN (by rw [Int.natAbs_pow]; exact le_rfl)
  refine ⟨[Num.lit (2 ^ (k + 1))], .bin .plus (.var 0) (.const (Num.lit 1)),
    Num.add (Num.lit (2 ^ (k + 1))) (Num.lit 1), ?_, fun i hi => ?_, by simp [eval, applyB], fun h => ?_⟩
  · exact .plus (m := 2 ^ (k + 1)) (d := 1) (.var (w := onlyFirst (2 ^ (k + 1))) (Nat.two_pow_pos _)) (.const h1)
  · cases onlyFirst_pos hi
    exact ⟨by rw [Int.natAbs_pow]; exact le_rfl, _, rfl, h2⟩
  · simp only [map_add, eval_X, eval_C] at h
    have h0 : (2 ^ (k + 1) + 1 : ℤ) ≠ 0 := by positivity
    exact Chop.not_mem_int (isInt_mem h h0)

/-- `(x0 - 3) * (x0 * x0) + 2`, for `x0` up to 1000: it says a polynomial of degree 3, amounts to about `10^9`, and has
terms of not more than 4 factors; so with 53 digits all its derivatives up to the third are exact. -/
example (T : ℝ) : ∃ e : Expr (Ieee (chop 52 T)), SaysPoly (onlyFirst 1000) e ((X 0 - C 3) * (X 0 * X 0) + C 2)
      ((1000 + 3) * (1000 * 1000) + 2) 4 ∧
    4 ^ [0, 0, 0].length * ((1000 + 3) * (1000 * 1000) + 2) ≤ 2 ^ 53 ∧ Integers (chop 52 T) (2 ^ 53) ∧
    AtInts (onlyFirst 1000) (fun _ => -7) [(Num.lit (-7) : Ieee (chop 52 T))] := by
  have hN := C84_binary 52 T
  refine ⟨.bin .plus (.bin .mult (.bin .minus (.var 0) (.const (Num.lit 3))) (.bin .mult (.var 0) (.var 0)))
    (.const (Num.lit 2)), ?_, by norm_num, hN, fun i hi => ?_⟩
  · exact .plus (.mult (.minus (.var (by decide)) (.const (isInt_lit hN (by decide))))
      (.mult (.var (by decide)) (.var (by decide)))) (.const (isInt_lit hN (by decide)))
  · cases onlyFirst_pos hi
    exact ⟨by decide, _, rfl, isInt_lit hN (by decide)⟩

/-- Substituting `x0 * x0 - 1` for `x0` in `x0 * x0`, for `x0` up to 10. -/
example (T : ℝ) : ∃ e r : Expr (Ieee (chop 52 T)), SaysPoly (onlyFirst 10) r (X 0 * X 0 - C 1) (10 * 10 + 1) 2 ∧
    SaysPoly (Function.update (onlyFirst 10) 0 (10 * 10 + 1)) e (X 0 * X 0) ((10 * 10 + 1) * (10 * 10 + 1)) 2 := by
  have hN := C84_binary 52 T
  exact ⟨.bin .mult (.var 0) (.var 0), .bin .minus (.bin .mult (.var 0) (.var 0)) (.const (Num.lit 1)),
    .minus (.mult (.var (by decide)) (.var (by decide))) (.const (isInt_lit hN (by decide))),
    .mult (.var (by decide)) (.var (by decide))⟩

end VM.Props
