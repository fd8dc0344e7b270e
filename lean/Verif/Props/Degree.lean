import Verif.Rt.DegreeLemmas
import Verif.Props.Iterated
import Verif.Props.Taylor
/-
Property C106: the derivatives of polynomials.
-/
namespace VM.Props
open Spec
open scoped Nat
variable {n : ℕ}

/-- C106.  Each differentiation by one of the variables of `S` lowers the degree in these variables by one: the outcome is
again written as a polynomial, with no higher degree, after the simplifications that `diff` makes. -/
theorem C106_degree (S : Nat → Prop) (d : Nat) (e : Expr XReal) (is : List (Fin n)) (h : DegreeIn S d e)
    (hi : ∀ i ∈ is, S i.val) (hd : is.length ≤ d) (o : Order XReal) (p : Fin n → ℝ) (hp : RegularAt o p e) :
    ∃ e' m, diffs (is.map Fin.val) e = .ok e' ∧ m ≤ d - is.length ∧ DegreeIn S m e' := by
  obtain ⟨e', h1, -⟩ := diffs_smooth (is.map Fin.val) h.smooth
  by_cases hn : is = []
  · subst hn
    simp only [List.map_nil, diffs, Res.ok.injEq] at h1
    subst h1
    exact ⟨e, d, rfl, by simp, h⟩
  · have hb := h.toBelow
    obtain ⟨h2, h3⟩ := Below.diffs (k := d - is.length + 1) hi (hb.mono (by omega)) ((regularAt_iff h.smooth o).1 hp)
      (fun h => absurd h hn) h1
    obtain ⟨m, hm, h4⟩ := h2.degree (by omega) h3
    exact ⟨e', m, h1, by omega, h4⟩

/-- C106.  Differentiating as often as the degree says leaves an expression in which none of the variables occurs. -/
theorem C106_coefficient (S : Nat → Prop) (e : Expr XReal) (is : List (Fin n)) (h : DegreeIn S is.length e)
    (hi : ∀ i ∈ is, S i.val) (o : Order XReal) (p : Fin n → ℝ) (hp : RegularAt o p e) :
    ∃ e', diffs (is.map Fin.val) e = .ok e' ∧ ∀ i, S i → ¬ Occurs i e' := by
  obtain ⟨e', m, h1, h2, h3⟩ := C106_degree S _ e is h hi le_rfl o p hp
  exact ⟨e', h1, h3.free (by omega)⟩

/-- C106.  Differentiating more often than the degree says, in any order, gives the constant 0: not only something that
evaluates to 0. -/
theorem C106_zero (S : Nat → Prop) (d : Nat) (e : Expr XReal) (is : List (Fin n)) (h : DegreeIn S d e)
    (hi : ∀ i ∈ is, S i.val) (hd : d < is.length) (o : Order XReal) (p : Fin n → ℝ) (hp : RegularAt o p e) :
    diffs (is.map Fin.val) e = .ok (.const (some 0)) := by
  obtain ⟨e', h1, -⟩ := diffs_smooth (is.map Fin.val) h.smooth
  obtain ⟨h2, h3⟩ := Below.diffs (k := 0) hi (h.toBelow.mono (by omega)) ((regularAt_iff h.smooth o).1 hp)
    (fun h => by simp [h] at hd) h1
  rw [h1, h2.toZero.final h3]

/-- C106.  For a polynomial with numbers as coefficients, differentiated as often as its degree says (and at least once),
the outcome is a single constant, the derivative of that order. -/
theorem C106_number (e : Expr XReal) (is : List (Fin n)) (h : DegreeIn (fun _ => True) is.length e) (hf : NoFns e)
    (hn : is ≠ []) (o : Order XReal) (p : Fin n → ℝ) (hp : RegularAt o p e) :
    ∃ c : ℝ, diffs (is.map Fin.val) e = .ok (.const (some c)) ∧ ∀ q : Fin n → ℝ, RegularAt o q e →
      partialDerivs is (denotes e) q = c := by
  obtain ⟨e', h1, -, h5⟩ := C54_iterated e is h.smooth
  obtain ⟨h2, h3⟩ := Below.diffs (S := fun _ => True) (k := 1) (fun _ _ => trivial) (h.toBelow.mono (by omega))
    ((regularAt_iff h.smooth o).1 hp) (fun h => absurd h hn) h1
  obtain ⟨m, hm, h4⟩ := h2.degree (by omega) h3
  obtain ⟨c, rfl⟩ := (hf.diffs h1).number (fun i => h4.free (by omega) i trivial) h3
  have h6 := (h5 o p hp).2.2
  simp only [eval, Res.ok.injEq] at h6
  refine ⟨_, by rw [h1, h6], fun q hq => ?_⟩
  have h7 := (h5 o q hq).2.2
  simp only [eval, Res.ok.injEq] at h7
  rw [h6, Option.some.injEq] at h7
  exact h7.symm

/-- C106.  A polynomial in `x_i` is its Taylor polynomial: its value anywhere along `x_i` is given by the numbers to which
the derivatives evaluate at one point. -/
theorem C106_taylor (d : Nat) (e : Expr XReal) (i : Fin n) (h : DegreeIn (· = i.val) d e) (o : Order XReal)
    (p : Fin n → ℝ) (hp : RegularAt o p e) :
    ∃ (e' : ℕ → Expr XReal) (c : ℕ → ℝ), (∀ k, diffs (List.replicate k i.1) e = .ok (e' k)) ∧
      (∀ k, eval o (realPoint p) (e' k) = .ok (some (c k))) ∧
      ∀ x : ℝ, eval o (realPoint (Function.update p i x)) e =
        .ok (some (∑ k ∈ Finset.range (d + 1), c k * (x - p i) ^ k / k !)) := by
  have hs := h.smooth
  have hr := (regularAt_iff hs o).1 hp
  obtain ⟨e', h1, h2⟩ := C85_taylor e i hs
  have hval : ∀ k, ∃ c : ℝ, eval o (realPoint p) (e' k) = .ok (some c) := by
    intro k
    obtain ⟨f, h3, -, h4⟩ := C54_iterated e (List.replicate k i) hs
    rw [List.map_replicate, h1 k, Res.ok.injEq] at h3
    subst h3
    exact ⟨_, (h4 o p hp).2.2⟩
  choose c hc using hval
  refine ⟨e', c, h1, hc, fun x => ?_⟩
  by_cases hx : x = p i
  · subst hx
    have h0 := h1 0
    simp only [List.replicate_zero, diffs, Res.ok.injEq] at h0
    have := hc 0
    rw [← h0] at this
    rw [Function.update_eq_self, this, Finset.sum_eq_single 0]
    · simp
    · intro k _ hk; simp [hk]
    · simp
  · obtain ⟨c', r, ξ, -, h3, h4, h5⟩ := h2 o p x hx
      (fun t _ => (regularAt_iff hs o).2 (h.reg_update t hr)) d
    have hz := C106_zero _ d e (List.replicate (d + 1) i) h (by simp) (by simp) o p hp
    rw [List.map_replicate, h1, Res.ok.injEq] at hz
    rw [hz] at h4
    simp only [eval, Res.ok.injEq, Option.some.injEq] at h4
    subst h4
    rw [h5]
    congr 2
    rw [zero_mul, zero_div, add_zero]
    refine Finset.sum_congr rfl fun k hk => ?_
    have := h3 k (by simpa [Nat.lt_succ_iff] using hk)
    rw [hc k] at this
    simp only [Res.ok.injEq, Option.some.injEq] at this
    rw [this]

/-- `(x0 * x0) * x1 / 2 - x1`: of degree 2 in `x0`, of degree 3 in both; regular everywhere. -/
example : ∃ e : Expr XReal, DegreeIn (· = 0) 2 e ∧ DegreeIn (fun _ => True) 3 e ∧ NoFns e ∧
    ∀ p : Fin 2 → ℝ, RegularAt leftFirst p e := by
  let q : Expr XReal := .bin .div (.bin .mult (.bin .mult (.var 0) (.var 0)) (.var 1)) (.const (some 2))
  have hs : Smooth (.bin .minus q (.var 1)) := .bin (.inr (.inl rfl)) (.bin (.inr (.inr (.inr rfl)))
    (.bin (.inr (.inr (.inl rfl))) (.bin (.inr (.inr (.inl rfl))) (.var 0) (.var 0)) (.var 1)) (.const _)) (.var 1)
  have h1 : ∀ i, i = 0 → ¬ Occurs i (.var 1 : Expr XReal) := by rintro i rfl h; cases h
  refine ⟨.bin .minus q (.var 1), ?_, ?_, ?_, fun p => ?_⟩
  · exact .minus (m := 2) (n := 0) (.div (.mult (m := 2) (n := 0) (.mult (m := 1) (n := 1) (.var rfl) (.var rfl))
      (.coef (.var 1) h1)) (.const _) fun i _ => free_const _ i) (.coef (.var 1) h1)
  · exact .minus (m := 3) (n := 1) (.div (.mult (m := 2) (n := 1) (.mult (m := 1) (n := 1) (.var trivial)
      (.var trivial)) (.var trivial)) (.const _) fun i _ => free_const _ i) (.var trivial)
  · exact .bin (.inr (.inl rfl)) (.bin (.inr (.inr (.inr rfl))) (.bin (.inr (.inr (.inl rfl)))
      (.bin (.inr (.inr (.inl rfl))) (.var 0) (.var 0)) (.var 1)) (.const _)) (.var 1)
  · rw [regularAt_iff hs]
    simp [q, Reg, opOk, rv]

/-- The degree is what counts: the second derivative of `x0 * x0` is not yet 0. -/
example : ∃ (e : Expr XReal) (d : Expr XReal), DegreeIn (fun _ => True) 2 e ∧ diffs [0, 0] e = .ok d ∧
    d ≠ .const (some 0) := by
  have hm : DegreeIn (fun _ => True) 2 (.bin .mult (.var 0) (.var 0)) := .mult (m := 1) (n := 1) (.var trivial) (.var trivial)
  refine ⟨.bin .mult (.var 0) (.var 0), .const (some 2), hm, ?_, by simp⟩
  simp only [diffs, diff, diffE, diffBin, Res.bind_ok, Res.map_ok]
  iterate 4
    rw [simplified_eq]
    simp [canSimplify, canBin, constCheck, isConst, unwrap, simplify, simpBin, applyB, Num.lit, Num.eqb,
      Num.add, XReal.eqb, XReal.lift2, diffE, diffBin]
  norm_num

end VM.Props
