import Verif.Spec.Exact
import Verif.Rt.IeeeLemmas
import Verif.Rt.Subst
import Verif.Rt.Diff
import Mathlib.Algebra.MvPolynomial.CommRing
import Mathlib.Algebra.MvPolynomial.Monad
import Mathlib.Tactic.Ring
/-
Polynomials with integer coefficients are computed exactly.
-/
namespace VM
open Spec MvPolynomial
variable {R : Rounding} {N : ℕ}

theorem isInt_of (hN : Integers R N) {n : ℤ} (h : n.natAbs ≤ N) (s : Bool) : IsInteger (Ieee.of R n s) n := by
  by_cases h0 : n = 0
  · subst h0
    rw [Int.cast_zero, Ieee.of_zero]; rfl
  · rw [Ieee.of_mem (hN n h) (Int.cast_ne_zero.2 h0)]; rfl

theorem isInt_neg {x : Ieee R} {a : ℤ} (h : IsInteger x a) : IsInteger (Ieee.neg x) (-a) := by
  cases x <;> simp only [IsInteger, Ieee.neg] at h ⊢
  · omega
  · rw [h]; push_cast; rfl

theorem isInt_add (hN : Integers R N) {x y : Ieee R} {a b : ℤ} (hx : IsInteger x a) (hy : IsInteger y b)
    (h : (a + b).natAbs ≤ N) : IsInteger (Num.add x y) (a + b) := by
  change IsInteger (Ieee.add x y) (a + b)
  cases x <;> cases y <;> simp only [IsInteger] at hx hy <;> simp only [Ieee.add]
  · simp only [IsInteger]; omega
  · subst hx hy; simp [IsInteger]
  · subst hx hy; simp [IsInteger]
  · rw [hx, hy, ← Int.cast_add]; exact isInt_of hN h _

theorem isInt_sub (hN : Integers R N) {x y : Ieee R} {a b : ℤ} (hx : IsInteger x a) (hy : IsInteger y b)
    (h : (a - b).natAbs ≤ N) : IsInteger (Num.sub x y) (a - b) := by
  rw [sub_eq_add_neg] at h ⊢
  exact isInt_add hN hx (isInt_neg hy) h

theorem isInt_mul (hN : Integers R N) {x y : Ieee R} {a b : ℤ} (hx : IsInteger x a) (hy : IsInteger y b)
    (h : (a * b).natAbs ≤ N) : IsInteger (Num.mul x y) (a * b) := by
  change IsInteger (Ieee.mul x y) (a * b)
  cases x <;> cases y <;> simp only [IsInteger] at hx hy <;> simp only [Ieee.mul]
  · simp [IsInteger, hx]
  · simp [IsInteger, hx]
  · simp [IsInteger, hy]
  · rw [hx, hy, ← Int.cast_mul]; exact isInt_of hN h _

theorem isInt_lit (hN : Integers R N) {n : ℤ} (h : n.natAbs ≤ N) : IsInteger (Num.lit n : Ieee R) n := isInt_of hN h _

theorem isInt_mem {x : Ieee R} {n : ℤ} (h : IsInteger x n) (h0 : n ≠ 0) : R.mem n := by
  cases x <;> simp only [IsInteger] at h
  · exact absurd h h0
  · rw [← h]; assumption

theorem isInt_unique {x : Ieee R} {a b : ℤ} (h : IsInteger x a) (h' : IsInteger x b) : a = b := by
  cases x <;> simp only [IsInteger] at h h'
  · omega
  · exact_mod_cast h.symm.trans h'

theorem isInt_zero {c : Ieee R} {n : ℤ} (hi : IsInteger c n) (h : Num.eqb c (Num.lit 0) = true) : n = 0 := by
  obtain ⟨s, rfl⟩ := Ieee.of_eqb_zero h
  exact hi

theorem isInt_one {c : Ieee R} {n : ℤ} (hi : IsInteger c n) (h : Num.eqb c (Num.lit 1) = true) : n = 1 := by
  rw [Ieee.of_eqb_one h] at hi
  exact_mod_cast hi.symm

variable {w : ℕ → ℕ} {e e' : Expr (Ieee R)} {p : MvPolynomial ℕ ℤ} {m d : ℕ}

theorem Spec.SaysPoly.pos (h : SaysPoly w e p m d) : 1 ≤ m ∧ 1 ≤ d := by
  induction h with
  | const _ => simp
  | var h => exact ⟨h, le_rfl⟩
  | id _ ih => exact ih
  | plus _ _ ih1 ih2 => omega
  | minus _ _ ih1 ih2 => omega
  | mult _ _ ih1 ih2 => exact ⟨Nat.mul_pos ih1.1 ih2.1, by omega⟩

theorem Spec.SaysPoly.arith (h : SaysPoly w e p m d) : Arith e := by
  induction h with
  | const _ => exact .const _
  | var _ => exact .var _
  | id _ ih => exact .fn _ ih
  | plus _ _ ih1 ih2 => exact .bin (by simp [IsArithOp]) ih1 ih2
  | minus _ _ ih1 ih2 => exact .bin (by simp [IsArithOp]) ih1 ih2
  | mult _ _ ih1 ih2 => exact .bin (by simp [IsArithOp]) ih1 ih2

theorem mul_bounds {m k N : ℕ} (hm : 1 ≤ m) (hk : 1 ≤ k) (h : m * k ≤ N) : m ≤ N ∧ k ≤ N :=
  ⟨(Nat.le_mul_of_pos_right m hk).trans h, (Nat.le_mul_of_pos_left k hm).trans h⟩

/-- The evaluation of a polynomial. -/
theorem Spec.SaysPoly.run (hN : Integers R N) {a : ℕ → ℤ} {v : List (Ieee R)} (h : SaysPoly w e p m d) (hm : m ≤ N)
    (hv : AtInts w a v) : ∃ x, RunZ v e x ∧ IsInteger x (MvPolynomial.eval a p) ∧ (MvPolynomial.eval a p).natAbs ≤ m := by
  induction h with
  | @const c n hc => exact ⟨c, .const, by simpa using hc, by simp⟩
  | @var i h0 =>
    obtain ⟨h1, x, h2, h3⟩ := hv i h0
    exact ⟨x, .var h2, by simpa using h3, by simpa using h1⟩
  | id _ ih =>
    obtain ⟨x, h1, h2⟩ := ih hm
    exact ⟨x, .fn (f := .id) h1, h2⟩
  | plus hl hr ih1 ih2 =>
    obtain ⟨x, h1, h2, h3⟩ := ih1 (by omega)
    obtain ⟨y, k1, k2, k3⟩ := ih2 (by omega)
    rw [map_add]
    exact ⟨_, .bin h1 k1 rfl nofun, isInt_add hN h2 k2 (by omega), by omega⟩
  | minus hl hr ih1 ih2 =>
    obtain ⟨x, h1, h2, h3⟩ := ih1 (by omega)
    obtain ⟨y, k1, k2, k3⟩ := ih2 (by omega)
    rw [map_sub]
    exact ⟨_, .bin h1 k1 rfl nofun, isInt_sub hN h2 k2 (by omega), by omega⟩
  | mult hl hr ih1 ih2 =>
    obtain ⟨b1, b2⟩ := mul_bounds hl.pos.1 hr.pos.1 hm
    obtain ⟨x, h1, h2, h3⟩ := ih1 b1
    obtain ⟨y, k1, k2, k3⟩ := ih2 b2
    have := Nat.mul_le_mul h3 k3
    rw [← Int.natAbs_mul] at this
    rw [map_mul]
    exact ⟨_, .bin h1 k1 rfl nofun, isInt_mul hN h2 k2 (by omega), this⟩

theorem constant_polynomial (h : SaysPoly w e p m d) (hc : isConst e = true) : ∃ n, p = C n := by
  induction h with
  | const _ => exact ⟨_, rfl⟩
  | var _ => cases hc
  | id _ _ => cases hc
  | plus _ _ ih1 ih2 =>
    simp only [isConst, Bool.and_eq_true] at hc
    obtain ⟨a, rfl⟩ := ih1 hc.1
    obtain ⟨b, rfl⟩ := ih2 hc.2
    exact ⟨a + b, by simp⟩
  | minus _ _ ih1 ih2 =>
    simp only [isConst, Bool.and_eq_true] at hc
    obtain ⟨a, rfl⟩ := ih1 hc.1
    obtain ⟨b, rfl⟩ := ih2 hc.2
    exact ⟨a - b, by simp⟩
  | mult _ _ ih1 ih2 =>
    simp only [isConst, Bool.and_eq_true] at hc
    obtain ⟨a, rfl⟩ := ih1 hc.1
    obtain ⟨b, rfl⟩ := ih2 hc.2
    exact ⟨a * b, by simp⟩

theorem Spec.SaysPoly.of_isConst {w' : ℕ → ℕ} (h : SaysPoly w e p m d) (hc : isConst e = true) : SaysPoly w' e p m d := by
  induction h with
  | const h => exact .const h
  | var _ => cases hc
  | id _ _ => cases hc
  | plus _ _ ih1 ih2 =>
    simp only [isConst, Bool.and_eq_true] at hc
    exact .plus (ih1 hc.1) (ih2 hc.2)
  | minus _ _ ih1 ih2 =>
    simp only [isConst, Bool.and_eq_true] at hc
    exact .minus (ih1 hc.1) (ih2 hc.2)
  | mult _ _ ih1 ih2 =>
    simp only [isConst, Bool.and_eq_true] at hc
    exact .mult (ih1 hc.1) (ih2 hc.2)

/-- A constant part is a number that fits. -/
theorem Spec.SaysPoly.unwrap (hN : Integers R N) (h : SaysPoly w e p m d) (hm : m ≤ N) (hc : isConst e = true) {c : Ieee R}
    (hu : unwrap leftFirst e = .ok c) : ∃ n, p = C n ∧ IsInteger c n ∧ max 1 n.natAbs ≤ m := by
  obtain ⟨n, rfl⟩ := constant_polynomial h hc
  obtain ⟨x, h1, h2, h3⟩ := (h.of_isConst (w' := fun _ => 0) hc).run hN (a := fun _ => 0) (v := []) hm fun i hi => absurd hi (by simp)
  rw [h1.of_isConst hc hu] at h2
  have := h.pos
  rw [MvPolynomial.eval_C] at h2 h3
  exact ⟨n, rfl, h2, by omega⟩

/-- One pass of the simplifier. -/
theorem Pass.says (hN : Integers R N) (hp : Pass e e') (h : SaysPoly w e p m d) (hm : m ≤ N) :
    ∃ m' d', SaysPoly w e' p m' d' ∧ m' ≤ m ∧ d' ≤ d := by
  have hN1 : 1 ≤ N := h.pos.1.trans hm
  induction hp generalizing p m d with
  | const | var | fsym | vec | uid => exact ⟨m, d, h, le_rfl, le_rfl⟩
  | unFold hc hu =>
    cases h with | id h =>
    obtain ⟨n, rfl, h1, h2⟩ := h.unwrap hN hm hc hu
    exact ⟨_, _, .const h1, h2, h.pos.2⟩
  | unConst hc hu ho => cases h with | id h => simp [UOp.canSimplify] at ho
  | un _ _ ih =>
    cases h with | id h =>
    obtain ⟨m', d', h1, h2⟩ := ih h hm
    exact ⟨_, _, .id h1, h2⟩
  | integConst | integ => cases h
  | dotp => cases h with | mult hx => cases hx
  | fold hc1 hc2 hu =>
    obtain ⟨n, rfl, h1, h2⟩ := h.unwrap hN hm (by simp [isConst, hc1, hc2]) hu
    exact ⟨_, _, .const h1, h2, h.pos.2⟩
  | plusZeroL h1 h2 h3 h4 h5 ih =>
    cases h with | plus hl hr =>
    obtain ⟨n, rfl, k1, k2⟩ := hl.unwrap hN (by omega) h1 h3
    obtain ⟨m', d', k3, k4, k5⟩ := ih hr (by omega)
    rw [isInt_zero k1 h4, C_0, zero_add]
    exact ⟨m', d', k3, by omega, by omega⟩
  | plusZeroR h1 h2 h3 h4 h5 ih =>
    cases h with | plus hl hr =>
    obtain ⟨n, rfl, k1, k2⟩ := hr.unwrap hN (by omega) h2 h3
    obtain ⟨m', d', k3, k4, k5⟩ := ih hl (by omega)
    rw [isInt_zero k1 h4, C_0, add_zero]
    exact ⟨m', d', k3, by omega, by omega⟩
  | minusZeroL h1 h2 h3 h4 h5 ih =>
    cases h with | minus hl hr =>
    obtain ⟨n, rfl, k1, k2⟩ := hl.unwrap hN (by omega) h1 h3
    obtain ⟨m', d', k3, k4, k5⟩ := ih hr (by omega)
    have := SaysPoly.mult (.const (isInt_lit hN (n := -1) (by omega))) k3
    rw [show ∀ q : MvPolynomial ℕ ℤ, C (-1) * q = C 0 - q by intro q; simp] at this
    rw [isInt_zero k1 h4]
    exact ⟨_, _, this, by simp; omega, by omega⟩
  | minusZeroR h1 h2 h3 h4 h5 ih =>
    cases h with | minus hl hr =>
    obtain ⟨n, rfl, k1, k2⟩ := hr.unwrap hN (by omega) h2 h3
    obtain ⟨m', d', k3, k4, k5⟩ := ih hl (by omega)
    rw [isInt_zero k1 h4, C_0, sub_zero]
    exact ⟨m', d', k3, by omega, by omega⟩
  | multZeroL h1 h2 h3 h4 =>
    have hpos := h.pos
    cases h with | mult hl hr =>
    obtain ⟨b1, b2⟩ := mul_bounds hl.pos.1 hr.pos.1 hm
    obtain ⟨n, rfl, k1, k2⟩ := hl.unwrap hN b1 h1 h3
    rw [isInt_zero k1 h4, C_0, zero_mul, ← C_0]
    exact ⟨_, _, .const (isInt_lit hN (Nat.zero_le _)), by simpa using hpos.1, hpos.2⟩
  | multZeroR h1 h2 h3 h4 =>
    have hpos := h.pos
    cases h with | mult hl hr =>
    obtain ⟨b1, b2⟩ := mul_bounds hl.pos.1 hr.pos.1 hm
    obtain ⟨n, rfl, k1, k2⟩ := hr.unwrap hN b2 h2 h3
    rw [isInt_zero k1 h4, C_0, mul_zero, ← C_0]
    exact ⟨_, _, .const (isInt_lit hN (Nat.zero_le _)), by simpa using hpos.1, hpos.2⟩
  | multOneL h1 h2 h3 h4 h5 ih =>
    cases h with | mult hl hr =>
    obtain ⟨b1, b2⟩ := mul_bounds hl.pos.1 hr.pos.1 hm
    obtain ⟨n, rfl, k1, k2⟩ := hl.unwrap hN b1 h1 h3
    obtain ⟨m', d', k3, k4, k5⟩ := ih hr b2
    rw [isInt_one k1 h4, C_1, one_mul]
    exact ⟨m', d', k3, k4.trans (Nat.le_mul_of_pos_left _ hl.pos.1), by omega⟩
  | multOneR h1 h2 h3 h4 h5 ih =>
    cases h with | mult hl hr =>
    obtain ⟨b1, b2⟩ := mul_bounds hl.pos.1 hr.pos.1 hm
    obtain ⟨n, rfl, k1, k2⟩ := hr.unwrap hN b2 h2 h3
    obtain ⟨m', d', k3, k4, k5⟩ := ih hl b1
    rw [isInt_one k1 h4, C_1, mul_one]
    exact ⟨m', d', k3, k4.trans (Nat.le_mul_of_pos_right _ hr.pos.1), by omega⟩
  | divZeroL | divOneR => cases h
  | constL ho h1 h2 h3 h4 h5 ih =>
    cases h with
    | plus hl hr =>
      obtain ⟨n, rfl, k1, k2⟩ := hl.unwrap hN (by omega) h1 h3
      obtain ⟨m', d', k3, k4, k5⟩ := ih hr (by omega)
      have := hl.pos
      exact ⟨_, _, .plus (.const k1) k3, by omega, by omega⟩
    | minus hl hr =>
      obtain ⟨n, rfl, k1, k2⟩ := hl.unwrap hN (by omega) h1 h3
      obtain ⟨m', d', k3, k4, k5⟩ := ih hr (by omega)
      have := hl.pos
      exact ⟨_, _, .minus (.const k1) k3, by omega, by omega⟩
    | mult hl hr =>
      obtain ⟨b1, b2⟩ := mul_bounds hl.pos.1 hr.pos.1 hm
      obtain ⟨n, rfl, k1, k2⟩ := hl.unwrap hN b1 h1 h3
      obtain ⟨m', d', k3, k4, k5⟩ := ih hr b2
      have := hl.pos
      exact ⟨_, _, .mult (.const k1) k3, Nat.mul_le_mul k2 k4, by omega⟩
  | constR ho h1 h2 h3 h4 h5 ih =>
    cases h with
    | plus hl hr =>
      obtain ⟨n, rfl, k1, k2⟩ := hr.unwrap hN (by omega) h2 h3
      obtain ⟨m', d', k3, k4, k5⟩ := ih hl (by omega)
      have := hr.pos
      exact ⟨_, _, .plus k3 (.const k1), by omega, by omega⟩
    | minus hl hr =>
      obtain ⟨n, rfl, k1, k2⟩ := hr.unwrap hN (by omega) h2 h3
      obtain ⟨m', d', k3, k4, k5⟩ := ih hl (by omega)
      have := hr.pos
      exact ⟨_, _, .minus k3 (.const k1), by omega, by omega⟩
    | mult hl hr =>
      obtain ⟨b1, b2⟩ := mul_bounds hl.pos.1 hr.pos.1 hm
      obtain ⟨n, rfl, k1, k2⟩ := hr.unwrap hN b2 h2 h3
      obtain ⟨m', d', k3, k4, k5⟩ := ih hl b1
      have := hr.pos
      exact ⟨_, _, .mult k3 (.const k1), Nat.mul_le_mul k4 k2, by omega⟩
  | cong ho h1 h2 h3 h4 h5 ih1 ih2 =>
    cases h with
    | plus hl hr =>
      obtain ⟨m1, d1, k1, k2, k3⟩ := ih1 hl (by omega)
      obtain ⟨m2, d2, l1, l2, l3⟩ := ih2 hr (by omega)
      exact ⟨_, _, .plus k1 l1, by omega, by omega⟩
    | minus hl hr =>
      obtain ⟨m1, d1, k1, k2, k3⟩ := ih1 hl (by omega)
      obtain ⟨m2, d2, l1, l2, l3⟩ := ih2 hr (by omega)
      exact ⟨_, _, .minus k1 l1, by omega, by omega⟩
    | mult hl hr =>
      obtain ⟨b1, b2⟩ := mul_bounds hl.pos.1 hr.pos.1 hm
      obtain ⟨m1, d1, k1, k2, k3⟩ := ih1 hl b1
      obtain ⟨m2, d2, l1, l2, l3⟩ := ih2 hr b2
      exact ⟨_, _, .mult k1 l1, Nat.mul_le_mul k2 l2, by omega⟩

theorem simplified_says (hN : Integers R N) (h : SaysPoly w e p m d) (hm : m ≤ N) :
    ∃ e' m' d', simplified e = .ok e' ∧ SaysPoly w e' p m' d' ∧ m' ≤ m ∧ d' ≤ d := by
  obtain ⟨e', he'⟩ := simplified_ok_arith h.arith
  obtain ⟨m', d', h1⟩ := (simplified_induct (P := fun e' => ∃ m' d', SaysPoly w e' p m' d' ∧ m' ≤ m ∧ d' ≤ d)
    (fun _ _ hp ⟨m1, d1, k1, k2, k3⟩ => by
      obtain ⟨m2, d2, l1, l2, l3⟩ := hp.says hN k1 (k2.trans hm)
      exact ⟨m2, d2, l1, l2.trans k2, l3.trans k3⟩) he' ⟨m, d, h, le_rfl, le_rfl⟩).1
  exact ⟨e', m', d', he', h1⟩

/-- Differentiation, before the result is simplified. -/
theorem diffE_says (hN : Integers R 1) (i : ℕ) (h : SaysPoly w e p m d) :
    ∃ e' m' d', diffE (.var i) e = .ok e' ∧ SaysPoly w e' (pderiv i p) m' d' ∧ m' ≤ d * m ∧ d' ≤ d := by
  induction h with
  | const hc =>
    refine ⟨_, max 1 (0 : ℤ).natAbs, 1, rfl, ?_, ?_, le_rfl⟩
    · rw [pderiv_C, ← C_0]; exact .const (isInt_lit hN (by simp))
    · simp
  | @var j h0 =>
    by_cases hij : i = j
    · subst hij
      refine ⟨_, max 1 (1 : ℤ).natAbs, 1, rfl, ?_, ?_, le_rfl⟩
      · rw [pderiv_X_self, ← C_1, if_pos rfl]; exact .const (isInt_lit hN (by simp))
      · simp; omega
    · refine ⟨_, max 1 (0 : ℤ).natAbs, 1, rfl, ?_, ?_, le_rfl⟩
      · rw [pderiv_X_of_ne (Ne.symm hij), ← C_0, if_neg (by simpa using hij)]; exact .const (isInt_lit hN (by simp))
      · simp; omega
  | id _ ih =>
    obtain ⟨e', m', d', h1, h2⟩ := ih
    exact ⟨e', m', d', by simp [diffE, diffFn, h1], h2⟩
  | @plus _ _ _ _ m k d f _ _ ih1 ih2 =>
    obtain ⟨e1, m1, d1, h1, h2, h3, h4⟩ := ih1
    obtain ⟨e2, m2, d2, k1, k2, k3, k4⟩ := ih2
    refine ⟨.bin .plus e1 e2, _, _, by simp [diffE, diffBin, h1, k1], by rw [map_add]; exact .plus h2 k2, ?_, by omega⟩
    have a1 := Nat.mul_le_mul_right m (le_max_left d f)
    have a2 := Nat.mul_le_mul_right k (le_max_right d f)
    rw [Nat.mul_add]; omega
  | @minus _ _ _ _ m k d f _ _ ih1 ih2 =>
    obtain ⟨e1, m1, d1, h1, h2, h3, h4⟩ := ih1
    obtain ⟨e2, m2, d2, k1, k2, k3, k4⟩ := ih2
    refine ⟨.bin .minus e1 e2, _, _, by simp [diffE, diffBin, h1, k1], by rw [map_sub]; exact .minus h2 k2, ?_, by omega⟩
    have a1 := Nat.mul_le_mul_right m (le_max_left d (f + 1))
    have a2 := Nat.mul_le_mul_right k ((Nat.le_succ f).trans (le_max_right d (f + 1)))
    rw [Nat.mul_add]; omega
  | @mult _ _ p q m k d f hl hr ih1 ih2 =>
    obtain ⟨e1, m1, d1, h1, h2, h3, h4⟩ := ih1
    obtain ⟨e2, m2, d2, k1, k2, k3, k4⟩ := ih2
    refine ⟨_, m1 * k + m * m2, max (d1 + f) (d + d2), by simp only [diffE, diffBin, h1, k1]; rfl, ?_, ?_, ?_⟩
    · rw [pderiv_mul]; exact .plus (.mult h2 hr) (.mult hl k2)
    · have a1 := Nat.mul_le_mul_right k h3
      have a2 := Nat.mul_le_mul_left m k3
      calc m1 * k + m * m2 ≤ d * m * k + m * (f * k) := Nat.add_le_add a1 a2
        _ = (d + f) * (m * k) := by ring
    · omega

theorem diff_says (hN : Integers R N) (i : ℕ) (h : SaysPoly w e p m d) (hm : d * m ≤ N) :
    ∃ e' m' d', diff (.var i) e = .ok e' ∧ SaysPoly w e' (pderiv i p) m' d' ∧ m' ≤ d * m ∧ d' ≤ d := by
  have hN1 : 1 ≤ N := (Nat.mul_pos h.pos.2 h.pos.1).trans_le hm
  obtain ⟨e1, m1, d1, h1, h2, h3, h4⟩ := diffE_says (fun n hn => hN n (hn.trans hN1)) i h
  obtain ⟨e2, m2, d2, k1, k2, k3, k4⟩ := simplified_says hN h2 (h3.trans hm)
  exact ⟨e2, m2, d2, by simp [diff, h1, k1], k2, k3.trans h3, k4.trans h4⟩

/-- Substitution for a variable, before the result is simplified. -/
theorem substE_says {i : ℕ} {r : Expr (Ieee R)} {q : MvPolynomial ℕ ℤ} {k f : ℕ} (hr : SaysPoly w r q k f)
    (h : SaysPoly (Function.update w i k) e p m d) :
    ∃ e' m' d', substE (.var i) r e = .ok e' ∧ SaysPoly w e' (bind₁ (Function.update X i q) p) m' d' ∧ m' ≤ m ∧ d' ≤ d * f := by
  have hf := hr.pos
  induction h with
  | const hc => exact ⟨_, _, _, by simp only [substE, deepEq]; rfl, by simpa using .const hc, le_rfl, by omega⟩
  | @var j h0 =>
    by_cases hij : i = j
    · subst hij
      exact ⟨r, _, _, by simp [substE, deepEq], by simpa using hr, by simp, by omega⟩
    · rw [Function.update_of_ne (Ne.symm hij)] at h0
      refine ⟨.var j, w j, 1, by simp [substE, deepEq, hij], ?_, ?_, ?_⟩
      · rw [bind₁_X_right, Function.update_of_ne (Ne.symm hij)]; exact .var h0
      · rw [Function.update_of_ne (Ne.symm hij)]
      · omega
  | id _ ih =>
    obtain ⟨e', m', d', h1, h2⟩ := ih
    exact ⟨_, m', d', by simp only [substE, deepEq, h1]; rfl, .id h2.1, h2.2⟩
  | @plus _ _ _ _ _ _ a b _ _ ih1 ih2 =>
    obtain ⟨e1, m1, d1, h1, h2, h3, h4⟩ := ih1
    obtain ⟨e2, m2, d2, k1, k2, k3, k4⟩ := ih2
    refine ⟨_, _, _, by simp only [substE, deepEq, h1, k1]; rfl, by rw [map_add]; exact .plus h2 k2, by omega, ?_⟩
    have a1 := Nat.mul_le_mul_right f (le_max_left a b)
    have a2 := Nat.mul_le_mul_right f (le_max_right a b)
    omega
  | @minus _ _ _ _ _ _ a b _ _ ih1 ih2 =>
    obtain ⟨e1, m1, d1, h1, h2, h3, h4⟩ := ih1
    obtain ⟨e2, m2, d2, k1, k2, k3, k4⟩ := ih2
    refine ⟨_, _, _, by simp only [substE, deepEq, h1, k1]; rfl, by rw [map_sub]; exact .minus h2 k2, by omega, ?_⟩
    have a1 := Nat.mul_le_mul_right f (le_max_left a (b + 1))
    have a2 := Nat.mul_le_mul_right f (le_max_right a (b + 1))
    rw [Nat.add_mul] at a2
    omega
  | mult hl hr ih1 ih2 =>
    obtain ⟨e1, m1, d1, h1, h2, h3, h4⟩ := ih1
    obtain ⟨e2, m2, d2, k1, k2, k3, k4⟩ := ih2
    refine ⟨_, _, _, by simp only [substE, deepEq, h1, k1]; rfl, by rw [map_mul]; exact .mult h2 k2, Nat.mul_le_mul h3 k3, ?_⟩
    rw [Nat.add_mul]; omega

theorem substitute_says (hN : Integers R N) {i : ℕ} {r : Expr (Ieee R)} {q : MvPolynomial ℕ ℤ} {k f : ℕ}
    (hr : SaysPoly w r q k f) (h : SaysPoly (Function.update w i k) e p m d) (hm : m ≤ N) :
    ∃ e' m' d', substitute (.var i) r e = .ok e' ∧ SaysPoly w e' (bind₁ (Function.update X i q) p) m' d' ∧ m' ≤ m ∧
      d' ≤ d * f := by
  obtain ⟨e1, m1, d1, h1, h2, h3, h4⟩ := substE_says hr h
  obtain ⟨e2, m2, d2, k1, k2, k3, k4⟩ := simplified_says hN h2 (h3.trans hm)
  exact ⟨e2, m2, d2, by simp [substitute, h1, k1], k2, k3.trans h3, k4.trans h4⟩

end VM
