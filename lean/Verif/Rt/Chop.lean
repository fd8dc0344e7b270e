import Verif.NumFl
import Mathlib.Data.Int.Log
import Mathlib.Algebra.Order.Floor.Ring
import Mathlib.Algebra.Order.Archimedean.Real.Basic
import Mathlib.Data.Real.Sign
import Mathlib.Tactic.Positivity
import Mathlib.Tactic.Linarith
import Mathlib.Tactic.FieldSimp
/-
A concrete floating point arithmetic: `k + 1` binary digits, results truncated.
-/
namespace VM.Chop

/-- The value of the last digit of `x`. -/
noncomputable def unit (k : Nat) (x : ℝ) : ℝ := (2 : ℝ) ^ (Int.log 2 |x| - k)

noncomputable def round (k : Nat) (x : ℝ) : ℝ := Real.sign x * (⌊|x| / unit k x⌋ * unit k x)

def mem (k : Nat) (x : ℝ) : Prop := ∃ m : ℤ, x = m * unit k x

variable {k : Nat} {x : ℝ}

theorem unit_pos : 0 < unit k x := by unfold unit; positivity

theorem unit_congr {y : ℝ} (h : Int.log 2 |x| = Int.log 2 |y|) : unit k x = unit k y := by rw [unit, unit, h]

theorem unit_neg : unit k (-x) = unit k x := by rw [unit, unit, abs_neg]

theorem sign_mul_abs (x : ℝ) : Real.sign x * |x| = x := by
  rcases lt_trichotomy x 0 with h | rfl | h
  · rw [Real.sign_of_neg h, abs_of_neg h]; ring
  · simp
  · rw [Real.sign_of_pos h, abs_of_pos h]; ring

theorem round_self (h : mem k x) : round k x = x := by
  obtain ⟨m, hm⟩ := h
  have hu := unit_pos (k := k) (x := x)
  have : |x| / unit k x = ((|m| : ℤ) : ℝ) := by
    rw [div_eq_iff hu.ne', Int.cast_abs]
    conv_lhs => rw [hm]
    rw [abs_mul, abs_of_pos hu]
  rw [round, this, Int.floor_intCast, ← this, div_mul_cancel₀ _ hu.ne', sign_mul_abs]

theorem unit_le (h : x ≠ 0) : unit k x * 2 ^ k ≤ |x| := by
  have h1 := Int.zpow_log_le_self (b := 2) (r := |x|) (by norm_num) (abs_pos.2 h)
  have : unit k x * 2 ^ k = (2 : ℝ) ^ Int.log 2 |x| := by
    rw [unit, zpow_sub₀ (by norm_num), zpow_natCast]; field_simp
  rw [this]; simpa using h1

theorem trunc_le : ⌊|x| / unit k x⌋ * unit k x ≤ |x| :=
  (le_div_iff₀ unit_pos).1 (Int.floor_le _)

theorem le_trunc (h : x ≠ 0) : unit k x * 2 ^ k ≤ ⌊|x| / unit k x⌋ * unit k x := by
  rw [mul_comm]
  refine mul_le_mul_of_nonneg_right ?_ unit_pos.le
  have : ((2 ^ k : ℤ) : ℝ) ≤ (⌊|x| / unit k x⌋ : ℝ) := by
    rw [Int.cast_le, Int.le_floor, le_div_iff₀ unit_pos, mul_comm]
    simpa using unit_le h
  simpa using this

theorem abs_round (h : x ≠ 0) : |round k x| = ⌊|x| / unit k x⌋ * unit k x := by
  have h1 : |Real.sign x| = 1 := by
    rcases lt_or_gt_of_ne h with h | h
    · simp [Real.sign_of_neg h]
    · simp [Real.sign_of_pos h]
  have h2 : (0 : ℝ) ≤ ⌊|x| / unit k x⌋ * unit k x :=
    (mul_nonneg unit_pos.le (by positivity)).trans (le_trunc h)
  rw [round, abs_mul, h1, one_mul, abs_of_nonneg h2]

theorem log_round (h : x ≠ 0) : Int.log 2 |round k x| = Int.log 2 |x| := by
  have h0 := le_trunc (k := k) h
  rw [← abs_round h] at h0
  have hp : 0 < |round k x| := (mul_pos unit_pos (by positivity)).trans_le h0
  apply le_antisymm
  · exact Int.log_mono_right hp (by rw [abs_round h]; exact trunc_le)
  · have : unit k x * 2 ^ k = (2 : ℝ) ^ Int.log 2 |x| := by
      rw [unit, zpow_sub₀ (by norm_num), zpow_natCast]; field_simp
    rw [this] at h0
    refine (Int.zpow_le_iff_le_log (b := 2) (by norm_num) hp).1 ?_
    simpa using h0

theorem round_mem : mem k (round k x) := by
  by_cases h : x = 0
  · subst h; exact ⟨0, by simp [round]⟩
  · have hu : unit k (round k x) = unit k x := unit_congr (log_round h)
    rw [mem, hu]
    rcases lt_or_gt_of_ne h with h | h
    · exact ⟨-⌊|x| / unit k x⌋, by rw [round, Real.sign_of_neg h]; push_cast; ring⟩
    · exact ⟨⌊|x| / unit k x⌋, by rw [round, Real.sign_of_pos h]; ring⟩

theorem round_near : |round k x - x| ≤ ((2 : ℝ) ^ k)⁻¹ * |x| := by
  by_cases h : x = 0
  · subst h; simp [round]
  · have h1 : round k x - x = Real.sign x * (⌊|x| / unit k x⌋ * unit k x - |x|) := by
      rw [mul_sub, sign_mul_abs, round]
    have h2 : |Real.sign x| = 1 := by
      rcases lt_or_gt_of_ne h with h | h
      · simp [Real.sign_of_neg h]
      · simp [Real.sign_of_pos h]
    rw [h1, abs_mul, h2, one_mul, abs_sub_comm, abs_of_nonneg (sub_nonneg.2 trunc_le)]
    have h3 : |x| / unit k x < ⌊|x| / unit k x⌋ + 1 := Int.lt_floor_add_one _
    rw [div_lt_iff₀ unit_pos] at h3
    have h4 := unit_le (k := k) h
    rw [inv_mul_eq_div, le_div_iff₀ (by positivity)]
    have h5 : |x| - ⌊|x| / unit k x⌋ * unit k x ≤ unit k x := by linarith
    exact (mul_le_mul_of_nonneg_right h5 (by positivity)).trans h4

theorem mem_pow (j : ℤ) : mem k ((2 : ℝ) ^ j) := by
  refine ⟨2 ^ k, ?_⟩
  have : Int.log 2 ((2 : ℝ) ^ j) = j := by simpa using Int.log_zpow (R := ℝ) (b := 2) (by norm_num) j
  rw [unit, abs_of_pos (by positivity), this, zpow_sub₀ (by norm_num), zpow_natCast]
  push_cast
  field_simp

theorem mem_neg (h : mem k x) : mem k (-x) := by
  obtain ⟨m, hm⟩ := h
  exact ⟨-m, by rw [unit_neg]; push_cast; linarith⟩

theorem round_one_add : round k (2 ^ (-(k + 1 : ℕ) : ℤ) + 1) = 1 := by
  have hk : (2 : ℝ) ^ (-(k + 1 : ℕ) : ℤ) = (2 ^ k)⁻¹ / 2 := by
    rw [zpow_neg, zpow_natCast, pow_succ, mul_inv]; rfl
  have h1 : ((2 : ℝ) ^ k)⁻¹ ≤ 1 := inv_le_one_of_one_le₀ (one_le_pow₀ (by norm_num))
  have h0 : 0 < ((2 : ℝ) ^ k)⁻¹ := by positivity
  rw [hk]
  have hp : 0 < ((2 : ℝ) ^ k)⁻¹ / 2 + 1 := by positivity
  have hl : Int.log 2 |((2 : ℝ) ^ k)⁻¹ / 2 + 1| = 0 := by
    rw [abs_of_pos hp]
    apply le_antisymm
    · rw [← Int.lt_add_one_iff, ← Int.lt_zpow_iff_log_lt (b := 2) (by norm_num) hp]
      norm_num; linarith
    · rw [← Int.zpow_le_iff_le_log (b := 2) (by norm_num) hp]
      norm_num
      positivity
  have hu : unit k (((2 : ℝ) ^ k)⁻¹ / 2 + 1) = (2 ^ k)⁻¹ := by
    rw [unit, hl, zero_sub, zpow_neg, zpow_natCast]
  have hf : ⌊|((2 : ℝ) ^ k)⁻¹ / 2 + 1| / (2 ^ k)⁻¹⌋ = 2 ^ k := by
    rw [Int.floor_eq_iff, abs_of_pos hp]
    have : (((2 : ℝ) ^ k)⁻¹ / 2 + 1) / (2 ^ k)⁻¹ = 2 ^ k + 1 / 2 := by field_simp; ring
    rw [this]
    push_cast
    constructor <;> linarith
  rw [round, hu, hf, Real.sign_of_pos hp]
  push_cast
  field_simp

theorem unit_big {d : ℝ} (h0 : 0 ≤ d) (h1 : d < 2 ^ k) : unit k (d + 2 ^ k) = 1 := by
  have hp : 0 < d + (2 : ℝ) ^ k := by positivity
  have hl : Int.log 2 |d + (2 : ℝ) ^ k| = k := by
    rw [abs_of_pos hp]
    apply le_antisymm
    · rw [← Int.lt_add_one_iff, ← Int.lt_zpow_iff_log_lt (b := 2) (by norm_num) hp]
      have : (((2 : ℕ) : ℝ)) ^ ((k : ℤ) + 1) = 2 * 2 ^ k := by
        rw [zpow_add₀ (by norm_num), zpow_natCast]; push_cast; ring
      rw [this]; linarith
    · rw [← Int.zpow_le_iff_le_log (b := 2) (by norm_num) hp, zpow_natCast]
      push_cast; linarith
  rw [unit, hl, sub_self, zpow_zero]

/-- A number below 1 is lost when it is added to `2 ^ k`. -/
theorem round_half_add : round k (1 / 2 + 2 ^ k) = 2 ^ k := by
  have hk : (1 : ℝ) ≤ 2 ^ k := one_le_pow₀ (by norm_num)
  have hp : 0 < 1 / 2 + (2 : ℝ) ^ k := by positivity
  have hf : ⌊|1 / 2 + (2 : ℝ) ^ k| / 1⌋ = 2 ^ k := by
    rw [Int.floor_eq_iff, abs_of_pos hp]
    push_cast
    constructor <;> linarith
  rw [round, unit_big (by norm_num) (by linarith), hf, Real.sign_of_pos hp]
  push_cast; ring

theorem round_one_add_big : round k (1 + 2 ^ k) = 1 + 2 ^ k := by
  apply round_self
  by_cases h : k = 0
  · subst h; simpa [one_add_one_eq_two] using mem_pow (k := 0) 1
  · refine ⟨1 + 2 ^ k, ?_⟩
    rw [unit_big (by norm_num) (one_lt_pow₀ (by norm_num) h)]
    push_cast; ring

theorem round_zero : round k 0 = 0 := by simp [round]

/-- All integers of `k + 1` digits can be represented. -/
theorem mem_int {n : ℤ} (h : n.natAbs ≤ 2 ^ (k + 1)) : mem k n := by
  by_cases h0 : n = 0
  · exact ⟨0, by simp [h0]⟩
  have hn : (0 : ℝ) < |(n : ℝ)| := abs_pos.2 (Int.cast_ne_zero.2 h0)
  have habs : |(n : ℝ)| = (n.natAbs : ℝ) := by rw [Nat.cast_natAbs, Int.cast_abs]
  rcases h.lt_or_eq with h | h
  · have hl : Int.log 2 |(n : ℝ)| ≤ k := by
      rw [← Int.lt_add_one_iff, ← Int.lt_zpow_iff_log_lt (b := 2) (by norm_num) hn, habs]
      exact_mod_cast h
    obtain ⟨j, hj⟩ := Int.eq_ofNat_of_zero_le (sub_nonneg.2 hl)
    refine ⟨n * 2 ^ j, ?_⟩
    rw [unit, show Int.log 2 |(n : ℝ)| - k = -(j : ℤ) by omega, zpow_neg, zpow_natCast]
    push_cast
    field_simp
  · have hp := mem_pow (k := k) (k + 1)
    rcases Int.natAbs_eq n with hn | hn <;> rw [h] at hn <;> rw [hn]
    · push_cast; exact_mod_cast hp
    · push_cast; exact mem_neg (by exact_mod_cast hp)

/-- The next integer cannot. -/
theorem not_mem_int : ¬ mem k (((2 ^ (k + 1) + 1 : ℤ)) : ℝ) := by
  rintro ⟨m, hm⟩
  have hk : (1 : ℝ) ≤ 2 ^ k := one_le_pow₀ (by norm_num)
  have hp : (0 : ℝ) < 2 ^ (k + 1) + 1 := by positivity
  have hl : Int.log 2 |(2 : ℝ) ^ (k + 1) + 1| = k + 1 := by
    rw [abs_of_pos hp]
    apply le_antisymm
    · rw [← Int.lt_add_one_iff, ← Int.lt_zpow_iff_log_lt (b := 2) (by norm_num) hp]
      have : (((2 : ℕ) : ℝ)) ^ ((k : ℤ) + 1 + 1) = 4 * 2 ^ k := by
        rw [zpow_add₀ (by norm_num), zpow_add₀ (by norm_num), zpow_natCast]; push_cast; ring
      rw [this, pow_succ]; linarith
    · rw [← Int.zpow_le_iff_le_log (b := 2) (by norm_num) hp]
      have : (((2 : ℕ) : ℝ)) ^ ((k : ℤ) + 1) = 2 ^ (k + 1) := by
        rw [zpow_add₀ (by norm_num), zpow_natCast, pow_succ]; push_cast; ring
      rw [this]; linarith
  push_cast at hm
  rw [unit, hl, show ((k : ℤ) + 1 - k) = 1 by ring, zpow_one] at hm
  have h : (2 ^ (k + 1) + 1 : ℤ) = m * 2 := by exact_mod_cast hm
  rw [pow_succ] at h
  omega

end Chop

/-- Numbers of `k + 1` binary digits, without a bound on the exponent; results are truncated (C++ leaves the
rounding to the implementation), and the functions of the library are as exact as that allows. -/
noncomputable def chop (k : Nat) (T : ℝ) : Rounding where
  mem := Chop.mem k
  round x := some (Chop.round k x)
  lib f x := (XReal.fn f (some x)).getD 0
  eps := ((2 : ℝ) ^ k)⁻¹
  eta := 0
  top := T
  zero := ⟨0, by simp⟩
  one := by simpa using Chop.mem_pow (k := k) 0
  neg := Chop.mem_neg
  round_mem h := by cases h; exact Chop.round_mem
  round_self h := by rw [Chop.round_self h]
  round_near h := by cases h; simpa using Chop.round_near
  round_some _ := ⟨_, rfl⟩
  lib_near := by
    intro f x y h
    rw [h]
    simp

end VM
