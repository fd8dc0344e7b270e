import Verif.Ct.Simplify
import Verif.Spec.Ct
import Mathlib.Tactic.Ring
import Mathlib.Tactic.FieldSimp
import Mathlib.Tactic.Linarith
import Mathlib.Algebra.CharZero.Defs
import Mathlib.Data.Int.Cast.Lemmas
import Mathlib.Data.Int.GCD
namespace VM.Ct
open VM.Spec

/-! ### Integer constant expressions -/

theorem fit_some {x c : Int} : fit x = some c ↔ c = x ∧ InLong x := by
  unfold fit; split <;> simp_all [eq_comm]

@[simp] theorem cadd_some {a b c : Int} : cadd (some a) (some b) = some c ↔ c = a + b ∧ InLong (a + b) := by
  simp [cadd, fit_some]
@[simp] theorem csub_some {a b c : Int} : csub (some a) (some b) = some c ↔ c = a - b ∧ InLong (a - b) := by
  simp [csub, fit_some]
@[simp] theorem cmul_some {a b c : Int} : cmul (some a) (some b) = some c ↔ c = a * b ∧ InLong (a * b) := by
  simp [cmul, fit_some]

theorem cadd_eq {x y : CExp} {c : Int} : cadd x y = some c ↔
    ∃ a b, x = some a ∧ y = some b ∧ c = a + b ∧ InLong (a + b) := by
  cases x <;> cases y <;> simp [cadd, fit_some]
theorem csub_eq {x y : CExp} {c : Int} : csub x y = some c ↔
    ∃ a b, x = some a ∧ y = some b ∧ c = a - b ∧ InLong (a - b) := by
  cases x <;> cases y <;> simp [csub, fit_some]
theorem cmul_eq {x y : CExp} {c : Int} : cmul x y = some c ↔
    ∃ a b, x = some a ∧ y = some b ∧ c = a * b ∧ InLong (a * b) := by
  cases x <;> cases y <;> simp [cmul, fit_some]

/-- A conversion that never changes a number. -/
def Conv.Exact (cv : Conv) : Prop := ∀ x y, cv x = some y → y = x

theorem strict_exact : Conv.Exact strict := by
  intro x y h; unfold strict at h; split at h <;> simp_all

/-- The conversion `b` does what `a` does wherever `a` accepts the number. -/
def Conv.Extends (a b : Conv) : Prop := ∀ x y, a x = some y → b x = some y

theorem strict_narrow : Conv.Extends strict narrow := by
  intro x y h
  have := strict_exact x y h; subst this
  unfold strict at h; split at h
  · rename_i hx; unfold narrow InInt at *; simp only [Option.some.injEq]; omega
  · simp at h

/-! ### gcd -/

theorem gcdN_fuel (cv : Conv) : ∀ (k m : Nat) (a b : Int), b.natAbs < k → b.natAbs < m →
    gcdN cv k a b = gcdN cv m a b := by
  intro k
  induction k with
  | zero => intro m a b h; omega
  | succ k ih =>
    intro m a b h hm
    obtain ⟨m, rfl⟩ : ∃ m', m = m' + 1 := ⟨m - 1, by omega⟩
    unfold gcdN
    split
    · rfl
    · split
      · rfl
      · rename_i hb _
        have hlt : (a.tmod b).natAbs < b.natAbs := by
          rw [Int.natAbs_tmod]; exact Nat.mod_lt _ (by omega)
        exact ih m b (a.tmod b) (by omega) (by omega)

/-- The template recursion of gcd, forwards.h 657-675: the bound in `gcdC` is never reached. -/
theorem gcdC_eq (cv : Conv) (a b : Int) : gcdC cv a b =
    if b = 0 then (if a = 0 then none else cv a)
    else if a = -2 ^ 63 ∧ b = -1 then none
    else gcdC cv b (a.tmod b) := by
  unfold gcdC
  conv_lhs => unfold gcdN
  split
  · rfl
  · split
    · rfl
    · rename_i hb _
      have hlt : (a.tmod b).natAbs < b.natAbs := by
        rw [Int.natAbs_tmod]; exact Nat.mod_lt _ (by omega)
      exact gcdN_fuel cv _ _ _ _ (by omega) (by omega)

theorem gcdN_exact {cv : Conv} (hcv : cv.Exact) : ∀ (k : Nat) (a b g : Int), gcdN cv k a b = some g →
    g.natAbs = Int.gcd a b ∧ g ≠ 0 := by
  intro k
  induction k with
  | zero => intro a b g h; simp [gcdN] at h
  | succ k ih =>
    intro a b g h
    unfold gcdN at h
    split at h
    · split at h
      · simp at h
      · have := hcv _ _ h; subst this; subst_vars; simp_all
    · split at h
      · simp at h
      · obtain ⟨h1, h2⟩ := ih _ _ _ h
        refine ⟨?_, h2⟩
        rw [h1, Int.gcd, Int.gcd, Int.natAbs_tmod, Nat.gcd_comm, ← Nat.gcd_rec, Nat.gcd_comm]

theorem gcdC_exact {cv : Conv} (hcv : cv.Exact) {a b g : Int} (h : gcdC cv a b = some g) :
    g.natAbs = Int.gcd a b ∧ g ≠ 0 := gcdN_exact hcv _ _ _ _ h

theorem gcdC_dvd {cv : Conv} (hcv : cv.Exact) {a b g : Int} (h : gcdC cv a b = some g) :
    g ∣ a ∧ g ∣ b := by
  have := (gcdC_exact hcv h).1
  constructor
  · rw [← Int.natAbs_dvd, this]; exact Int.gcd_dvd_left ..
  · rw [← Int.natAbs_dvd, this]; exact Int.gcd_dvd_right ..

theorem gcdN_ext {a b : Conv} (h : a.Extends b) : ∀ (k : Nat) (x y g : Int), gcdN a k x y = some g →
    gcdN b k x y = some g := by
  intro k
  induction k with
  | zero => intro x y g h; simp [gcdN] at h
  | succ k ih =>
    intro x y g hg
    unfold gcdN at hg ⊢
    split at hg
    · split at hg
      · simp at hg
      · simp_all; exact h _ _ hg
    · split at hg
      · simp at hg
      · rw [if_neg ‹_›, if_neg ‹_›]; exact ih _ _ _ hg

theorem idiv_some {a b c : Int} : idiv a b = some c ↔ b ≠ 0 ∧ InInt (a.tdiv b) ∧ c = a.tdiv b := by
  unfold idiv; split
  · simp_all
  · split <;> simp_all [eq_comm]
theorem ldiv_some {a b c : Int} : ldiv a b = some c ↔ b ≠ 0 ∧ InLong (a.tdiv b) ∧ c = a.tdiv b := by
  unfold ldiv fit; split
  · simp_all
  · split <;> simp_all [eq_comm]

/-! ### The end of the rational rules -/

theorem frac_some {cv : Conv} {x y : CExp} {e : CtExpr} : frac cv x y = some e ↔
    ∃ n d n₁ d₁ g n' d', x = some n ∧ y = some d ∧ cv n = some n₁ ∧ cv d = some d₁ ∧
      gcdC cv n₁ d₁ = some g ∧ idiv n₁ g = some n' ∧ idiv d₁ g = some d' ∧ e = ♯n' /' ♯d' := by
  simp only [frac, Option.bind_eq_some_iff, Option.some.injEq]
  constructor
  · rintro ⟨n, h1, d, h2, n₁, h3, d₁, h4, g, h5, n', h6, d', h7, h8⟩
    exact ⟨n, d, n₁, d₁, g, n', d', h1, h2, h3, h4, h5, h6, h7, h8.symm⟩
  · rintro ⟨n, d, n₁, d₁, g, n', d', h1, h2, h3, h4, h5, h6, h7, h8⟩
    exact ⟨n, h1, d, h2, n₁, h3, d₁, h4, g, h5, n', h6, d', h7, h8.symm⟩

theorem frac_ext {a b : Conv} (h : a.Extends b) {x y : CExp} {e : CtExpr} (hf : frac a x y = some e) :
    frac b x y = some e := by
  rw [frac_some] at hf ⊢
  obtain ⟨n, d, n₁, d₁, g, n', d', h1, h2, h3, h4, h5, h6, h7, h8⟩ := hf
  exact ⟨n, d, n₁, d₁, g, n', d', h1, h2, h _ _ h3, h _ _ h4, gcdN_ext h _ _ _ _ h5, h6, h7, h8⟩

theorem frac_exact {cv : Conv} (hcv : cv.Exact) {x y : CExp} {e : CtExpr} (hf : frac cv x y = some e) :
    ∃ n d n' d' g : Int, x = some n ∧ y = some d ∧ e = ♯n' /' ♯d' ∧ g ≠ 0 ∧ n = n' * g ∧ d = d' * g ∧
      Int.gcd n' d' = 1 := by
  obtain ⟨n, d, n₁, d₁, g, n', d', h1, h2, h3, h4, h5, h6, h7, h8⟩ := frac_some.1 hf
  have := hcv _ _ h3; subst this
  have := hcv _ _ h4; subst this
  obtain ⟨hg, hg0⟩ := gcdC_exact hcv h5
  obtain ⟨dn, dd⟩ := gcdC_dvd hcv h5
  obtain ⟨_, _, rfl⟩ := idiv_some.1 h6
  obtain ⟨_, _, rfl⟩ := idiv_some.1 h7
  refine ⟨_, _, _, _, g, h1, h2, h8, hg0, (Int.tdiv_mul_cancel dn).symm, (Int.tdiv_mul_cancel dd).symm, ?_⟩
  obtain ⟨p, hp⟩ := dn
  obtain ⟨q, hq⟩ := dd
  rw [hp, hq, Int.mul_tdiv_cancel_left _ hg0, Int.mul_tdiv_cancel_left _ hg0]
  rw [hp, hq, Int.gcd_mul_left] at hg
  have : 0 < g.natAbs := by omega
  exact Nat.eq_of_mul_eq_mul_left this (by omega)

end VM.Ct
