import Verif.Ct.Select
import Mathlib.Algebra.Order.Ring.Rat
import Mathlib.Data.Rat.Cast.CharZero
/-
Rational arithmetic at compile time: when it succeeds and what it gives.
-/
namespace VM.Ct
open VM.Spec

theorem strict_small {a : Int} (h : a.natAbs < 2 ^ 31) : strict a = some a :=
  if_pos (show InInt a by unfold InInt; omega)

theorem gcdN_total : ∀ (k : Nat) (a b : Int), b.natAbs < k → a.natAbs < 2 ^ 31 → b.natAbs < 2 ^ 31 →
    (a ≠ 0 ∨ b ≠ 0) → ∃ g, gcdN strict k a b = some g ∧ g.natAbs < 2 ^ 31 := by
  intro k
  induction k with
  | zero => intro a b h; omega
  | succ k ih =>
    intro a b hk ha hb hab
    unfold gcdN
    split
    · have : a ≠ 0 := by tauto
      refine ⟨a, ?_, ha⟩
      rw [if_neg this, strict_small ha]
    · rw [if_neg (by omega)]
      have hlt : (a.tmod b).natAbs < b.natAbs := by
        rw [Int.natAbs_tmod]; exact Nat.mod_lt _ (by omega)
      exact ih b (a.tmod b) (by omega) (by omega) (by omega) (by tauto)

theorem gcdC_total {a b : Int} (ha : a.natAbs < 2 ^ 31) (hb : b.natAbs < 2 ^ 31) (h : b ≠ 0) :
    ∃ g, gcdC strict a b = some g :=
  let ⟨g, hg, _⟩ := gcdN_total _ a b (Nat.lt_succ_self _) ha hb (.inr h)
  ⟨g, hg⟩

theorem tdiv_small {a g : Int} (ha : a.natAbs < 2 ^ 31) : InInt (a.tdiv g) := by
  have h : (a.tdiv g).natAbs ≤ a.natAbs := by
    rw [Int.natAbs_tdiv]; exact Nat.div_le_self ..
  unfold InInt; omega

theorem frac_total {n d : Int} (hn : n.natAbs < 2 ^ 31) (hd : d.natAbs < 2 ^ 31) (h : d ≠ 0) :
    ∃ n' d', frac strict (some n) (some d) = some (♯n' /' ♯d') := by
  obtain ⟨g, hg⟩ := gcdC_total hn hd h
  have hg0 := (gcdC_exact strict_exact hg).2
  have e1 : strict n = some n := strict_small hn
  have e2 : strict d = some d := strict_small hd
  exact ⟨_, _, frac_some.2 ⟨n, d, n, d, g, _, _, rfl, rfl, e1, e2, hg,
    idiv_some.2 ⟨hg0, tdiv_small hn, rfl⟩, idiv_some.2 ⟨hg0, tdiv_small hd, rfl⟩, rfl⟩⟩

theorem frac_reduced {n d : Int} {e : CtExpr} (h : frac strict (some n) (some d) = some e) (hd : d ≠ 0) :
    IsReduced e ((n : ℚ) / d) := by
  obtain ⟨n₀, d₀, n', d', g, h1, h2, rfl, hg, h3, h4, h5⟩ := frac_exact strict_exact h
  cases h1; cases h2
  subst h3; subst h4
  have hd' : d' ≠ 0 := left_ne_zero_of_mul hd
  refine ⟨n', d', rfl, hd', h5, ?_⟩
  push_cast
  rw [mul_div_mul_right]
  exact_mod_cast hg

/-- A quotient of small integers in lowest terms simplifies to an integer or to itself. -/
theorem ctSimplify_reduced {n d : Int} {q : ℚ} (hn : n.natAbs < 2 ^ 31) (hd : d.natAbs < 2 ^ 31)
    (hr : IsReduced (♯n /' ♯d) q) (h0 : n = 0 → d ≠ -1) :
    ∃ e', ctSimplify strict (♯n /' ♯d) = some e' ∧ (IsInt e' q ∨ IsReduced e' q) := by
  obtain ⟨n₀, d₀, he, hd0, hg, hq⟩ := hr
  simp only [CtExpr.bin.injEq, CtExpr.const.injEq, true_and] at he
  obtain ⟨rfl, rfl⟩ := he
  rw [ctSimplify_eq]
  by_cases h1 : d = 1
  · subst h1; rw [impl_quot_one]
    refine ⟨♯n, by simp [ctSimplify_const], .inl ⟨n, rfl, by rw [← hq]; simp⟩⟩
  by_cases h2 : n = 0
  · subst h2; rw [impl_quot_zero _ _ (h0 rfl) hd0]
    exact ⟨♯0, by simp [ctSimplify_const], .inl ⟨0, rfl, by rw [← hq]; simp⟩⟩
  by_cases h3 : d = -1
  · subst h3; rw [impl_quot_neg _ _ h2]
    refine ⟨♯(-n), ?_, .inl ⟨-n, rfl, by rw [← hq]; push_cast; rw [div_neg, div_one]⟩⟩
    have : csub (some 0) (some n) = some (-n) := by
      rw [csub_some]; constructor
      · omega
      · unfold InLong; omega
    simp [this, ctSimplify_const]
  · rw [impl_quot _ _ _ h2 hd0 h1 h3]
    obtain ⟨g, hg'⟩ := gcdC_total hn hd hd0
    have hg0 := (gcdC_exact strict_exact hg').2
    have l1 : ldiv n g = some (n.tdiv g) := ldiv_some.2 ⟨hg0, by have := tdiv_small (g := g) hn; unfold InInt at this; unfold InLong; omega, rfl⟩
    have l2 : ldiv d g = some (d.tdiv g) := ldiv_some.2 ⟨hg0, by have := tdiv_small (g := g) hd; unfold InInt at this; unfold InLong; omega, rfl⟩
    exact ⟨♯n /' ♯d, by simp [hg', l1, l2], .inr ⟨n, d, rfl, hd0, hg, hq⟩⟩

theorem small_of_mul {a g : Int} (hg : g ≠ 0) (h : (a * g).natAbs < 2 ^ 31) : a.natAbs < 2 ^ 31 := by
  rw [Int.natAbs_mul] at h
  have : 0 < g.natAbs := by omega
  calc a.natAbs ≤ a.natAbs * g.natAbs := Nat.le_mul_of_pos_right _ this
    _ < _ := h

/-- The loop after a rational specialisation. -/
theorem simplify_frac {e : CtExpr} {n d : Int} (hn : n.natAbs < 2 ^ 31) (hd : d.natAbs < 2 ^ 31) (h : d ≠ 0)
    (he : simplifyImpl strict e = (frac strict (some n) (some d)).bind fun e => some (1, e)) :
    ∃ e', ctSimplify narrow e = some e' ∧ (IsInt e' ((n : ℚ) / d) ∨ IsReduced e' ((n : ℚ) / d)) := by
  obtain ⟨n', d', hf⟩ := frac_total hn hd h
  have hr := frac_reduced hf h
  obtain ⟨n₀, d₀, n₁, d₁, g, h1, h2, h3, hg, h4, h5, h6⟩ := frac_exact strict_exact hf
  cases h1; cases h2
  simp only [CtExpr.bin.injEq, CtExpr.const.injEq, true_and] at h3
  obtain ⟨rfl, rfl⟩ := h3
  have hz : n' = 0 → d' ≠ -1 := by
    rintro rfl rfl
    -- gcd<0, d> is d, so the denominator becomes 1
    rw [hf] at he
    simp only [zero_mul] at h4
    subst h4
    obtain ⟨n, d₂, n₂, d₃, g', n', d', k1, k2, k3, k4, k5, k6, k7, k8⟩ := frac_some.1 hf
    cases k1; cases k2
    have := strict_exact _ _ k3; subst this
    have := strict_exact _ _ k4; subst this
    rw [gcdC_eq, if_neg h, if_neg (by omega), Int.zero_tmod, gcdC_eq, if_pos rfl, if_neg h] at k5
    have := strict_exact _ _ k5; subst this
    obtain ⟨_, _, rfl⟩ := idiv_some.1 k7
    simp [Int.tdiv_self h] at k8
  obtain ⟨e', he', hv⟩ := ctSimplify_reduced (small_of_mul hg (h4 ▸ hn)) (small_of_mul hg (h5 ▸ hd)) hr hz
  refine ⟨e', ctSimplify_ext strict_narrow ?_, hv⟩
  rw [ctSimplify_eq, he, hf]
  simpa using he'

theorem fits_prod {a b : Int} (ha : a.natAbs ≤ 2 ^ 31) (hb : b.natAbs ≤ 2 ^ 31) :
    (a * b).natAbs ≤ 2 ^ 62 := by
  rw [Int.natAbs_mul]
  calc a.natAbs * b.natAbs ≤ 2 ^ 31 * 2 ^ 31 := Nat.mul_le_mul ha hb
    _ = 2 ^ 62 := by norm_num

theorem cmul_of {a b : Int} (ha : a.natAbs ≤ 2 ^ 31) (hb : b.natAbs ≤ 2 ^ 31) :
    cmul (some a) (some b) = some (a * b) := by
  have := fits_prod ha hb
  rw [cmul_some]; exact ⟨rfl, by unfold InLong; omega⟩

theorem cadd_of {a b : Int} (h : (a + b).natAbs < 2 ^ 31) :
    cadd (some a) (some b) = some (a + b) := by
  rw [cadd_some]; exact ⟨rfl, by unfold InLong; omega⟩

theorem csub_of {a b : Int} (h : (a - b).natAbs < 2 ^ 31) :
    csub (some a) (some b) = some (a - b) := by
  rw [csub_some]; exact ⟨rfl, by unfold InLong; omega⟩

/-! ### Expressions without division -/

theorem divFree_no_frac {cv : Conv} {x y : CExp} {e : CtExpr} (h : frac cv x y = some e) : ¬ DivFree e := by
  obtain ⟨_, _, _, _, _, _, _, _, _, _, _, _, _, _, rfl⟩ := frac_some.1 h
  simp [DivFree]

theorem spz_divFree {s : Spz} {e e' : CtExpr} (cv cv' : Conv) (hs : s ∈ specs) (hm : s.pat.fits e = true) :
    DivFree e → s.type cv e = some e' → s.type cv' e = some e' ∧ DivFree e' := by
  simp only [specs, List.mem_append] at hs
  obtain ((hs | hs) | hs) | hs := hs
  all_goals revert hm; revert hs
  all_goals intro _ _
  all_goals per_rule
  all_goals
    intro hd ht
  all_goals try simp only [DivFree, and_false, false_and, and_true, true_and] at hd
  all_goals try simp only [Option.some.injEq, Option.map_eq_some_iff] at ht ⊢
  all_goals try (casesm* _ ∧ _, Exists _)
  all_goals subst_vars
  all_goals simp_all [DivFree]

theorem implAny_divFree {cv cv' : Conv} {e e' : CtExpr} {n : Nat} (h : ImplAny cv e n e') (hd : DivFree e) :
    ImplAny cv' e n e' ∧ DivFree e' := by
  induction h with
  | const => exact ⟨.const _, hd⟩
  | var => exact ⟨.var _, hd⟩
  | fsym => exact ⟨.fsym _, hd⟩
  | general op _ _ ihl ihr =>
    cases op with
    | div => exact hd.elim
    | plus => exact ⟨.general _ (ihl hd.1).1 (ihr hd.2).1, (ihl hd.1).2, (ihr hd.2).2⟩
    | minus => exact ⟨.general _ (ihl hd.1).1 (ihr hd.2).1, (ihl hd.1).2, (ihr hd.2).2⟩
    | mult => exact ⟨.general _ (ihl hd.1).1 (ihr hd.2).1, (ihl hd.1).2, (ihr hd.2).2⟩
  | special hs hm ht =>
    obtain ⟨h1, h2⟩ := spz_divFree _ cv' hs hm hd ht
    exact ⟨.special hs hm h1, h2⟩

theorem simplifyAny_divFree {cv cv' : Conv} {e e' : CtExpr} (h : SimplifyAny cv e e') (hd : DivFree e) :
    SimplifyAny cv' e e' ∧ DivFree e' := by
  induction h with
  | stop h => exact ⟨.stop (implAny_divFree h hd).1, hd⟩
  | turn h _ ih =>
    obtain ⟨h1, h2⟩ := implAny_divFree (cv' := cv') h hd
    exact ⟨.turn h1 (ih h2).1, (ih h2).2⟩

end VM.Ct
