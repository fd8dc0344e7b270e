import Verif.Ct.DegreeLemmas
import Verif.Spec.CtZeroDiv
/-
Divisions by 0 under compile-time simplification.
-/
set_option linter.unusedTactic false
set_option linter.unreachableTactic false
set_option linter.unusedSimpArgs false
namespace VM.Ct
open VM.Spec

theorem frac_byZero {cv : Conv} (hcv : KeepsZero cv) {x y : CExp} {e : CtExpr} (h : frac cv x y = some e)
    (hy : ∀ d, y = some d → d = 0) : ByZero e := by
  obtain ⟨n, d, n₁, d₁, g, n', d', h1, h2, h3, h4, h5, h6, h7, rfl⟩ := frac_some.1 h
  have := hy d h2; subst this
  have := hcv _ h4; subst this
  obtain ⟨_, _, rfl⟩ := idiv_some.1 h7
  exact .inl (by rw [Int.zero_tdiv])

theorem plus_byZero {cv : Conv} (hcv : KeepsZero cv) {s : Spz} {e e' : CtExpr} :
    s ∈ specsPlus → s.pat.fits e = true → s.type cv e = some e' → ByZero e → ByZero e' := by
  intro _ _
  per_rule
  all_goals
    intro ht hb
    dsimp only at ht
    simp only [ByZero, or_false, false_or, CtExpr.const.injEq, false_and, and_false, reduceCtorEq, exists_const] at hb
  all_goals first
    | (refine frac_byZero hcv ht ?_
       intro d hd
       simp only [cmul_some, Option.some.injEq] at hd
       first
         | (obtain ⟨rfl, -⟩ := hd; simp_all; done)
         | (simp_all; done)
         | (obtain ⟨rfl, -⟩ := hd; rcases hb with rfl | rfl <;> simp; done)
         | (obtain ⟨rfl, -⟩ := hd; rcases hb with ⟨-, rfl⟩ | ⟨rfl, -⟩ <;> simp; done))
    | (cases ht
       try simp only [ByZero]
       first
         | (simp_all; done)
         | tauto
         | (refine .inl ⟨⟨-1, by decide, rfl⟩, ?_⟩; simp only [ByZero]; tauto))

theorem minus_byZero {cv : Conv} (hcv : KeepsZero cv) {s : Spz} {e e' : CtExpr} :
    s ∈ specsMinus → s.pat.fits e = true → s.type cv e = some e' → ByZero e → ByZero e' := by
  intro _ _
  per_rule
  all_goals
    intro ht hb
    dsimp only at ht
    simp only [ByZero, or_false, false_or, CtExpr.const.injEq, false_and, and_false, reduceCtorEq, exists_const] at hb
  all_goals first
    | (refine frac_byZero hcv ht ?_
       intro d hd
       simp only [cmul_some, Option.some.injEq] at hd
       first
         | (obtain ⟨rfl, -⟩ := hd; simp_all; done)
         | (simp_all; done)
         | (obtain ⟨rfl, -⟩ := hd; rcases hb with rfl | rfl <;> simp; done)
         | (obtain ⟨rfl, -⟩ := hd; rcases hb with ⟨-, rfl⟩ | ⟨rfl, -⟩ <;> simp; done))
    | (cases ht
       try simp only [ByZero]
       first
         | (simp_all; done)
         | tauto
         | (refine .inl ⟨⟨-1, by decide, rfl⟩, ?_⟩; simp only [ByZero]; tauto))

theorem mult_byZero {cv : Conv} (hcv : KeepsZero cv) {s : Spz} {e e' : CtExpr} :
    s ∈ specsMult → s.pat.fits e = true → s.type cv e = some e' → ByZero e → ByZero e' := by
  intro _ _
  per_rule
  all_goals
    intro ht hb
    dsimp only at ht
    simp only [ByZero, or_false, false_or, CtExpr.const.injEq, false_and, and_false, reduceCtorEq, exists_const] at hb
  all_goals first
    | (refine frac_byZero hcv ht ?_
       intro d hd
       simp only [cmul_some, Option.some.injEq] at hd
       first
         | (obtain ⟨rfl, -⟩ := hd; simp_all; done)
         | (simp_all; done)
         | (obtain ⟨rfl, -⟩ := hd; rcases hb with rfl | rfl <;> simp; done)
         | (obtain ⟨rfl, -⟩ := hd; rcases hb with ⟨-, rfl⟩ | ⟨rfl, -⟩ <;> simp; done))
    | (cases ht
       try simp only [ByZero]
       first
         | (simp_all; done)
         | tauto
         | (refine .inl ⟨⟨-1, by decide, rfl⟩, ?_⟩; simp only [ByZero]; tauto))

theorem div_byZero {cv : Conv} (hcv : KeepsZero cv) {s : Spz} {e e' : CtExpr} :
    s ∈ specsDiv → s.pat.fits e = true → s.type cv e = some e' → (∀ l, e ≠ l /' ♯0) → ByZero e → ByZero e' := by
  intro _ _
  per_rule
  all_goals
    intro ht hl hb
    dsimp only at ht
    simp only [ByZero, or_false, false_or, CtExpr.const.injEq, false_and, and_false, reduceCtorEq, exists_const] at hb
  all_goals try (exact absurd (by rw [hb]) (hl _))
  all_goals try (exact absurd hb (by decide))
  all_goals try (simp at ht; done)
  all_goals first
    | (refine frac_byZero hcv ht ?_
       intro d hd
       simp only [cmul_some, Option.some.injEq] at hd
       first
         | (obtain ⟨rfl, -⟩ := hd; simp_all; done)
         | (simp_all; done)
         | (obtain ⟨rfl, -⟩ := hd; rcases hb with rfl | rfl <;> simp; done)
         | (obtain ⟨rfl, -⟩ := hd; rcases hb with ⟨-, rfl⟩ | ⟨rfl, -⟩ <;> simp; done))
    | (cases ht
       try simp only [ByZero]
       first
         | (simp_all; done)
         | tauto
         | done)

/-- One turn of the loop of `simplify`. -/
theorem impl_byZero {cv : Conv} (hcv : KeepsZero cv) : ∀ {e : CtExpr} {n : Nat} {e' : CtExpr},
    simplifyImpl cv e = some (n, e') → ByZero e → ByZero e' := by
  intro e
  induction e with
  | const | var | fsym => intro _ _ _ hb; exact hb.elim
  | bin l op r ihl ihr =>
    intro n e' h hb
    have hz : ∀ l', CtExpr.bin l op r ≠ l' /' ♯0 := by
      intro l' he
      rw [he, impl_zero_divisor] at h
      cases h
    rw [simplifyImpl] at h
    split at h
    · simp only [Option.bind_eq_some_iff, Option.some.injEq, Prod.mk.injEq] at h
      obtain ⟨⟨a, l'⟩, h1, ⟨b, r'⟩, h2, rfl, rfl⟩ := h
      cases op with
      | plus => exact hb.imp (ihl h1) (ihr h2)
      | minus => exact hb.imp (ihl h1) (ihr h2)
      | mult =>
        rcases hb with ⟨⟨c, hc, rfl⟩, hb⟩ | ⟨hb, c, hc, rfl⟩
        · cases h1; exact .inl ⟨⟨c, hc, rfl⟩, ihr h2 hb⟩
        · cases h2; exact .inr ⟨ihl h1 hb, c, hc, rfl⟩
      | div =>
        rcases hb with rfl | ⟨hb, c, hc, rfl⟩
        · exact absurd rfl (hz l)
        · cases h2; exact .inr ⟨ihl h1 hb, c, hc, rfl⟩
    · simp only [Option.bind_eq_some_iff, Option.some.injEq, Prod.mk.injEq] at h
      obtain ⟨s, hs, y, hy, rfl, rfl⟩ := h
      have hm := List.mem_filter.1 (List.mem_of_find?_eq_some hs)
      obtain ⟨h1, h2⟩ := hm
      simp only [specs, List.mem_append] at h1
      obtain ((h1 | h1) | h1) | h1 := h1
      · exact plus_byZero hcv h1 h2 hy hb
      · exact minus_byZero hcv h1 h2 hy hb
      · exact mult_byZero hcv h1 h2 hy hb
      · exact div_byZero hcv h1 h2 hy hz hb

theorem simplifyN_byZero {cv : Conv} (hcv : KeepsZero cv) : ∀ (k : Nat) {e z : CtExpr},
    simplifyN cv k e = some z → ByZero e → ByZero z
  | 0, _, _, h, _ => by cases h
  | k + 1, e, z, h, hb => by
    simp only [simplifyN, Option.bind_eq_some_iff] at h
    obtain ⟨⟨n, e'⟩, h1, h2⟩ := h
    split at h2
    · cases h2; exact hb
    · exact simplifyN_byZero hcv k h2 (impl_byZero hcv h1 hb)

/-- Such an expression has a part that is a quotient with divisor 0. -/
theorem byZero_part : ∀ {e : CtExpr}, ByZero e → ∃ l, Part (l /' ♯0) e := by
  intro e
  induction e with
  | const | var | fsym => intro hb; exact hb.elim
  | bin l op r ihl ihr =>
    intro hb
    have hl : ByZero l → ∃ l', Part (l' /' ♯0) (.bin l op r) := fun h => let ⟨l', h'⟩ := ihl h; ⟨l', .left h'⟩
    have hr : ByZero r → ∃ l', Part (l' /' ♯0) (.bin l op r) := fun h => let ⟨l', h'⟩ := ihr h; ⟨l', .right h'⟩
    cases op with
    | plus => exact hb.elim hl hr
    | minus => exact hb.elim hl hr
    | mult => exact hb.elim (fun h => hr h.2) (fun h => hl h.1)
    | div =>
      rcases hb with rfl | hb
      · exact ⟨l, .self⟩
      · exact hl hb.1

end VM.Ct
