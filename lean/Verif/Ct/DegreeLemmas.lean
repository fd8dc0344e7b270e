import Verif.Ct.NormalLemmas
import Verif.Ct.ExpandLemmas
import Verif.Ct.OverloadLemmas
import Verif.Spec.CtDegree
import Mathlib.Tactic.Linarith
/-
The degree of compile-time expressions under differentiation, simplification and expansion.
-/
namespace VM.Ct
open VM.Spec

/-- The degree in the variables of `S` is less than `k`; less than 0 if the expression is 0 because of zeros
in it. -/
def BelowC (S : Nat → Prop) : Nat → CtExpr → Prop
  | k, .const n => n = 0 ∨ 1 ≤ k
  | k, .var i => 1 ≤ k ∧ (S i → 2 ≤ k)
  | k, .fsym _ => 1 ≤ k
  | k, .bin l .plus r => BelowC S k l ∧ BelowC S k r
  | k, .bin l .minus r => BelowC S k l ∧ BelowC S k r
  | k, .bin l .mult r => ∃ m n, BelowC S m l ∧ BelowC S n r ∧ (m = 0 ∨ n = 0 ∨ m + n ≤ k + 1)
  | k, .bin l .div r => BelowC S k l ∧ ∀ i, S i → ¬ Has i r

variable {S : Nat → Prop}

theorem BelowC.mono {k k' : Nat} {e : CtExpr} (h : BelowC S k e) (hk : k ≤ k') : BelowC S k' e := by
  induction e generalizing k k' with
  | const n => simp only [BelowC] at *; omega
  | var i => simp only [BelowC] at *; exact ⟨by omega, fun hs => by have := h.2 hs; omega⟩
  | fsym t => simp only [BelowC] at *; omega
  | bin l op r ihl ihr =>
    cases op with
    | plus => exact ⟨ihl h.1 hk, ihr h.2 hk⟩
    | minus => exact ⟨ihl h.1 hk, ihr h.2 hk⟩
    | mult => obtain ⟨m, n, h1, h2, h3⟩ := h; exact ⟨m, n, h1, h2, by omega⟩
    | div => exact ⟨ihl h.1 hk, h.2⟩

theorem BelowC.free {e : CtExpr} (h : ∀ i, S i → ¬ Has i e) : BelowC S 1 e := by
  induction e with
  | const n => exact .inr le_rfl
  | var i => exact ⟨le_rfl, fun hs => absurd rfl (h i hs)⟩
  | fsym t => exact le_rfl
  | bin l op r ihl ihr =>
    have hl := ihl fun i hi hh => h i hi (.inl hh)
    have hr := ihr fun i hi hh => h i hi (.inr hh)
    cases op with
    | plus => exact ⟨hl, hr⟩
    | minus => exact ⟨hl, hr⟩
    | mult => exact ⟨1, 1, hl, hr, by omega⟩
    | div => exact ⟨hl, fun i hi hh => h i hi (.inr hh)⟩

theorem CtDegree.below {d : Nat} {e : CtExpr} (h : CtDegree S d e) : BelowC S (d + 1) e := by
  induction h with
  | coef h => exact .free h
  | var i => exact ⟨by omega, fun _ => by omega⟩
  | plus _ _ h1 h2 => exact ⟨h1.mono (by omega), h2.mono (by omega)⟩
  | minus _ _ h1 h2 => exact ⟨h1.mono (by omega), h2.mono (by omega)⟩
  | mult _ _ h1 h2 => exact ⟨_, _, h1, h2, by omega⟩
  | div _ h h1 => exact ⟨h1, h⟩

theorem ctDiff_has {i j : Nat} {e e' : CtExpr} (h : ctDiff i e = some e') : Has j e' → Has j e := by
  induction e generalizing e' with
  | const n => cases h; exact id
  | var n => simp only [ctDiff] at h; split at h <;> cases h <;> simp [Has]
  | fsym t => cases h
  | bin l op r ihl ihr =>
    cases op <;> simp only [ctDiff, Option.bind_eq_some_iff, Option.some.injEq] at h <;>
    · obtain ⟨u, hu, v, hv, rfl⟩ := h
      have := ihl hu; have := ihr hv
      simp only [Has]; tauto

theorem BelowC.diff {i : Nat} (hi : S i) {k : Nat} {e e' : CtExpr} (hb : BelowC S k e) (h : ctDiff i e = some e') :
    BelowC S (k - 1) e' := by
  induction e generalizing k e' with
  | const n => cases h; exact .inl rfl
  | var n =>
    simp only [ctDiff] at h
    split at h <;> cases h
    · rename_i hn; subst hn; have := hb.2 hi; exact .inr (by omega)
    · exact .inl rfl
  | fsym t => cases h
  | bin l op r ihl ihr =>
    cases op <;> simp only [ctDiff, Option.bind_eq_some_iff, Option.some.injEq] at h <;>
      obtain ⟨u, hu, v, hv, rfl⟩ := h
    · exact ⟨ihl hb.1 hu, ihr hb.2 hv⟩
    · exact ⟨ihl hb.1 hu, ihr hb.2 hv⟩
    · obtain ⟨m, n, h1, h2, h3⟩ := hb
      exact ⟨⟨m - 1, n, ihl h1 hu, h2, by omega⟩, ⟨m, n - 1, h1, ihr h2 hv, by omega⟩⟩
    · obtain ⟨h1, h2⟩ := hb
      have hr := BelowC.free h2
      refine ⟨⟨?_, ?_⟩, fun j hj hh => ?_⟩
      · exact ⟨k - 1, 1, ihl h1 hu, hr, by omega⟩
      · exact ⟨k, 0, h1, ihr hr hv, by omega⟩
      · rcases hh with hh | hh <;> exact h2 j hj hh

theorem frac_below {cv : Conv} (hcv : KeepsZero cv) {x y : CExp} {e : CtExpr} (h : frac cv x y = some e) {k : Nat}
    (hz : x = some 0 ∨ 1 ≤ k ∨ x = none) : BelowC S k e := by
  obtain ⟨n, d, n₁, d₁, g, n', d', h1, h2, h3, h4, h5, h6, h7, rfl⟩ := frac_some.1 h
  refine ⟨?_, by simp [Has]⟩
  rcases hz with hz | hz | hz
  · rw [hz] at h1; cases h1
    have := hcv _ h3; subst this
    obtain ⟨_, _, rfl⟩ := idiv_some.1 h6
    exact .inl (Int.zero_tdiv _)
  · exact .inr hz
  · rw [hz] at h1; cases h1

theorem plus_below {cv : Conv} (hcv : KeepsZero cv) {s : Spz} {e e' : CtExpr} {k : Nat} :
    s ∈ specsPlus → s.pat.fits e = true → s.type cv e = some e' → BelowC S k e → BelowC S k e' := by
  intro _ _
  per_rule
  all_goals
    intro ht hb
    dsimp only at ht
    simp only [BelowC] at hb
    first
      | (refine frac_below hcv ht ?_
         by_cases hk : 1 ≤ k
         · exact .inr (.inl hk)
         · left
           obtain ⟨h1, h2⟩ := hb
           first
             | (have h1 := h1.1.resolve_right hk; have h2 := h2.1.resolve_right hk)
             | (have h1 := h1.resolve_right hk; have h2 := h2.1.resolve_right hk)
             | (have h1 := h1.1.resolve_right hk; have h2 := h2.resolve_right hk)
           subst h1 h2
           simp [cadd, cmul, fit, InLong])
      | (cases ht
         try simp only [BelowC]
         first
           | tauto
           | exact ⟨1, k, .inr le_rfl, ⟨by tauto, by tauto⟩, by omega⟩)
      | (obtain ⟨c, hc, rfl⟩ := Option.map_eq_some_iff.1 ht
         obtain ⟨rfl, -⟩ := cadd_some.1 hc
         try simp only [BelowC]
         omega)

theorem minus_below {cv : Conv} (hcv : KeepsZero cv) {s : Spz} {e e' : CtExpr} {k : Nat} :
    s ∈ specsMinus → s.pat.fits e = true → s.type cv e = some e' → BelowC S k e → BelowC S k e' := by
  intro _ _
  per_rule
  all_goals
    intro ht hb
    dsimp only at ht
    simp only [BelowC] at hb
    first
      | (refine frac_below hcv ht ?_
         by_cases hk : 1 ≤ k
         · exact .inr (.inl hk)
         · left
           obtain ⟨h1, h2⟩ := hb
           first
             | (have h1 := h1.1.resolve_right hk; have h2 := h2.1.resolve_right hk; subst h1 h2)
             | (have h1 := h1.resolve_right hk; have h2 := h2.1.resolve_right hk; subst h1 h2)
             | (have h1 := h1.1.resolve_right hk; have h2 := h2.resolve_right hk; subst h1 h2)
             | (have h1 := h1.1.resolve_right hk; subst h1)
           simp [csub, cmul, fit, InLong])
      | (cases ht
         try simp only [BelowC]
         first
           | tauto
           | exact ⟨1, k, .inr le_rfl, ⟨by tauto, by tauto⟩, by omega⟩)
      | (obtain ⟨c, hc, rfl⟩ := Option.map_eq_some_iff.1 ht
         obtain ⟨rfl, -⟩ := csub_some.1 hc
         try simp only [BelowC]
         omega)

theorem mult_below {cv : Conv} (hcv : KeepsZero cv) {s : Spz} {e e' : CtExpr} {k : Nat} :
    s ∈ specsMult → s.pat.fits e = true → s.type cv e = some e' → BelowC S k e → BelowC S k e' := by
  intro _ _
  per_rule
  all_goals
    intro ht hb
    dsimp only at ht
    simp only [BelowC] at hb
    obtain ⟨m, n, h1, h2, h3⟩ := hb
    first
      | (refine frac_below hcv ht ?_
         by_cases hk : 1 ≤ k
         · exact .inr (.inl hk)
         · left
           have hmn : m = 0 ∨ n = 0 := by omega
           rcases hmn with rfl | rfl
           · first
               | (have h1 := h1.1.resolve_right (by omega); subst h1)
               | (have h1 := h1.resolve_right (by omega); subst h1)
             simp [cmul, fit, InLong]
           · first
               | (have h2 := h2.1.resolve_right (by omega); subst h2)
               | (have h2 := h2.resolve_right (by omega); subst h2)
             simp [cmul, fit, InLong])
      | (cases ht
         simp only [BelowC, one_ne_zero, false_or, true_or]
         done)
      | (cases ht
         try simp only [BelowC]
         first
           | omega
           | exact h1.mono (by omega)
           | exact h2.mono (by omega)
           | exact ⟨h1.mono (by omega), h2.2⟩
           | exact ⟨h2.mono (by omega), h1.2⟩
           | exact ⟨.inr (by omega), fun i hi hh => hh.elim (h1.2 i hi) (h2.2 i hi)⟩)
      | (obtain ⟨c, hc, rfl⟩ := Option.map_eq_some_iff.1 ht
         obtain ⟨rfl, -⟩ := cmul_some.1 hc
         simp only [BelowC, mul_eq_zero]
         omega)

theorem div_below {cv : Conv} (hcv : KeepsZero cv) {s : Spz} {e e' : CtExpr} {k : Nat} :
    s ∈ specsDiv → s.pat.fits e = true → s.type cv e = some e' → BelowC S k e → BelowC S k e' := by
  intro _ _
  per_rule
  all_goals
    intro ht hb
    dsimp only at ht
    simp only [BelowC] at hb
  all_goals try (simp at ht; done)
  all_goals first
      | (refine frac_below hcv ht ?_
         by_cases hk : 1 ≤ k
         · exact .inr (.inl hk)
         · left
           obtain ⟨h1, h2⟩ := hb
           first
             | (have h1 := h1.1.resolve_right hk; subst h1)
             | (have h1 := h1.resolve_right hk; subst h1)
           simp [cmul, fit, InLong])
      | (cases ht
         try simp only [BelowC]
         tauto)
      | (obtain ⟨c, hc, rfl⟩ := Option.map_eq_some_iff.1 ht
         obtain ⟨rfl, -⟩ := csub_some.1 hc
         try simp only [BelowC]
         omega)
      | (simp only [Option.bind_eq_some_iff, ldiv_some, Option.some.injEq] at ht
         obtain ⟨g, hg, a', ⟨hg0, -, rfl⟩, b', ⟨-, -, rfl⟩, rfl⟩ := ht
         refine ⟨?_, by simp [Has]⟩
         rcases hb.1 with rfl | hk
         · exact .inl (Int.zero_tdiv _)
         · exact .inr hk)

theorem spz_below {cv : Conv} (hcv : KeepsZero cv) {s : Spz} {e e' : CtExpr} {k : Nat}
    (hs : s ∈ specs) (hm : s.pat.fits e = true) (ht : s.type cv e = some e') (hb : BelowC S k e) :
    BelowC S k e' := by
  simp only [specs, List.mem_append] at hs
  obtain ((hs | hs) | hs) | hs := hs
  · exact plus_below hcv hs hm ht hb
  · exact minus_below hcv hs hm ht hb
  · exact mult_below hcv hs hm ht hb
  · exact div_below hcv hs hm ht hb

theorem implAny_below {cv : Conv} (hcv : KeepsZero cv) {e e' : CtExpr} {n : Nat} (h : ImplAny cv e n e') :
    ∀ {k}, BelowC S k e → BelowC S k e' := by
  induction h with
  | const | var | fsym => exact id
  | general op h1 h2 ihl ihr =>
    intro k hb
    cases op with
    | plus => exact ⟨ihl hb.1, ihr hb.2⟩
    | minus => exact ⟨ihl hb.1, ihr hb.2⟩
    | mult => obtain ⟨m, n, hl, hr, h3⟩ := hb; exact ⟨m, n, ihl hl, ihr hr, h3⟩
    | div => exact ⟨ihl hb.1, fun i hi hh => hb.2 i hi ((implAny_has i h2).1 hh)⟩
  | special hs hm ht => exact spz_below hcv hs hm ht

theorem simplifyAny_below {cv : Conv} (hcv : KeepsZero cv) {e e' : CtExpr} (h : SimplifyAny cv e e') {k : Nat} :
    BelowC S k e → BelowC S k e' := by
  induction h with
  | stop _ => exact id
  | turn h _ ih => exact fun hb => ih (implAny_below hcv h hb)

theorem expand_below : (∀ e k, BelowC S k e → BelowC S k (expand e)) ∧
    ∀ e f m n k, BelowC S m e → BelowC S n f → (m = 0 ∨ n = 0 ∨ m + n ≤ k + 1) → BelowC S k (expandWith e f) := by
  have key := expand_induction
    (P := fun e e' => (∀ i, Has i e' → Has i e) ∧ ∀ k, BelowC S k e → BelowC S k e')
    (Q := fun e f w => (∀ i, Has i w → Has i e ∨ Has i f) ∧
      ∀ m n k, BelowC S m e → BelowC S n f → (m = 0 ∨ n = 0 ∨ m + n ≤ k + 1) → BelowC S k w)
    ?_ ?_ ?_ ?_ ?_ ?_ ?_ ?_ ?_ ?_ ?_ ?_ ?_ ?_ ?_
  · exact ⟨fun e => (key.1 e).2, fun e f => (key.2 e f).2⟩
  · exact fun _ => ⟨fun _ => id, fun _ => id⟩
  · exact fun _ => ⟨fun _ => id, fun _ => id⟩
  · exact fun _ => ⟨fun _ => id, fun _ => id⟩
  · exact fun l r l' r' h1 h2 => ⟨fun i h => h.imp (h1.1 i) (h2.1 i), fun k h => ⟨h1.2 k h.1, h2.2 k h.2⟩⟩
  · exact fun l r l' r' h1 h2 => ⟨fun i h => h.imp (h1.1 i) (h2.1 i), fun k h => ⟨h1.2 k h.1, h2.2 k h.2⟩⟩
  · exact fun l r l' r' h1 h2 => ⟨fun i h => h.imp (h1.1 i) (h2.1 i),
      fun k h => ⟨h1.2 k h.1, fun i hi hh => h.2 i hi (h2.1 i hh)⟩⟩
  · exact fun _ _ _ _ => ⟨fun _ => id, fun _ => id⟩
  · exact fun l r w _ _ h => ⟨h.1, fun k ⟨m, n, h1, h2, h3⟩ => h.2 m n k h1 h2 h3⟩
  · exact fun l r w _ _ h => ⟨fun i hh => (h.1 i hh).symm, fun k ⟨m, n, h1, h2, h3⟩ => h.2 n m k h2 h1 (by omega)⟩
  · exact fun l r w e _ _ h h' => ⟨fun i hh => h.1 i (h'.1 i hh),
      fun k ⟨m, n, h1, h2, h3⟩ => h'.2 k (h.2 m n k h1 h2 h3)⟩
  · exact fun e f _ => ⟨fun _ => id, fun m n k h1 h2 h3 => ⟨m, n, h1, h2, h3⟩⟩
  · exact fun l r f l' r' h1 h2 => ⟨fun i hh => by
      rcases hh with hh | hh
      · exact (h1.1 i hh).imp .inl id
      · exact (h2.1 i hh).imp .inr id, fun m n k ha hb hc => ⟨h1.2 m n k ha.1 hb hc, h2.2 m n k ha.2 hb hc⟩⟩
  · exact fun l r f l' r' h1 h2 => ⟨fun i hh => by
      rcases hh with hh | hh
      · exact (h1.1 i hh).imp .inl id
      · exact (h2.1 i hh).imp .inr id, fun m n k ha hb hc => ⟨h1.2 m n k ha.1 hb hc, h2.2 m n k ha.2 hb hc⟩⟩
  · exact fun l r f e w _ h h' => ⟨fun i hh => (h'.1 i hh).imp (h.1 i) id,
      fun m n k ha hb hc => h'.2 m n k (h.2 m ha) hb hc⟩
  · exact fun l r f l' _ h => ⟨fun i hh => by
      rcases hh with hh | hh
      · exact (h.1 i hh).imp .inl id
      · exact .inl (.inr hh), fun m n k ha hb hc => ⟨h.2 m n k ha.1 hb hc, ha.2⟩⟩

theorem runWith_below {cv : Conv} (hcv : KeepsZero cv) : ∀ (l : List CtStep) {e d : CtExpr} {k : Nat},
    (∀ i ∈ CtStep.byVars l, S i) → CtStep.runWith cv l e = some d → BelowC S k e →
    BelowC S (k - (CtStep.byVars l).length) d
  | [], e, d, k, _, h, hb => by cases h; exact hb
  | .diff i :: l, e, d, k, hi, h, hb => by
    simp only [CtStep.runWith, Option.bind_eq_some_iff] at h
    obtain ⟨e', h1, h2⟩ := h
    have := runWith_below hcv l (fun j hj => hi j (by simp [CtStep.byVars, hj])) h2
      (hb.diff (hi i (by simp [CtStep.byVars])) h1)
    simpa [CtStep.byVars, Nat.sub_sub, Nat.add_comm] using this
  | .simplify :: l, e, d, k, hi, h, hb => by
    simp only [CtStep.runWith, Option.bind_eq_some_iff] at h
    obtain ⟨e', h1, h2⟩ := h
    exact runWith_below hcv l hi h2 (simplifyAny_below hcv (ctSimplify_any _ le_rfl h1) hb)
  | .expand :: l, e, d, k, hi, h, hb => runWith_below hcv l hi h (expand_below.1 e k hb)

/-- A simplified expression of degree less than 0 is 0. -/
theorem BelowC.zero {e : CtExpr} (hb : BelowC S 0 e) (ht : ∀ s, Part s e → ¬ TrivialOp s) : e = ♯0 := by
  induction e with
  | const n => rcases hb with rfl | h; rfl; omega
  | var i => have := hb.1; omega
  | fsym t => simp only [BelowC] at hb; omega
  | bin l op r ihl ihr =>
    have tl := fun s hs => ht s (.left hs)
    have tr := fun s hs => ht s (.right hs)
    have t := ht _ .self
    cases op with
    | plus => exact absurd (.inl (ihl hb.1 tl)) t
    | minus => exact absurd (ihr hb.2 tr) t
    | mult =>
      obtain ⟨m, n, h1, h2, h3⟩ := hb
      have : m = 0 ∨ n = 0 := by omega
      rcases this with rfl | rfl
      · exact absurd (.inl (ihl h1 tl)) t
      · exact absurd (.inr (.inl (ihr h2 tr))) t
    | div => exact absurd (.inl (ihl hb.1 tl)) t

/-- A simplified expression of degree less than 1 has none of the variables. -/
theorem BelowC.one {e : CtExpr} (hb : BelowC S 1 e) (ht : ∀ s, Part s e → ¬ TrivialOp s) (i : Nat) (hi : S i) :
    ¬ Has i e := by
  induction e with
  | const n => exact id
  | var j => rintro rfl; have := hb.2 hi; omega
  | fsym t => exact id
  | bin l op r ihl ihr =>
    have tl := fun s hs => ht s (.left hs)
    have tr := fun s hs => ht s (.right hs)
    have t := ht _ .self
    cases op with
    | plus => exact fun h => h.elim (ihl hb.1 tl) (ihr hb.2 tr)
    | minus => exact fun h => h.elim (ihl hb.1 tl) (ihr hb.2 tr)
    | mult =>
      obtain ⟨m, n, h1, h2, h3⟩ := hb
      by_cases hm : m = 0
      · subst hm; exact absurd (.inl (h1.zero tl)) t
      by_cases hn : n = 0
      · subst hn; exact absurd (.inr (.inl (h2.zero tr))) t
      exact fun h => h.elim (ihl (h1.mono (by omega)) tl) (ihr (h2.mono (by omega)) tr)
    | div => exact fun h => h.elim (ihl hb.1 tl) (hb.2 i hi)

/-- The degree of a simplified expression. -/
theorem BelowC.degree {k : Nat} {e : CtExpr} (hb : BelowC S k e) (ht : ∀ s, Part s e → ¬ TrivialOp s) (hk : 1 ≤ k) :
    ∃ m, m < k ∧ CtDegree S m e := by
  induction e generalizing k with
  | const n => exact ⟨0, hk, .coef fun _ _ => id⟩
  | var j =>
    by_cases hj : S j
    · exact ⟨1, hb.2 hj, .var j⟩
    · exact ⟨0, hk, .coef fun i hi hh => hj (by cases hh; exact hi)⟩
  | fsym t => exact ⟨0, hk, .coef fun _ _ => id⟩
  | bin l op r ihl ihr =>
    have tl := fun s hs => ht s (.left hs)
    have tr := fun s hs => ht s (.right hs)
    have t := ht _ .self
    cases op with
    | plus =>
      obtain ⟨m, hm, h1⟩ := ihl hb.1 tl hk
      obtain ⟨n, hn, h2⟩ := ihr hb.2 tr hk
      exact ⟨_, by omega, .plus h1 h2⟩
    | minus =>
      obtain ⟨m, hm, h1⟩ := ihl hb.1 tl hk
      obtain ⟨n, hn, h2⟩ := ihr hb.2 tr hk
      exact ⟨_, by omega, .minus h1 h2⟩
    | mult =>
      obtain ⟨m, n, h1, h2, h3⟩ := hb
      by_cases hm : m = 0
      · subst hm; exact absurd (.inl (h1.zero tl)) t
      by_cases hn : n = 0
      · subst hn; exact absurd (.inr (.inl (h2.zero tr))) t
      obtain ⟨m', hm', h1'⟩ := ihl h1 tl (by omega)
      obtain ⟨n', hn', h2'⟩ := ihr h2 tr (by omega)
      exact ⟨_, by omega, .mult h1' h2'⟩
    | div =>
      obtain ⟨m, hm, h1⟩ := ihl hb.1 tl hk
      exact ⟨_, hm, .div h1 hb.2⟩

theorem runWith_append (cv : Conv) : ∀ (l l' : List CtStep) (e : CtExpr),
    CtStep.runWith cv (l ++ l') e = (CtStep.runWith cv l e).bind (CtStep.runWith cv l')
  | [], _, _ => rfl
  | .diff i :: l, l', e => by
    simp only [List.cons_append, CtStep.runWith, Option.bind_assoc]
    congr 1; funext x; exact runWith_append cv l l' x
  | .simplify :: l, l', e => by
    simp only [List.cons_append, CtStep.runWith, Option.bind_assoc]
    congr 1; funext x; exact runWith_append cv l l' x
  | .expand :: l, l', e => runWith_append cv l l' _

theorem runWith_strict : ∀ (l : List CtStep) (e : CtExpr), CtStep.runWith strict l e = CtStep.run l e
  | [], _ => rfl
  | .diff i :: l, e => by
    simp only [CtStep.runWith, CtStep.run]
    congr 1; funext x; exact runWith_strict l x
  | .simplify :: l, e => by
    simp only [CtStep.runWith, CtStep.run]
    congr 1; funext x; exact runWith_strict l x
  | .expand :: l, e => runWith_strict l _

end VM.Ct
