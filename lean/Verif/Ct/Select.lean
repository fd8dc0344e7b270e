import Verif.Ct.SimplifySound
import Mathlib.Tactic.Tauto
set_option linter.unusedSimpArgs false
set_option linter.unusedTactic false
set_option linter.unreachableTactic false
/-
Which specialisation of `simplify_impl` is selected for an operation on integers and fractions.
-/
namespace VM.Ct
open VM.Spec

/-- Compute the candidates and the most specialised one. -/
macro "select" "[" ts:Lean.Parser.Tactic.simpLemma,* "]" : tactic => `(tactic|
  simp [cands, specs, specsPlus, specsMinus, specsMult, specsDiv, pat_add, pat_sub, pat_mul, pat_div,
    Pat.fits, best, Pat.le, $ts,*])

theorem impl_plus (cv : Conv) (a b c d : Int) : simplifyImpl cv ((♯a /' ♯b) +' (♯c /' ♯d)) =
    (frac cv (cadd (cmul (some a) (some d)) (cmul (some c) (some b))) (cmul (some b) (some d))).bind
      fun e => some (1, e) := by
  unfold simplifyImpl; select []

theorem impl_minus (cv : Conv) (a b c d : Int) : simplifyImpl cv ((♯a /' ♯b) -' (♯c /' ♯d)) =
    (frac cv (csub (cmul (some a) (some d)) (cmul (some c) (some b))) (cmul (some b) (some d))).bind
      fun e => some (1, e) := by
  unfold simplifyImpl; select []

theorem impl_mult (cv : Conv) (a b c d : Int) (ha : a ≠ 1) (hc : c ≠ 1) :
    simplifyImpl cv ((♯a /' ♯b) *' (♯c /' ♯d)) =
    (frac cv (cmul (some a) (some c)) (cmul (some b) (some d))).bind fun e => some (1, e) := by
  unfold simplifyImpl; select [ha.symm, hc.symm]

theorem impl_mult_unit (cv : Conv) (a b c d : Int) (h : a = 1 ∨ c = 1) :
    simplifyImpl cv ((♯a /' ♯b) *' (♯c /' ♯d)) = none := by
  unfold simplifyImpl
  by_cases ha : a = 1
  · subst ha
    by_cases hc : c = 1
    · subst hc; select []
    · select [Ne.symm hc]
  · obtain rfl : c = 1 := by omega
    select [Ne.symm ha]

theorem impl_div (cv : Conv) (a b c d : Int) : simplifyImpl cv ((♯a /' ♯b) /' (♯c /' ♯d)) =
    (frac cv (cmul (some a) (some d)) (cmul (some b) (some c))).bind fun e => some (1, e) := by
  unfold simplifyImpl; select []

theorem impl_quot (cv : Conv) (a b : Int) (h0 : a ≠ 0) (h1 : b ≠ 0) (h2 : b ≠ 1) (h3 : b ≠ -1) :
    simplifyImpl cv (♯a /' ♯b) =
    ((gcdC cv a b).bind fun g => (ldiv a g).bind fun a' => (ldiv b g).bind fun b' =>
      some (♯a' /' ♯b')).bind fun e => some (0, e) := by
  unfold simplifyImpl; select [h0.symm, h1.symm, h2.symm, h3.symm]

theorem impl_quot_one (cv : Conv) (a : Int) : simplifyImpl cv (♯a /' ♯1) = some (1, ♯a) := by
  unfold simplifyImpl
  by_cases ha : a = 0
  · subst ha; select []
  · select [Ne.symm ha]

theorem impl_quot_neg (cv : Conv) (a : Int) (h0 : a ≠ 0) : simplifyImpl cv (♯a /' ♯(-1)) =
    ((csub (some 0) (some a)).map CtExpr.const).bind fun e => some (1, e) := by
  unfold simplifyImpl; select [h0.symm]

theorem impl_quot_zero (cv : Conv) (b : Int) (h : b ≠ -1) (h' : b ≠ 0) :
    simplifyImpl cv (♯0 /' ♯b) = some (1, ♯0) := by
  unfold simplifyImpl
  by_cases hb : b = 1
  · subst hb; select []
  · select [h.symm, Ne.symm hb, h'.symm]

theorem impl_quot_zero_neg (cv : Conv) : simplifyImpl cv (♯0 /' ♯(-1)) = none := by
  unfold simplifyImpl; select []

theorem impl_quot_by_zero (cv : Conv) (a : Int) : simplifyImpl cv (♯a /' ♯0) = none := by
  unfold simplifyImpl
  by_cases ha : a = 0
  · subst ha; select []
  · select [Ne.symm ha]

/-! ### Selection by comparison with one known candidate -/

theorem best_spec {e : CtExpr} {s : Spz} (h : best (cands e) = some s) :
    s ∈ specs ∧ s.pat.fits e = true ∧ ∀ t ∈ specs, t.pat.fits e = true → s.pat.le t.pat = true := by
  have hm := List.mem_of_find?_eq_some h
  simp only [cands, List.mem_filter] at hm
  refine ⟨hm.1, hm.2, fun t ht htf => ?_⟩
  have := List.find?_some h
  simp only [List.all_eq_true] at this
  exact this t (by simp [cands, ht, htf])

/-- If `t` matches, whatever is selected is at least as specialised as `t`. -/
theorem impl_le {cv : Conv} {l r : CtExpr} {op : COp} {m : Nat} {e' : CtExpr} {p : Pat}
    (hp : p ∈ specs.map Spz.pat) (hf : p.fits (.bin l op r) = true)
    (h : simplifyImpl cv (.bin l op r) = some (m, e')) :
    ∃ s ∈ specs.filter (fun s => s.pat.le p), s.pat.fits (.bin l op r) = true ∧
      s.type cv (.bin l op r) = some e' ∧ s.value = m := by
  obtain ⟨t, ht, rfl⟩ := List.mem_map.1 hp
  unfold simplifyImpl at h
  split at h
  · rename_i hc
    simp only [cands, List.filter_eq_nil_iff] at hc
    exact absurd hf (hc t ht)
  · simp only [Option.bind_eq_some_iff, Option.some.injEq, Prod.mk.injEq] at h
    obtain ⟨s, hs, e₁, he, rfl, rfl⟩ := h
    obtain ⟨h1, h2, h3⟩ := best_spec hs
    exact ⟨s, List.mem_filter.2 ⟨h1, h3 t ht hf⟩, h2, he, rfl⟩

open Pat in
theorem below_cf (op : COp) : ∀ s ∈ specs.filter (fun s => s.pat.le (.bin C op (C / C))),
    s.value = 1 ∧ ∀ cv e e', s.type cv e = some e' → ∃ x y, frac cv x y = some e' := by
  intro s hs
  cases op <;>
    simp [specs, specsPlus, specsMinus, specsMult, specsDiv, pat_add, pat_sub, pat_mul, pat_div, Pat.le] at hs
  all_goals
    subst hs
    refine ⟨rfl, fun cv e e' h => ?_⟩
    dsimp only at h
    split at h
    · exact ⟨_, _, h⟩
    · simp at h

open Pat in
theorem below_fc (op : COp) : ∀ s ∈ specs.filter (fun s => s.pat.le (.bin (C / C) op C)),
    s.value = 1 ∧ ∀ cv e e', s.type cv e = some e' → ∃ x y, frac cv x y = some e' := by
  intro s hs
  cases op <;>
    simp [specs, specsPlus, specsMinus, specsMult, specsDiv, pat_add, pat_sub, pat_mul, pat_div, Pat.le] at hs
  case' minus => obtain hs | hs := hs
  all_goals
    subst hs
    refine ⟨rfl, fun cv e e' h => ?_⟩
    dsimp only at h
    split at h
    · exact ⟨_, _, h⟩
    · simp at h

open Pat in
theorem below_ff (op : COp) : ∀ s ∈ specs.filter (fun s => s.pat.le (.bin (C / C) op (C / C))),
    s.value = 1 ∧ ∀ cv e e', s.type cv e = some e' → ∃ x y, frac cv x y = some e' := by
  intro s hs
  cases op <;>
    simp [specs, specsPlus, specsMinus, specsMult, specsDiv, pat_add, pat_sub, pat_mul, pat_div, Pat.le] at hs
  all_goals
    subst hs
    refine ⟨rfl, fun cv e e' h => ?_⟩
    dsimp only at h
    split at h
    · exact ⟨_, _, h⟩
    · simp at h

open Pat in
theorem below_cc (op : COp) (hop : op ≠ .div) : ∀ s ∈ specs.filter (fun s => s.pat.le (.bin C op C)),
    s.value = 1 ∧ ∀ cv e e', s.pat.fits e = true → s.type cv e = some e' → ∃ k, e' = ♯k := by
  intro s hs
  have hs' := (List.mem_filter.1 hs).2
  have hs := (List.mem_filter.1 hs).1
  simp only [specs, List.mem_append] at hs
  obtain ((hs | hs) | hs) | hs := hs
  all_goals
    simp only [specsPlus, specsMinus, specsMult, specsDiv, List.mem_cons, List.not_mem_nil, or_false] at hs
    casesm* _ ∨ _
  all_goals
    subst hs
    cases op <;> simp [pat_add, pat_sub, pat_mul, pat_div, Pat.le] at hs' hop
  all_goals
    refine ⟨rfl, fun cv e e' hm h => ?_⟩
    simp only [pat_add, pat_sub, pat_mul, pat_div, fits_bin, fits_any, fits_anyC, fits_lit, and_true,
      true_and, exists_eq_right, exists_eq_right', exists_and_left, exists_and_right] at hm
    try (casesm* _ ∧ _, Exists _)
    subst_vars
    simp only [Option.some.injEq, Option.map_eq_some_iff, reduceCtorEq] at h
    first
      | exact ⟨_, h.symm⟩
      | (obtain ⟨k, -, hk⟩ := h; exact ⟨k, hk.symm⟩)

/-- An integer constant or a quotient of two integer constants. -/
inductive Simple : CtExpr → Prop
  | int (n : Int) : Simple ♯n
  | quot (n d : Int) : Simple (♯n /' ♯d)

/-- An operation on integers and fractions that is not the quotient of two integers: the selected
specialisation computes an integer or goes through the rational end. -/
theorem impl_simple {cv : Conv} {l r : CtExpr} {op : COp} {m : Nat} {e' : CtExpr} (hl : Simple l)
    (hr : Simple r) (hop : op = .div → ¬ ((∃ a, l = ♯a) ∧ ∃ b, r = ♯b))
    (h : simplifyImpl cv (.bin l op r) = some (m, e')) :
    m = 1 ∧ ((∃ k, e' = ♯k) ∨ ∃ x y, frac cv x y = some e') := by
  cases hl with
  | int a =>
    cases hr with
    | int b =>
      have hd : op ≠ .div := fun hd => hop hd ⟨⟨a, rfl⟩, b, rfl⟩
      obtain ⟨s, hs, hf, ht, rfl⟩ := impl_le (p := .bin .anyC op .anyC)
        (by cases op <;> first | decide +kernel | exact absurd rfl hd) (by simp [Pat.fits]) h
      obtain ⟨h1, h2⟩ := below_cc op hd s hs
      exact ⟨h1, .inl (h2 _ _ _ hf ht)⟩
    | quot n d =>
      obtain ⟨s, hs, hf, ht, rfl⟩ := impl_le (p := .bin .anyC op (.bin .anyC .div .anyC))
        (by cases op <;> decide +kernel) (by simp [Pat.fits]) h
      obtain ⟨h1, h2⟩ := below_cf op s hs
      exact ⟨h1, .inr (h2 _ _ _ ht)⟩
  | quot n d =>
    cases hr with
    | int b =>
      obtain ⟨s, hs, hf, ht, rfl⟩ := impl_le (p := .bin (.bin .anyC .div .anyC) op .anyC)
        (by cases op <;> decide +kernel) (by simp [Pat.fits]) h
      obtain ⟨h1, h2⟩ := below_fc op s hs
      exact ⟨h1, .inr (h2 _ _ _ ht)⟩
    | quot n' d' =>
      obtain ⟨s, hs, hf, ht, rfl⟩ := impl_le (p := .bin (.bin .anyC .div .anyC) op (.bin .anyC .div .anyC))
        (by cases op <;> decide +kernel) (by simp [Pat.fits]) h
      obtain ⟨h1, h2⟩ := below_ff op s hs
      exact ⟨h1, .inr (h2 _ _ _ ht)⟩

theorem ctSimplify_const (cv : Conv) (n : Int) : ctSimplify cv ♯n = some ♯n := by
  rw [ctSimplify_eq]; rfl

/-- A quotient of two integers stays as it is, unless it is an integer at first sight. -/
theorem ctSimplify_quot {cv : Conv} {a b : Int} {e' : CtExpr} (h : ctSimplify cv (♯a /' ♯b) = some e') :
    (∃ k, e' = ♯k) ∨ e' = ♯a /' ♯b := by
  rw [ctSimplify_eq] at h
  by_cases hb0 : b = 0
  · subst hb0; rw [impl_quot_by_zero] at h; simp at h
  by_cases hb1 : b = 1
  · subst hb1; rw [impl_quot_one] at h; simp [ctSimplify_const] at h; exact .inl ⟨_, h.symm⟩
  by_cases ha : a = 0
  · subst ha
    by_cases hb : b = -1
    · subst hb; rw [impl_quot_zero_neg] at h; simp at h
    · rw [impl_quot_zero cv b hb hb0] at h; simp [ctSimplify_const] at h; exact .inl ⟨_, h.symm⟩
  by_cases hb : b = -1
  · subst hb; rw [impl_quot_neg cv a ha] at h
    simp only [Option.bind_eq_some_iff, Option.map_eq_some_iff, Option.some.injEq] at h
    obtain ⟨p, ⟨e, ⟨k, -, rfl⟩, rfl⟩, h⟩ := h
    simp [ctSimplify_const] at h
    exact .inl ⟨_, h.symm⟩
  · rw [impl_quot cv a b ha hb0 hb1 hb] at h
    simp only [Option.bind_eq_some_iff, Option.some.injEq] at h
    obtain ⟨p, ⟨e, -, rfl⟩, h⟩ := h
    simp at h
    exact .inr h.symm

theorem ctSimplify_simple {cv : Conv} {l r e' : CtExpr} {op : COp} (hl : Simple l) (hr : Simple r)
    (h : ctSimplify cv (.bin l op r) = some e') :
    (∃ k, e' = ♯k) ∨ (∃ x y, frac cv x y = some e') ∨
      (op = .div ∧ ∃ a b, l = ♯a ∧ r = ♯b ∧ e' = ♯a /' ♯b) := by
  by_cases hop : op = .div ∧ (∃ a, l = ♯a) ∧ ∃ b, r = ♯b
  · obtain ⟨rfl, ⟨a, rfl⟩, b, rfl⟩ := hop
    rcases ctSimplify_quot h with h | h
    · exact .inl h
    · exact .inr (.inr ⟨rfl, a, b, rfl, rfl, h⟩)
  · rw [ctSimplify_eq] at h
    simp only [Option.bind_eq_some_iff] at h
    obtain ⟨⟨m, e₁⟩, h1, h2⟩ := h
    obtain ⟨rfl, h3⟩ := impl_simple hl hr (fun h => by tauto) h1
    simp only [one_ne_zero, if_false] at h2
    rcases h3 with ⟨k, rfl⟩ | ⟨x, y, hxy⟩
    · rw [ctSimplify_const] at h2; exact .inl ⟨k, by simpa using h2.symm⟩
    · obtain ⟨_, _, _, _, _, n', d', _, _, _, _, _, _, _, rfl⟩ := frac_some.1 hxy
      rcases ctSimplify_quot h2 with h | h
      · exact .inl h
      · subst h; exact .inr (.inl ⟨x, y, hxy⟩)

end VM.Ct
