import Verif.Ct.Select
import Verif.Ct.OccurLemmas
import Verif.Spec.CtNormal
/-
The end of the loop of compile-time simplify: no specialisation with `value = 1` matches anywhere.
-/
namespace VM.Ct
open VM.Spec

/-- Nothing but the quotient of two integers is left unchanged by a specialisation. -/
theorem spec_value {s : Spz} (hs : s ∈ specs) (h : s.value = 0) : s.pat = .bin .anyC .div .anyC := by
  revert s
  simp only [specs, specsPlus, specsMinus, specsMult, specsDiv, List.cons_append, List.nil_append,
    List.forall_mem_cons]
  simp [Pat.C, HDiv.hDiv, Div.div]

/-- The specialisations for a division by zero are compile errors. -/
theorem spec_zero {s : Spz} (hs : s ∈ specs) (h : s.pat.le (.bin .any .div (.lit 0)) = true) (cv : Conv) (e : CtExpr) :
    s.type cv e = none := by
  revert s
  simp only [specs, specsPlus, specsMinus, specsMult, specsDiv, List.cons_append, List.nil_append,
    List.forall_mem_cons]
  simp [pat_sub, pat_div, Pat.le]

theorem impl_zero_divisor (cv : Conv) (l : CtExpr) : simplifyImpl cv (l /' ♯0) = none := by
  have hm : ∃ t ∈ cands (l /' ♯0), t.pat = .bin .any .div (.lit 0) := by
    refine ⟨⟨.bin .any .div (.lit 0), 1, fun _ _ => none⟩, List.mem_filter.2 ⟨?_, by simp [Pat.fits]⟩, rfl⟩
    simp [specs, specsDiv, pat_div]
  obtain ⟨t, ht, hpat⟩ := hm
  unfold simplifyImpl
  rw [if_neg (List.ne_nil_of_mem ht)]
  cases hb : best (cands (l /' ♯0)) with
  | none => rfl
  | some s =>
    have hs := (List.mem_filter.1 (List.mem_of_find?_eq_some hb)).1
    have hle := List.find?_some hb
    rw [List.all_eq_true] at hle
    have := hle t ht
    rw [hpat] at this
    simp [spec_zero hs this]

theorem impl_zero_bin {cv : Conv} {l r e' : CtExpr} {op : COp}
    (h : simplifyImpl cv (.bin l op r) = some (0, e')) :
    (cands (.bin l op r) = [] ∧ (∃ l', simplifyImpl cv l = some (0, l')) ∧ ∃ r', simplifyImpl cv r = some (0, r')) ∨
    (op = .div ∧ (∃ a, l = ♯a) ∧ (∃ b, r = ♯b) ∧
      ∀ t ∈ cands (.bin l op r), Pat.le (.bin .anyC .div .anyC) t.pat = true) := by
  unfold simplifyImpl at h
  split at h
  · rename_i hc
    left
    simp only [Option.bind_eq_some_iff, Option.some.injEq, Prod.mk.injEq] at h
    obtain ⟨p, hp, q, hq, h0, -⟩ := h
    obtain ⟨n, l'⟩ := p
    obtain ⟨m, r'⟩ := q
    have h1 : n = 0 := by simp only at h0; omega
    have h2 : m = 0 := by simp only at h0; omega
    subst h1 h2
    exact ⟨hc, ⟨l', hp⟩, r', hq⟩
  · right
    simp only [Option.bind_eq_some_iff, Option.some.injEq, Prod.mk.injEq] at h
    obtain ⟨s, hs, _, -, h0, -⟩ := h
    have hm := List.mem_of_find?_eq_some hs
    have hle := List.find?_some hs
    rw [List.all_eq_true] at hle
    have hf := List.mem_filter.1 hm
    have hp := spec_value hf.1 h0
    have hfit := hf.2
    rw [hp] at hfit hle
    refine ⟨?_, ?_, ?_, hle⟩
    · cases op <;> simp [Pat.fits] at hfit ⊢
    · cases l <;> simp [Pat.fits] at hfit ⊢
    · cases r <;> simp [Pat.fits] at hfit ⊢

/-- At the end no part matches a specialisation, except quotients of integers. -/
theorem impl_zero_part {cv : Conv} {e e' : CtExpr} (h : simplifyImpl cv e = some (0, e'))
    {l r : CtExpr} {op : COp} (hp : Part (.bin l op r) e) :
    cands (.bin l op r) = [] ∨ (op = .div ∧ (∃ a, l = ♯a) ∧ (∃ b, r = ♯b) ∧
      ∀ t ∈ cands (.bin l op r), Pat.le (.bin .anyC .div .anyC) t.pat = true) := by
  induction e generalizing e' with
  | const n => cases hp
  | var n => cases hp
  | fsym n => cases hp
  | bin a o b iha ihb =>
    rcases impl_zero_bin h with ⟨hc, ⟨_, ha⟩, ⟨_, hb⟩⟩ | ⟨rfl, ⟨x, rfl⟩, ⟨y, rfl⟩, hle⟩
    · cases hp with
      | self => exact .inl hc
      | left hp => exact iha ha hp
      | right hp => exact ihb hb hp
    · cases hp with
      | self => exact .inr ⟨rfl, ⟨x, rfl⟩, ⟨y, rfl⟩, hle⟩
      | left hp => cases hp
      | right hp => cases hp

theorem no_spec {e : CtExpr} (h : cands e = []) {p : Pat} (hp : p ∈ specs.map (·.pat)) : p.fits e = false := by
  obtain ⟨s, hs, rfl⟩ := List.mem_map.1 hp
  have := List.filter_eq_nil_iff.1 h s hs
  simpa using this

theorem only_spec {e : CtExpr} {q : Pat} (h : ∀ t ∈ cands e, Pat.le q t.pat = true) {p : Pat}
    (hp : p ∈ specs.map (·.pat)) (hq : Pat.le q p = false) : p.fits e = false := by
  obtain ⟨s, hs, rfl⟩ := List.mem_map.1 hp
  cases hf : s.pat.fits e with
  | false => rfl
  | true => rw [h s (List.mem_filter.2 ⟨hs, hf⟩)] at hq; cases hq

theorem part_trivial {cv : Conv} {e e' s : CtExpr} (h : simplifyImpl cv e = some (0, e')) (hp : Part s e) :
    ¬ TrivialOp s := by
  cases s with
  | const n => simp [TrivialOp]
  | var n => simp [TrivialOp]
  | fsym n => simp [TrivialOp]
  | bin l op r =>
    rcases impl_zero_part h hp with hc | ⟨rfl, ⟨a, rfl⟩, ⟨b, rfl⟩, hle⟩
    · have key := fun p hp => no_spec hc (p := p) hp
      intro ht
      cases op <;> simp only [TrivialOp] at ht
      · rcases ht with rfl | rfl
        · have := key (.bin (.lit 0) .plus .any) (by decide); simp [Pat.fits] at this
        · have := key (.bin .any .plus (.lit 0)) (by decide); simp [Pat.fits] at this
      · subst ht
        have := key (.bin .any .minus (.lit 0)) (by decide); simp [Pat.fits] at this
      · rcases ht with rfl | rfl | rfl | rfl
        · have := key (.bin (.lit 0) .mult .any) (by decide); simp [Pat.fits] at this
        · have := key (.bin .any .mult (.lit 0)) (by decide); simp [Pat.fits] at this
        · have := key (.bin (.lit 1) .mult .any) (by decide); simp [Pat.fits] at this
        · have := key (.bin .any .mult (.lit 1)) (by decide); simp [Pat.fits] at this
      · rcases ht with rfl | rfl | rfl
        · have := key (.bin (.lit 0) .div .any) (by decide); simp [Pat.fits] at this
        · have := key (.bin .any .div (.lit 0)) (by decide); simp [Pat.fits] at this
        · have := key (.bin .any .div (.lit 1)) (by decide); simp [Pat.fits] at this
    · have key := fun p hp hq => only_spec hle (p := p) hp hq
      intro ht
      simp only [TrivialOp, CtExpr.const.injEq] at ht
      rcases ht with rfl | rfl | rfl
      · have := key (.bin (.lit 0) .div .any) (by decide) rfl; simp [Pat.fits] at this
      · have := key (.bin .any .div (.lit 0)) (by decide) rfl; simp [Pat.fits] at this
      · have := key (.bin .any .div (.lit 1)) (by decide) rfl; simp [Pat.fits] at this

theorem number_cases {e : CtExpr} (h : Number e) : (∃ a, e = ♯a) ∨ ∃ a b, e = ♯a /' ♯b := by
  unfold Number at h
  split at h
  · exact .inl ⟨_, rfl⟩
  · exact .inr ⟨_, _, rfl⟩
  · cases h

theorem part_numeric {cv : Conv} {e e' s : CtExpr} (h : simplifyImpl cv e = some (0, e')) (hp : Part s e) :
    ¬ NumericOp s := by
  cases s with
  | const n => simp [NumericOp]
  | var n => simp [NumericOp]
  | fsym n => simp [NumericOp]
  | bin l op r =>
    rintro ⟨hl, hr, hd⟩
    rcases impl_zero_part h hp with hc | ⟨rfl, ha, hb, -⟩
    · have key := fun p hp => no_spec hc (p := p) hp
      rcases number_cases hl with ⟨a, rfl⟩ | ⟨a, b, rfl⟩ <;> rcases number_cases hr with ⟨c, rfl⟩ | ⟨c, d, rfl⟩
      · have := key (.bin .anyC op .anyC) (by cases op <;> decide)
        simp [Pat.fits] at this
      · have := key (.bin .anyC op (.bin .anyC .div .anyC)) (by cases op <;> decide)
        simp [Pat.fits] at this
      · have := key (.bin (.bin .anyC .div .anyC) op .anyC) (by cases op <;> decide)
        simp [Pat.fits] at this
      · have := key (.bin (.bin .anyC .div .anyC) op (.bin .anyC .div .anyC)) (by cases op <;> decide)
        simp [Pat.fits] at this
    · exact hd ⟨rfl, ha, hb⟩

/-- The loop ends with an expression that `simplify_impl` leaves alone. -/
theorem ctSimplify_zero {cv : Conv} {e e' : CtExpr} (h : ctSimplify cv e = some e') :
    ∃ e'', simplifyImpl cv e' = some (0, e'') := by
  have key : ∀ k e, simplifyN cv k e = some e' → ∃ e'', simplifyImpl cv e' = some (0, e'') := by
    intro k
    induction k with
    | zero => intro e h; simp [simplifyN] at h
    | succ k ih =>
      intro e h
      simp only [simplifyN, Option.bind_eq_some_iff] at h
      obtain ⟨⟨n, e''⟩, hi, h⟩ := h
      simp only at h
      split at h
      · rename_i h0; subst h0; cases h; exact ⟨e'', hi⟩
      · exact ih _ h
  exact key _ _ h

theorem numeric_number {e : CtExpr} (hn : Numeric e) (h : ∀ s, Part s e → ¬ NumericOp s) : Number e := by
  induction e with
  | const n => trivial
  | var i => cases hn
  | fsym i => cases hn
  | bin l op r ihl ihr =>
    have hl := ihl hn.1 (fun s hs => h s (.left hs))
    have hr := ihr hn.2 (fun s hs => h s (.right hs))
    by_cases hd : op = .div ∧ (∃ a, l = ♯a) ∧ ∃ b, r = ♯b
    · obtain ⟨rfl, ⟨a, rfl⟩, ⟨b, rfl⟩⟩ := hd; trivial
    · exact absurd ⟨hl, hr, hd⟩ (h _ .self)

theorem frac_numeric {cv : Conv} {x y : CExp} {e : CtExpr} (h : frac cv x y = some e) : Numeric e := by
  obtain ⟨_, _, _, _, _, _, _, _, _, _, _, _, _, _, rfl⟩ := frac_some.1 h
  simp [Numeric]

theorem spz_numeric {cv : Conv} {s : Spz} {e e' : CtExpr}
    (hs : s ∈ specs) (hm : s.pat.fits e = true) :
    s.type cv e = some e' → Numeric e → Numeric e' := by
  simp only [specs, List.mem_append] at hs
  obtain ((hs | hs) | hs) | hs := hs
  all_goals revert hm; revert hs
  all_goals intro _ _
  all_goals per_rule
  all_goals
    intro ht
    dsimp only at ht
    first
      | (simp at ht; done)
      | (have := frac_numeric ht; tauto)
      | (simp only [Option.some.injEq, Option.map_eq_some_iff, Option.bind_eq_some_iff] at ht
         try (casesm* _ ∧ _, Exists _)
         subst_vars
         simp only [Numeric]
         tauto)

theorem implAny_numeric {cv : Conv} {e e' : CtExpr} {n : Nat} (h : ImplAny cv e n e') : Numeric e → Numeric e' := by
  induction h with
  | const | var | fsym => exact id
  | general op _ _ ihl ihr => exact fun h => ⟨ihl h.1, ihr h.2⟩
  | special hs hm ht => exact spz_numeric hs hm ht

theorem simplifyAny_numeric {cv : Conv} {e e' : CtExpr} (h : SimplifyAny cv e e') : Numeric e → Numeric e' := by
  induction h with
  | stop _ => exact id
  | turn h _ ih => exact fun hn => ih (implAny_numeric h hn)

end VM.Ct
