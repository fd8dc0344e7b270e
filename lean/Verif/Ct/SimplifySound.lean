import Verif.Ct.SimplifyLemmas
import Mathlib.Tactic.CasesM
namespace VM.Ct
open VM.Spec

theorem pat_add (p q : Pat) : p + q = .bin p .plus q := rfl
theorem pat_sub (p q : Pat) : p - q = .bin p .minus q := rfl
theorem pat_mul (p q : Pat) : p * q = .bin p .mult q := rfl
theorem pat_div (p q : Pat) : p / q = .bin p .div q := rfl

theorem fits_any (e : CtExpr) : Pat.any.fits e = true ↔ True := by simp [Pat.fits]
theorem fits_anyC (e : CtExpr) : Pat.anyC.fits e = true ↔ ∃ n, e = .const n := by
  cases e <;> simp [Pat.fits]
theorem fits_lit (v : Int) (e : CtExpr) : (Pat.lit v).fits e = true ↔ e = .const v := by
  cases e <;> simp [Pat.fits, eq_comm]
theorem fits_bin (p q : Pat) (o : COp) (e : CtExpr) : (Pat.bin p o q).fits e = true ↔
    ∃ l r, e = .bin l o r ∧ p.fits l = true ∧ q.fits r = true := by
  cases e with
  | bin l o' r =>
    simp only [Pat.fits, Bool.and_eq_true, decide_eq_true_eq, CtExpr.bin.injEq]
    constructor
    · rintro ⟨⟨rfl, h1⟩, h2⟩; exact ⟨_, _, ⟨rfl, rfl, rfl⟩, h1, h2⟩
    · rintro ⟨_, _, ⟨rfl, rfl, rfl⟩, h1, h2⟩; exact ⟨⟨rfl, h1⟩, h2⟩
  | _ => simp [Pat.fits]

/-- Split membership in a list of specialisations and the match into one goal per specialisation with the
argument in the shape of the pattern. -/
macro "per_rule" : tactic => `(tactic| (
  rename_i hs hm
  simp only [specsPlus, specsMinus, specsMult, specsDiv, List.mem_cons, List.not_mem_nil, or_false] at hs
  casesm* _ ∨ _
  all_goals subst hs
  all_goals simp only [pat_add, pat_sub, pat_mul, pat_div, fits_bin, fits_any, fits_anyC, fits_lit, and_true,
    true_and, exists_eq_right, exists_eq_right', exists_and_left, exists_and_right] at hm
  all_goals casesm* _ ∧ _, Exists _
  all_goals subst_vars))

section sound
variable {F : Type*} [Field F] [CharZero F]

theorem frac_val {cv : Conv} (hcv : cv.Exact) {x y : CExp} {e : CtExpr} (hf : frac cv x y = some e)
    (v φ : Nat → F) : ∃ n d : Int, x = some n ∧ y = some d ∧
      ((d : F) ≠ 0 → CVal v φ e ((n : F) / d)) := by
  obtain ⟨n, d, n', d', g, h1, h2, rfl, hg, rfl, rfl, -⟩ := frac_exact hcv hf
  refine ⟨_, _, h1, h2, fun hd => ?_⟩
  have hg' : (g : F) ≠ 0 := Int.cast_ne_zero.2 hg
  push_cast at hd ⊢
  have hd' : (d' : F) ≠ 0 := left_ne_zero_of_mul hd
  refine ⟨by simpa [CDefined, cval] using hd', ?_⟩
  simp only [cval]
  rw [mul_div_mul_right _ _ hg']

theorem frac_sound {cv : Conv} (hcv : cv.Exact) {x y : CExp} {e : CtExpr} (hf : frac cv x y = some e)
    {v φ : Nat → F} {z : F}
    (h : ∀ n d : Int, x = some n → y = some d → (d : F) ≠ 0 ∧ (n : F) / d = z) : CVal v φ e z := by
  obtain ⟨n, d, hn, hd, hv⟩ := frac_val hcv hf v φ
  obtain ⟨h1, h2⟩ := h n d hn hd
  rw [← h2]; exact hv h1

/-- Close the goal of a specialisation that builds no fraction. -/
macro "plain" : tactic => `(tactic| (
  intro ht hx
  obtain ⟨hd, rfl⟩ := hx
  simp only [Option.some.injEq, Option.map_eq_some_iff, cadd_some, csub_some, cmul_some, reduceCtorEq] at ht
  try (casesm* _ ∧ _, Exists _)
  subst_vars
  refine ⟨?_, ?_⟩
  · simp_all [CDefined, cval]
  · simp only [CDefined, cval, ne_eq] at *
    try push_cast
    try (casesm* _ ∧ _)
    first | done | ring | (field_simp; done) | (field_simp; ring)))

/-- Close the goal of a rational specialisation. -/
macro "rational" : tactic => `(tactic| (
  intro ht hx
  dsimp only at ht
  obtain ⟨hdef, rfl⟩ := hx
  refine frac_sound (by assumption) ht ?_
  clear ht
  intro n d hn hd
  simp only [cadd_eq, csub_eq, cmul_eq, Option.some.injEq] at hn hd
  simp only [CDefined, cval, ne_eq, true_and] at *
  casesm* _ ∧ _, Exists _
  subst_vars
  push_cast
  constructor
  · simp_all
  · first | (field_simp; done) | (field_simp; ring) | simp))

theorem plus_sound {cv : Conv} (hcv : cv.Exact) {s : Spz} {e e' : CtExpr} {v φ : Nat → F} {x : F} :
    s ∈ specsPlus → s.pat.fits e = true → s.type cv e = some e' → CVal v φ e x → CVal v φ e' x := by
  intro _ _
  per_rule
  all_goals first | plain | rational

theorem minus_sound {cv : Conv} (hcv : cv.Exact) {s : Spz} {e e' : CtExpr} {v φ : Nat → F} {x : F} :
    s ∈ specsMinus → s.pat.fits e = true → s.type cv e = some e' → CVal v φ e x → CVal v φ e' x := by
  intro _ _
  per_rule
  all_goals first | plain | rational

theorem mult_sound {cv : Conv} (hcv : cv.Exact) {s : Spz} {e e' : CtExpr} {v φ : Nat → F} {x : F} :
    s ∈ specsMult → s.pat.fits e = true → s.type cv e = some e' → CVal v φ e x → CVal v φ e' x := by
  intro _ _
  per_rule
  all_goals first | plain | rational

theorem div_sound {cv : Conv} (hcv : cv.Exact) {s : Spz} {e e' : CtExpr} {v φ : Nat → F} {x : F} :
    s ∈ specsDiv → s.pat.fits e = true → s.type cv e = some e' → CVal v φ e x → CVal v φ e' x := by
  intro _ _
  per_rule
  all_goals first | plain | rational | (intro ht; simp at ht; done) | skip
  rename_i a b
  intro ht hx
  simp only [Option.bind_eq_some_iff, ldiv_some, Option.some.injEq] at ht
  obtain ⟨g, hg, a', ⟨hg0, -, rfl⟩, b', ⟨-, -, rfl⟩, rfl⟩ := ht
  obtain ⟨⟨p, hp⟩, q, hq⟩ := gcdC_dvd hcv hg
  obtain ⟨hdef, rfl⟩ := hx
  rw [hp, hq, Int.mul_tdiv_cancel_left _ hg0, Int.mul_tdiv_cancel_left _ hg0]
  have hg' : (g : F) ≠ 0 := Int.cast_ne_zero.2 hg0
  simp only [CVal, CDefined, cval, hq, Int.cast_mul, true_and] at hdef ⊢
  exact ⟨right_ne_zero_of_mul hdef, (mul_div_mul_left _ _ hg').symm⟩

theorem spz_sound {cv : Conv} (hcv : cv.Exact) {s : Spz} {e e' : CtExpr} {v φ : Nat → F} {x : F}
    (hs : s ∈ specs) (hm : s.pat.fits e = true) (ht : s.type cv e = some e') (hx : CVal v φ e x) :
    CVal v φ e' x := by
  simp only [specs, List.mem_append] at hs
  obtain ((hs | hs) | hs) | hs := hs
  · exact plus_sound hcv hs hm ht hx
  · exact minus_sound hcv hs hm ht hx
  · exact mult_sound hcv hs hm ht hx
  · exact div_sound hcv hs hm ht hx

omit [CharZero F] in
theorem cval_bin {v φ : Nat → F} {l r l' r' : CtExpr} {op : COp} {x : F}
    (hl : ∀ y, CVal v φ l y → CVal v φ l' y) (hr : ∀ y, CVal v φ r y → CVal v φ r' y)
    (h : CVal v φ (.bin l op r) x) : CVal v φ (.bin l' op r') x := by
  obtain ⟨hd, rfl⟩ := h
  cases op <;> simp only [CDefined] at hd
  all_goals
    obtain ⟨h1, h1'⟩ := hl _ ⟨hd.1, rfl⟩
  · obtain ⟨h2, h2'⟩ := hr _ ⟨hd.2, rfl⟩
    simp_all [CVal, CDefined, cval]
  · obtain ⟨h2, h2'⟩ := hr _ ⟨hd.2, rfl⟩
    simp_all [CVal, CDefined, cval]
  · obtain ⟨h2, h2'⟩ := hr _ ⟨hd.2, rfl⟩
    simp_all [CVal, CDefined, cval]
  · obtain ⟨h2, h2'⟩ := hr _ ⟨hd.2.1, rfl⟩
    simp_all [CVal, CDefined, cval]

theorem implAny_sound {cv : Conv} (hcv : cv.Exact) {e e' : CtExpr} {n : Nat} (h : ImplAny cv e n e')
    {v φ : Nat → F} {x : F} : CVal v φ e x → CVal v φ e' x := by
  induction h generalizing x with
  | const | var | fsym => exact id
  | general op _ _ ihl ihr => exact cval_bin (fun _ => ihl) (fun _ => ihr)
  | special hs hm ht => exact spz_sound hcv hs hm ht

theorem simplifyAny_sound {cv : Conv} (hcv : cv.Exact) {e e' : CtExpr} (h : SimplifyAny cv e e')
    {v φ : Nat → F} {x : F} : CVal v φ e x → CVal v φ e' x := by
  induction h with
  | stop _ => exact id
  | turn h _ ih => exact fun hx => ih (implAny_sound hcv h hx)

end sound

/-! ### The weight -/

theorem frac_weight {cv : Conv} {x y : CExp} {e : CtExpr} (h : frac cv x y = some e) : weight e = 3 := by
  obtain ⟨_, _, _, _, _, _, _, _, _, _, _, _, _, _, rfl⟩ := frac_some.1 h
  simp [weight]

theorem weight_pos (e : CtExpr) : 0 < weight e := by
  cases e with
  | bin l op r => cases op <;> simp [weight]
  | _ => simp [weight]

/-- One goal of the weight lemma. -/
macro "lighter" : tactic => `(tactic| (
  intro ht
  dsimp only at ht
  first
    | (simp at ht; done)
    | (have := frac_weight ht; simp [weight]; omega)
    | (simp only [Option.some.injEq, Option.map_eq_some_iff, Option.bind_eq_some_iff] at ht
       try (casesm* _ ∧ _, Exists _)
       subst_vars
       simp only [weight]
       first | done | omega | (rename_i w _; have := weight_pos w; omega) | (rename_i w; have := weight_pos w; omega))))

theorem plus_weight {cv : Conv} {s : Spz} {e e' : CtExpr} :
    s ∈ specsPlus → s.pat.fits e = true → s.type cv e = some e' → weight e' + s.value ≤ weight e := by
  intro _ _
  per_rule
  all_goals lighter

theorem minus_weight {cv : Conv} {s : Spz} {e e' : CtExpr} :
    s ∈ specsMinus → s.pat.fits e = true → s.type cv e = some e' → weight e' + s.value ≤ weight e := by
  intro _ _
  per_rule
  all_goals lighter

theorem mult_weight {cv : Conv} {s : Spz} {e e' : CtExpr} :
    s ∈ specsMult → s.pat.fits e = true → s.type cv e = some e' → weight e' + s.value ≤ weight e := by
  intro _ _
  per_rule
  all_goals lighter

theorem div_weight {cv : Conv} {s : Spz} {e e' : CtExpr} :
    s ∈ specsDiv → s.pat.fits e = true → s.type cv e = some e' → weight e' + s.value ≤ weight e := by
  intro _ _
  per_rule
  all_goals lighter

theorem spz_weight {cv : Conv} {s : Spz} {e e' : CtExpr}
    (hs : s ∈ specs) (hm : s.pat.fits e = true) (ht : s.type cv e = some e') :
    weight e' + s.value ≤ weight e := by
  simp only [specs, List.mem_append] at hs
  obtain ((hs | hs) | hs) | hs := hs
  · exact plus_weight hs hm ht
  · exact minus_weight hs hm ht
  · exact mult_weight hs hm ht
  · exact div_weight hs hm ht

theorem implAny_weight {cv : Conv} {e e' : CtExpr} {n : Nat} (h : ImplAny cv e n e') :
    weight e' + n ≤ weight e := by
  induction h with
  | const | var | fsym => simp
  | general op _ _ ihl ihr => cases op <;> simp only [weight] <;> omega
  | special hs hm ht => exact spz_weight hs hm ht

/-! ### The function is one of the choices -/

theorem simplifyImpl_any {cv : Conv} {e e' : CtExpr} {n : Nat} (h : simplifyImpl cv e = some (n, e')) :
    ImplAny cv e n e' := by
  induction e generalizing n e' with
  | const m => simp [simplifyImpl] at h; obtain ⟨rfl, rfl⟩ := h; exact .const m
  | var m => simp [simplifyImpl] at h; obtain ⟨rfl, rfl⟩ := h; exact .var m
  | fsym m => simp [simplifyImpl] at h; obtain ⟨rfl, rfl⟩ := h; exact .fsym m
  | bin l op r ihl ihr =>
    unfold simplifyImpl at h
    split at h
    · simp only [Option.bind_eq_some_iff, Option.some.injEq, Prod.mk.injEq] at h
      obtain ⟨p, hp, q, hq, rfl, rfl⟩ := h
      exact .general op (ihl hp) (ihr hq)
    · simp only [Option.bind_eq_some_iff, Option.some.injEq, Prod.mk.injEq] at h
      obtain ⟨s, hs, e₁, he, rfl, rfl⟩ := h
      have := List.mem_of_find?_eq_some hs
      simp only [cands, List.mem_filter] at this
      exact .special this.1 this.2 he

theorem simplifyImpl_weight {cv : Conv} {e e' : CtExpr} {n : Nat} (h : simplifyImpl cv e = some (n, e')) :
    weight e' + n ≤ weight e := implAny_weight (simplifyImpl_any h)

theorem simplifyN_fuel (cv : Conv) : ∀ (k m : Nat) (e : CtExpr), weight e ≤ k → weight e ≤ m →
    simplifyN cv k e = simplifyN cv m e := by
  intro k
  induction k with
  | zero => intro m e h; have := weight_pos e; omega
  | succ k ih =>
    intro m e hk hm
    obtain ⟨m, rfl⟩ : ∃ m', m = m' + 1 := ⟨m - 1, by have := weight_pos e; omega⟩
    unfold simplifyN
    cases h : simplifyImpl cv e with
    | none => rfl
    | some p =>
      obtain ⟨n, e'⟩ := p
      have := simplifyImpl_weight h
      simp only [Option.bind_some]
      split
      · rfl
      · exact ih m e' (by omega) (by omega)

/-- The loop of `simplify`: the bound in `ctSimplify` is never reached. -/
theorem ctSimplify_eq (cv : Conv) (e : CtExpr) : ctSimplify cv e =
    (simplifyImpl cv e).bind fun p => if p.1 = 0 then some e else ctSimplify cv p.2 := by
  unfold ctSimplify
  obtain ⟨k, hk⟩ : ∃ k, weight e = k + 1 := ⟨weight e - 1, by have := weight_pos e; omega⟩
  rw [hk]
  conv_lhs => unfold simplifyN
  cases h : simplifyImpl cv e with
  | none => rfl
  | some p =>
    obtain ⟨n, e'⟩ := p
    have := simplifyImpl_weight h
    simp only [Option.bind_some]
    split
    · rfl
    · exact simplifyN_fuel cv _ _ _ (by omega) le_rfl

theorem ctSimplify_any {cv : Conv} : ∀ (k : Nat) {e e' : CtExpr}, weight e ≤ k →
    ctSimplify cv e = some e' → SimplifyAny cv e e' := by
  intro k
  induction k with
  | zero => intro e e' h; have := weight_pos e; omega
  | succ k ih =>
    intro e e' hk h
    rw [ctSimplify_eq] at h
    simp only [Option.bind_eq_some_iff] at h
    obtain ⟨⟨n, e₁⟩, h1, h2⟩ := h
    have hw := simplifyImpl_weight h1
    have ha := simplifyImpl_any h1
    simp only at h2
    split at h2
    · subst_vars; cases h2; exact .stop ha
    · obtain ⟨n, rfl⟩ : ∃ n', n = n' + 1 := ⟨n - 1, by omega⟩
      exact .turn ha (ih (by omega) h2)

/-! ### Narrowing -/

/-- One goal of the monotonicity lemma. -/
macro "mono" : tactic => `(tactic| (
  intro ht
  dsimp only at ht ⊢
  first
    | exact ht
    | exact frac_ext (by assumption) ht
    | (simp only [Option.bind_eq_some_iff] at ht ⊢
       obtain ⟨g, hg, hrest⟩ := ht
       exact ⟨g, gcdN_ext (by assumption) _ _ _ _ hg, hrest⟩)))

theorem spz_ext {a b : Conv} (hab : a.Extends b) {s : Spz} {e e' : CtExpr}
    (hs : s ∈ specs) (hm : s.pat.fits e = true) : s.type a e = some e' → s.type b e = some e' := by
  simp only [specs, List.mem_append] at hs
  obtain ((hs | hs) | hs) | hs := hs
  all_goals revert hm; revert hs
  all_goals intro _ _
  all_goals per_rule
  all_goals mono

theorem simplifyImpl_ext {a b : Conv} (hab : a.Extends b) {e : CtExpr} {p : Nat × CtExpr}
    (h : simplifyImpl a e = some p) : simplifyImpl b e = some p := by
  induction e generalizing p with
  | const m => exact h
  | var m => exact h
  | fsym m => exact h
  | bin l op r ihl ihr =>
    unfold simplifyImpl at h ⊢
    split at h
    · rw [if_pos ‹_›]
      simp only [Option.bind_eq_some_iff] at h ⊢
      obtain ⟨p, hp, q, hq, hpq⟩ := h
      exact ⟨p, ihl hp, q, ihr hq, hpq⟩
    · rw [if_neg ‹_›]
      simp only [Option.bind_eq_some_iff] at h ⊢
      obtain ⟨s, hs, e₁, he, hpq⟩ := h
      have := List.mem_of_find?_eq_some hs
      simp only [cands, List.mem_filter] at this
      exact ⟨s, hs, e₁, spz_ext hab this.1 this.2 he, hpq⟩

theorem simplifyN_ext {a b : Conv} (hab : a.Extends b) : ∀ (k : Nat) {e e' : CtExpr},
    simplifyN a k e = some e' → simplifyN b k e = some e' := by
  intro k
  induction k with
  | zero => intro e e' h; simp [simplifyN] at h
  | succ k ih =>
    intro e e' h
    unfold simplifyN at h ⊢
    simp only [Option.bind_eq_some_iff] at h ⊢
    obtain ⟨p, hp, h⟩ := h
    refine ⟨p, simplifyImpl_ext hab hp, ?_⟩
    split at h
    · rw [if_pos ‹_›]; exact h
    · rw [if_neg ‹_›]; exact ih h

theorem ctSimplify_ext {a b : Conv} (hab : a.Extends b) {e e' : CtExpr} (h : ctSimplify a e = some e') :
    ctSimplify b e = some e' := simplifyN_ext hab _ h

end VM.Ct
