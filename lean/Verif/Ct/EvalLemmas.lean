import Verif.Ct.Eval
import Verif.Ct.RatLemmas
import Mathlib.Data.Rat.Cast.CharZero
namespace VM.Ct
open VM.Spec

theorem ctEval_ext {a b : Conv} (hab : a.Extends b) {v : List Int} {e e' : CtExpr}
    (h : ctEval a v e = some e') : ctEval b v e = some e' := by
  induction e generalizing e' with
  | const | var | fsym => exact h
  | bin l op r ihl ihr =>
    simp only [ctEval, Option.bind_eq_some_iff] at h ⊢
    obtain ⟨l', hl, r', hr, h⟩ := h
    exact ⟨l', ihl hl, r', ihr hr, ctSimplify_ext hab h⟩

/-- What evaluation leaves: an integer, or a fraction whose numerator and denominator are not zero. -/
inductive Evald : CtExpr → Prop
  | int (n : Int) : Evald ♯n
  | quot (n d : Int) : n ≠ 0 → d ≠ 0 → Evald (♯n /' ♯d)

theorem Evald.simple {e : CtExpr} (h : Evald e) : Simple e := by
  cases h with
  | int n => exact .int n
  | quot n d => exact .quot n d

theorem Evald.defined {F : Type*} [Field F] [CharZero F] {e : CtExpr} (h : Evald e) (v φ : Nat → F) :
    CDefined v φ e := by
  cases h with
  | int n => trivial
  | quot n d _ hd => exact ⟨trivial, trivial, by simpa [cval] using hd⟩

/-- A selected specialisation is below every matching one, so nothing is selected if two matching ones
have no common lower bound. -/
theorem impl_clash {cv : Conv} {l r : CtExpr} {op : COp} {p q : Pat}
    (hp : p ∈ specs.map Spz.pat) (hq : q ∈ specs.map Spz.pat) (hpf : p.fits (.bin l op r) = true)
    (hqf : q.fits (.bin l op r) = true)
    (hno : specs.filter (fun s => s.pat.le p && s.pat.le q) = []) :
    simplifyImpl cv (.bin l op r) = none := by
  cases h : simplifyImpl cv (.bin l op r) with
  | none => rfl
  | some x =>
    exfalso
    obtain ⟨t, ht, rfl⟩ := List.mem_map.1 hp
    obtain ⟨u, hu, rfl⟩ := List.mem_map.1 hq
    unfold simplifyImpl at h
    split at h
    · rename_i hc
      simp only [cands, List.filter_eq_nil_iff] at hc
      exact absurd hpf (hc t ht)
    · simp only [Option.bind_eq_some_iff] at h
      obtain ⟨s, hs, -⟩ := h
      obtain ⟨h1, h2, h3⟩ := best_spec hs
      have : s ∈ specs.filter (fun s => s.pat.le t.pat && s.pat.le u.pat) :=
        List.mem_filter.2 ⟨h1, by simp [h3 t ht hpf, h3 u hu hqf]⟩
      rw [hno] at this
      exact absurd this (by simp)

theorem impl_frac_by_zero (cv : Conv) (n d : Int) : simplifyImpl cv ((♯n /' ♯d) /' ♯0) = none :=
  impl_clash (p := .bin .any .div (.lit 0)) (q := .bin (.bin .anyC .div .anyC) .div .anyC)
    (by decide +kernel) (by decide +kernel) (by simp [Pat.fits]) (by simp [Pat.fits])
    (by simp [specs, specsPlus, specsMinus, specsMult, specsDiv, pat_add, pat_sub, pat_mul, pat_div, Pat.le])

theorem Evald.div_ne {F : Type*} [Field F] [CharZero F] {l r e' : CtExpr} {cv : Conv} (hl : Evald l)
    (hr : Evald r) (h : ctSimplify cv (l /' r) = some e') (v φ : Nat → F) : cval v φ r ≠ 0 := by
  cases hr with
  | quot n d hn hd => simp [cval, hn, hd]
  | int b =>
    rintro hb
    have : b = 0 := by simpa [cval] using hb
    subst this
    rw [ctSimplify_eq] at h
    cases hl with
    | int a => rw [impl_quot_by_zero] at h; simp at h
    | quot n d _ _ => rw [impl_frac_by_zero] at h; simp at h

theorem ctSimplify_quot_ne {cv : Conv} {a b : Int} (h : ctSimplify cv (♯a /' ♯b) = some (♯a /' ♯b)) :
    a ≠ 0 ∧ b ≠ 0 := by
  rw [ctSimplify_eq] at h
  constructor
  · rintro rfl
    by_cases hb0 : b = 0
    · subst hb0; rw [impl_quot_by_zero] at h; simp at h
    by_cases hb : b = -1
    · subst hb; rw [impl_quot_zero_neg] at h; simp at h
    · rw [impl_quot_zero cv b hb hb0] at h; simp [ctSimplify_const] at h
  · rintro rfl
    rw [impl_quot_by_zero] at h; simp at h

/-- After the loop: an integer or a fraction that cannot be divided by zero. -/
theorem ctSimplify_evald {cv : Conv} {l r e' : CtExpr} {op : COp} (hl : Evald l) (hr : Evald r)
    (h : ctSimplify cv (.bin l op r) = some e') : Evald e' := by
  have key : ∀ a b : Int, ctSimplify cv (♯a /' ♯b) = some e' → Evald e' := by
    intro a b h
    rcases ctSimplify_quot h with ⟨k, rfl⟩ | rfl
    · exact .int k
    · obtain ⟨h1, h2⟩ := ctSimplify_quot_ne h
      exact .quot a b h1 h2
  by_cases hop : op = .div ∧ (∃ a, l = ♯a) ∧ ∃ b, r = ♯b
  · obtain ⟨rfl, ⟨a, rfl⟩, b, rfl⟩ := hop
    exact key a b h
  · rw [ctSimplify_eq] at h
    simp only [Option.bind_eq_some_iff] at h
    obtain ⟨⟨m, e₁⟩, h1, h2⟩ := h
    obtain ⟨rfl, h3⟩ := impl_simple hl.simple hr.simple (fun h => by tauto) h1
    simp only [one_ne_zero, if_false] at h2
    rcases h3 with ⟨k, rfl⟩ | ⟨x, y, hxy⟩
    · rw [ctSimplify_const] at h2
      cases h2; exact .int k
    · obtain ⟨_, _, _, _, _, n', d', _, _, _, _, _, _, _, rfl⟩ := frac_some.1 hxy
      exact key _ _ h2

theorem ctEval_evald {cv : Conv} {v : List Int} {e e' : CtExpr} (h : ctEval cv v e = some e') : Evald e' := by
  induction e generalizing e' with
  | const n => simp only [ctEval, Option.some.injEq] at h; subst h; exact .int n
  | var i =>
    simp only [ctEval, entry] at h
    split at h
    · obtain ⟨n, -, rfl⟩ := Option.map_eq_some_iff.1 h; exact .int n
    · simp at h
  | fsym => simp [ctEval] at h
  | bin l op r ihl ihr =>
    simp only [ctEval, Option.bind_eq_some_iff] at h
    obtain ⟨l', hl, r', hr, h⟩ := h
    exact ctSimplify_evald (ihl hl) (ihr hr) h

theorem ctEval_val {F : Type*} [Field F] [CharZero F] {v : List Int} {e e' : CtExpr} (φ : Nat → F)
    (h : ctEval strict v e = some e') : ∃ x, CVal (point F v) φ e x ∧ CVal (point F v) φ e' x := by
  induction e generalizing e' with
  | const n => simp only [ctEval, Option.some.injEq] at h; subst h; exact ⟨_, ⟨trivial, rfl⟩, trivial, rfl⟩
  | var i =>
    simp only [ctEval, entry] at h
    split at h
    · obtain ⟨n, hn, rfl⟩ := Option.map_eq_some_iff.1 h
      exact ⟨n, ⟨trivial, by simp [cval, point, hn]⟩, trivial, rfl⟩
    · simp at h
  | fsym => simp [ctEval] at h
  | bin l op r ihl ihr =>
    simp only [ctEval, Option.bind_eq_some_iff] at h
    obtain ⟨l', hl, r', hr, h⟩ := h
    obtain ⟨x, hx, hx'⟩ := ihl hl
    obtain ⟨y, hy, hy'⟩ := ihr hr
    have hv : ∃ z, CVal (point F v) φ (.bin l op r) z ∧ CVal (point F v) φ (.bin l' op r') z := by
      obtain ⟨dx, rfl⟩ := hx
      obtain ⟨dy, rfl⟩ := hy
      cases op with
      | plus => exact ⟨_, ⟨⟨dx, dy⟩, rfl⟩, ⟨hx'.1, hy'.1⟩, by simp [cval, hx'.2, hy'.2]⟩
      | minus => exact ⟨_, ⟨⟨dx, dy⟩, rfl⟩, ⟨hx'.1, hy'.1⟩, by simp [cval, hx'.2, hy'.2]⟩
      | mult => exact ⟨_, ⟨⟨dx, dy⟩, rfl⟩, ⟨hx'.1, hy'.1⟩, by simp [cval, hx'.2, hy'.2]⟩
      | div =>
        have hn := Evald.div_ne (ctEval_evald hl) (ctEval_evald hr) h (point F v) φ
        exact ⟨_, ⟨⟨dx, dy, by rw [← hy'.2]; exact hn⟩, rfl⟩, ⟨hx'.1, hy'.1, hn⟩,
          by simp [cval, hx'.2, hy'.2]⟩
    obtain ⟨z, hz, hz'⟩ := hv
    exact ⟨z, hz, simplifyAny_sound strict_exact (ctSimplify_any _ le_rfl h) hz'⟩

theorem evald_isFrac {e : CtExpr} (h : Evald e) {v φ : Nat → ℚ} {q : ℚ} (hq : CVal v φ e q) :
    IsInt e q ∨ IsFrac e q := by
  obtain ⟨-, rfl⟩ := hq
  cases h with
  | int n => exact .inl ⟨n, rfl, rfl⟩
  | quot n d _ hd => exact .inr ⟨n, d, rfl, hd, rfl⟩

end VM.Ct
