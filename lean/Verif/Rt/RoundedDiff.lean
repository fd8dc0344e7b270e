import Verif.Rt.RoundedLemmas
import Verif.Rt.IteratedLemmas
import Verif.Rt.SizeLemmas
/-
C68: differentiation with floating point numbers.
-/
namespace VM
open Spec Filter Topology
variable {R : Rounding} {D δ T : ℝ}

theorem Spec.NearNum.mono {D' : ℝ} (he : 0 ≤ R.eps) (h : D ≤ D') {c : XReal} {d : Fl R} (hn : NearNum D R c d) :
    NearNum D' R c d := by
  obtain ⟨x, y, h1, h2, h3⟩ := hn
  exact ⟨x, y, h1, h2, h3.trans (mul_le_mul_of_nonneg_right h he)⟩

theorem Spec.NearExpr.mono {D' : ℝ} (he : 0 ≤ R.eps) (h : D ≤ D') {e : Expr XReal} {d : Expr (Fl R)}
    (hn : NearExpr D R e d) : NearExpr D' R e d := by
  induction hn with
  | const hn => exact .const (hn.mono he h)
  | var i => exact .var i
  | fn _ ih => exact .fn ih
  | bin hop _ _ ihl ihr => exact .bin hop ihl ihr

theorem Spec.NearExpr.arith {e : Expr XReal} {d : Expr (Fl R)} (hn : NearExpr D R e d) : Arith e ∧ Arith d := by
  induction hn with
  | const hn => exact ⟨.const _, .const _⟩
  | var i => exact ⟨.var i, .var i⟩
  | fn _ ih => exact ⟨.fn _ ih.1, .fn _ ih.2⟩
  | bin hop _ _ ihl ihr => exact ⟨.bin hop ihl.1 ihr.1, .bin hop ihl.2 ihr.2⟩

theorem near_lit (n : Int) (hF : Fine δ T R) (h1 : δ ≤ 1) (hT : |(n : ℝ)| ≤ T) :
    NearNum (|(n : ℝ)| + 1) R (Num.lit n) (Num.lit n) := by
  obtain ⟨y, h2, h3⟩ := round_step (z := n) (b := n) (C := 0) hF h1 le_rfl (by simp) (by simpa using hT)
  exact ⟨n, y, rfl, h2, by simpa using h3⟩

/-- The constants that appear in derivatives. -/
theorem near_consts : ∃ E δ T : ℝ, 0 < δ ∧ ∀ R, Fine δ T R →
    (∀ n : Int, |(n : ℝ)| ≤ 10 → NearNum E R (Num.lit n) (Num.lit n)) ∧
    NearNum E R (Num.fn .log (Num.lit 10)) (Num.fn .log (Num.lit 10)) := by
  have hl : ¬ ((10 : ℝ) ≤ 0) := by norm_num
  have hv : eval leftFirst [] (.un (.fn .log) (.const (some 10)) : Expr XReal) = .ok (some (Real.log 10)) := by
    simp [eval, applyU, applyFn, Num.fn, XReal.fn, hl]
  obtain ⟨C, δ, T, hC, hδ, H⟩ := accurate 11 (.fn .log (.const (some (10 : ℝ)))) hv (by
    intro s hs; cases hs with | un hs => cases hs)
  refine ⟨max 11 C, min δ 1, max T 10, by positivity, fun R hF => ?_⟩
  have h10 : ∀ n : Int, |(n : ℝ)| ≤ 10 → NearNum 11 R (Num.lit n) (Num.lit n) := fun n hn =>
    (near_lit n hF (min_le_right _ _) (hn.trans (le_max_right _ _))).mono hF.pos (by linarith)
  refine ⟨fun n hn => (h10 n hn).mono hF.pos (le_max_left _ _), ?_⟩
  obtain ⟨x, y, h1, h2, h3⟩ := H R (hF.mono (min_le_left _ _) (le_max_left _ _)) (.un (.fn .log) (.const (Num.lit 10))) []
    (.fn (.const (by
      have := h10 10 (by norm_num)
      have h : (some 10 : XReal) = Num.lit 10 := by simp [Num.lit]
      rw [h]; exact this))) .nil leftFirst
  have : x = Num.fn .log (Num.lit 10) := (Res.ok.inj h1).symm
  subst this
  refine ⟨Real.log 10, y, ?_, h2, h3.trans (mul_le_mul_of_nonneg_right (le_max_right _ _) hF.pos)⟩
  simp [Num.fn, Num.lit, XReal.fn, hl]

theorem diffE_near (i : Nat) (D : ℝ) : ∃ E δ T : ℝ, 0 < δ ∧ ∀ R, Fine δ T R → ∀ e d, NearExpr D R e d → Smooth e →
    ∀ {e'}, diffE (.var i) e = .ok e' → ∃ d', diffE (.var i) d = .ok d' ∧ NearExpr E R e' d' := by
  obtain ⟨E, δ, T, hδ, H⟩ := near_consts
  refine ⟨max E D, δ, T, hδ, fun R hF e d hn => ?_⟩
  obtain ⟨hlit, hlog⟩ := H R hF
  have lit : ∀ n : Int, |(n : ℝ)| ≤ 10 → NearExpr (max E D) R (.const (Num.lit n)) (.const (Num.lit n)) := fun n hn =>
    .const ((hlit n hn).mono hF.pos (le_max_left _ _))
  have P : IsArithOp .plus := .inl rfl
  have S : IsArithOp .minus := .inr (.inl rfl)
  have M : IsArithOp .mult := .inr (.inr (.inl rfl))
  have Q : IsArithOp .div := .inr (.inr (.inr rfl))
  induction hn with
  | const _ => intro _ e' h; cases h; exact ⟨_, rfl, lit 0 (by norm_num)⟩
  | var j =>
    intro _ e' h
    cases h
    refine ⟨_, rfl, lit _ ?_⟩
    split <;> norm_num
  | @fn f e d hn ih =>
    intro hs e' h
    cases hs with
    | fn hf hs =>
      have hn' := hn.mono hF.pos (le_max_right E D)
      rw [diffE] at h
      obtain ⟨a, ha⟩ := diffFn_ok h
      obtain ⟨b, hb, hab⟩ := ih hs ha
      rw [ha] at h
      rw [diffE, hb]
      cases f with
      | fabs => exact absurd rfl hf
      | id => cases h; exact ⟨_, rfl, hab⟩
      | exp => cases h; exact ⟨_, rfl, .bin M (.fn hn') hab⟩
      | sin => cases h; exact ⟨_, rfl, .bin M (.fn hn') hab⟩
      | cos => cases h; exact ⟨_, rfl, .bin M (.fn hn') (.bin M (lit (-1) (by norm_num)) hab)⟩
      | tan => cases h; exact ⟨_, rfl, .bin Q hab (.bin M (.fn hn') (.fn hn'))⟩
      | sqrt => cases h; exact ⟨_, rfl, .bin Q hab (.bin M (lit 2 (by norm_num)) (.fn hn'))⟩
      | log => cases h; exact ⟨_, rfl, .bin Q hab (.fn hn')⟩
      | log10 => cases h; exact ⟨_, rfl, .bin Q hab (.bin M (.const (hlog.mono hF.pos (le_max_left _ _))) (.fn hn'))⟩
  | @bin op l r m s hop hl hr ihl ihr =>
    intro hs e' h
    cases hs with
    | bin _ hsl hsr =>
      have hl' := hl.mono hF.pos (le_max_right E D)
      have hr' := hr.mono hF.pos (le_max_right E D)
      rw [diffE] at h
      obtain ⟨a, b, ha, hb⟩ := diffBin_ok h
      obtain ⟨a', ha', haa⟩ := ihl hsl ha
      obtain ⟨b', hb', hbb⟩ := ihr hsr hb
      rw [ha, hb] at h
      rw [diffE, ha', hb']
      rcases hop with rfl | rfl | rfl | rfl
      · cases h; exact ⟨_, rfl, .bin P haa hbb⟩
      · cases h; exact ⟨_, rfl, .bin S haa hbb⟩
      · cases h; exact ⟨_, rfl, .bin P (.bin M haa hr') (.bin M hl' hbb)⟩
      · cases h; exact ⟨_, rfl, .bin Q (.bin S (.bin M haa hr') (.bin M hl' hbb)) (.bin M hr' hr')⟩

end VM
