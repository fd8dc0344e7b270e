import Verif.Ct.Manip
import Verif.Ct.ExpandLemmas
namespace VM.Ct
open VM.Spec

section
variable {F : Type*} [Field F]

omit [Field F] in
theorem moved_self (v : Nat → F) (i : Nat) : moved v i (v i) = v := by
  funext j; unfold moved; split <;> simp_all

omit [Field F] in
@[simp] theorem moved_same (v : Nat → F) (i : Nat) (t : F) : moved v i t i = t := by simp [moved]

omit [Field F] in
theorem moved_moved (v : Nat → F) (i : Nat) (s t : F) : moved (moved v i s) i t = moved v i t := by
  funext j; unfold moved; split <;> simp_all

/-- Where a variable does not occur, its value is irrelevant. -/
theorem cval_moved {i : Nat} {e : CtExpr} (h : ¬ Has i e) (v φ : Nat → F) (t : F) :
    cval (moved v i t) φ e = cval v φ e := by
  induction e with
  | const n => rfl
  | var j => have hj : j ≠ i := h; simp [cval, moved, hj]
  | fsym _ => rfl
  | bin l op r ihl ihr =>
    obtain ⟨h1, h2⟩ := not_or.1 h
    cases op <;> simp only [cval, ihl h1, ihr h2]

theorem cdefined_moved {i : Nat} {e : CtExpr} (h : ¬ Has i e) (v φ : Nat → F) (t : F) :
    CDefined (moved v i t) φ e ↔ CDefined v φ e := by
  induction e with
  | const n => exact Iff.rfl
  | var j => exact Iff.rfl
  | fsym _ => exact Iff.rfl
  | bin l op r ihl ihr =>
    obtain ⟨h1, h2⟩ := not_or.1 h
    cases op <;> simp only [CDefined, ihl h1, ihr h2, cval_moved h2]

/-- A polynomial in `i` is defined on a whole line in direction `i` or nowhere on it. -/
theorem cdefined_poly {i : Nat} {e : CtExpr} (h : PolyIn i e) (v φ : Nat → F) (t : F) :
    CDefined (moved v i t) φ e ↔ CDefined v φ e := by
  induction e with
  | const n => exact Iff.rfl
  | var j => exact Iff.rfl
  | fsym _ => exact Iff.rfl
  | bin l op r ihl ihr =>
    cases op with
    | div => simp only [CDefined, ihl h.1, cdefined_moved h.2, cval_moved h.2]
    | _ => simp only [CDefined, ihl h.1, ihr h.2]

/-! ### Substitution -/

theorem ctSubst_var (i j : Nat) (r : CtExpr) :
    ctSubst (.var i) r (.var j) = if j = i then r else .var j := by
  unfold ctSubst; simp

theorem ctSubst_const (i : Nat) (n : Int) (r : CtExpr) : ctSubst (.var i) r ♯n = ♯n := by
  unfold ctSubst; simp

theorem ctSubst_fsym (i t : Nat) (r : CtExpr) : ctSubst (.var i) r (.fsym t) = .fsym t := by
  unfold ctSubst; simp

theorem ctSubst_bin (i : Nat) (r a b : CtExpr) (op : COp) :
    ctSubst (.var i) r (.bin a op b) = .bin (ctSubst (.var i) r a) op (ctSubst (.var i) r b) := by
  conv_lhs => unfold ctSubst
  simp

theorem cval_subst (v φ : Nat → F) (i : Nat) (r e : CtExpr) :
    cval v φ (ctSubst (.var i) r e) = cval (moved v i (cval v φ r)) φ e := by
  induction e with
  | const n => rw [ctSubst_const]; rfl
  | var j => rw [ctSubst_var]; simp only [cval, moved]; split <;> rfl
  | fsym t => rw [ctSubst_fsym]; rfl
  | bin a op b iha ihb => rw [ctSubst_bin]; cases op <;> simp only [cval, iha, ihb]

theorem cdefined_subst (v φ : Nat → F) (i : Nat) (r e : CtExpr) :
    CDefined v φ (ctSubst (.var i) r e) ↔
      CDefined (moved v i (cval v φ r)) φ e ∧ (Has i e → CDefined v φ r) := by
  induction e with
  | const n => rw [ctSubst_const]; simp [CDefined, Has]
  | var j =>
    rw [ctSubst_var]
    by_cases h : j = i <;> simp [h, CDefined, Has]
  | fsym t => rw [ctSubst_fsym]; simp [CDefined, Has]
  | bin a op b iha ihb =>
    rw [ctSubst_bin]
    cases op <;> simp only [CDefined, iha, ihb, Has, cval_subst] <;> tauto

omit [Field F] in
theorem not_has_subst {i : Nat} {r : CtExpr} (h : ¬ Has i r) (e : CtExpr) :
    ¬ Has i (ctSubst (.var i) r e) := by
  induction e with
  | const n => rw [ctSubst_const]; exact id
  | var j => rw [ctSubst_var]; split <;> simp_all [Has]
  | fsym t => rw [ctSubst_fsym]; exact id
  | bin a op b iha ihb => rw [ctSubst_bin]; exact not_or.2 ⟨iha, ihb⟩

omit [Field F] in
theorem divFree_subst {i : Nat} {r : CtExpr} (h : DivFree r) {e : CtExpr} (he : DivFree e) :
    DivFree (ctSubst (.var i) r e) := by
  induction e with
  | const n => rw [ctSubst_const]; trivial
  | var j => rw [ctSubst_var]; split <;> simp_all [DivFree]
  | fsym t => rw [ctSubst_fsym]; trivial
  | bin a op b iha ihb =>
    rw [ctSubst_bin]
    cases op with
    | div => exact he.elim
    | _ => exact ⟨iha he.1, ihb he.2⟩

/-! ### Coefficients -/

theorem hasFactor_noSum (i : Nat) {e : CtExpr} (h : NoSum e) (hp : PolyIn i e) :
    ∃ n, hasFactor (.var i) e = some n ∧ (n ≠ 0 ↔ Has i e) := by
  induction e with
  | const n => exact ⟨0, by simp [hasFactor], by simp [Has]⟩
  | var j =>
    by_cases hj : j = i
    · exact ⟨1, by simp [hasFactor, hj, isBin], by simp [Has, hj]⟩
    · exact ⟨0, by simp [hasFactor, hj], by simp [Has, hj]⟩
  | fsym t => exact ⟨0, by simp [hasFactor], by simp [Has]⟩
  | bin l op r ihl ihr =>
    cases op with
    | plus => exact h.elim
    | minus => exact h.elim
    | mult =>
      obtain ⟨a, h1, h2⟩ := ihl h.1 hp.1
      obtain ⟨b, h3, h4⟩ := ihr h.2 hp.2
      refine ⟨a + b, by simp [hasFactor, h1, h3], ?_⟩
      simp only [Has, ← h2, ← h4]; omega
    | div =>
      obtain ⟨a, h1, h2⟩ := ihl h hp.1
      have := hp.2
      exact ⟨a, by simpa [hasFactor] using h1, by simp only [Has, h2]; tauto⟩

/-- Monomials vanish at 0. -/
theorem cval_zero_noSum {i : Nat} {e : CtExpr} (h : NoSum e) (hp : PolyIn i e) (hh : Has i e)
    (v φ : Nat → F) : cval (moved v i 0) φ e = 0 := by
  induction e with
  | const n => exact hh.elim
  | var j => have : j = i := hh; simp [cval, this]
  | fsym t => exact hh.elim
  | bin l op r ihl ihr =>
    cases op with
    | plus => exact h.elim
    | minus => exact h.elim
    | mult =>
      rcases hh with hh | hh
      · simp only [cval, ihl h.1 hp.1 hh, zero_mul]
      · simp only [cval, ihr h.2 hp.2 hh, mul_zero]
    | div =>
      rcases hh with hh | hh
      · simp only [cval, ihl h hp.1 hh, zero_div]
      · exact absurd hh hp.2

/-- What `c` times variable `i` is worth. -/
def SplitsAt (i : Nat) (c e : CtExpr) (v φ : Nat → F) : Prop :=
  CDefined v φ c ∧ cval v φ c * v i + cval (moved v i 0) φ e = cval v φ e

theorem coefImpl_monomial (i : Nat) {e : CtExpr} (h : NoSum e) (hp : PolyIn i e) :
    ∃ c, coefImpl (.var i) e = some c ∧ ∀ v φ : Nat → F, CDefined v φ e → SplitsAt i c e v φ := by
  induction e with
  | const n => exact ⟨♯0, by simp [coefImpl], fun v φ _ => ⟨trivial, by simp [cval]⟩⟩
  | var j =>
    by_cases hj : j = i
    · exact ⟨♯1, by simp [coefImpl, hj, isBin], fun v φ _ => ⟨trivial, by simp [cval, hj]⟩⟩
    · exact ⟨♯0, by simp [coefImpl, hj], fun v φ _ => ⟨trivial, by simp [cval, hj, moved]⟩⟩
  | fsym t => exact ⟨♯0, by simp [coefImpl], fun v φ _ => ⟨trivial, by simp [cval]⟩⟩
  | bin l op r ihl ihr =>
    cases op with
    | plus => exact h.elim
    | minus => exact h.elim
    | mult =>
      obtain ⟨a, h1, h2⟩ := hasFactor_noSum i h.1 hp.1
      obtain ⟨b, h3, h4⟩ := hasFactor_noSum i h.2 hp.2
      obtain ⟨cl, h5, h6⟩ := ihl h.1 hp.1
      obtain ⟨cr, h7, h8⟩ := ihr h.2 hp.2
      by_cases hl : l = .var i
      · subst hl
        refine ⟨r, ?_, fun v φ hd => ⟨hd.2, by simp only [cval, moved_same]; ring⟩⟩
        by_cases hr : r = .var i <;> simp [coefImpl, hr]
      by_cases hr : r = .var i
      · subst hr
        refine ⟨l, by simp [coefImpl, hl], fun v φ hd => ⟨hd.1, by simp only [cval, moved_same]; ring⟩⟩
      by_cases ha : a = 0
      · by_cases hb : b = 0
        · have hl' : ¬ Has i l := by rw [← h2]; simpa using ha
          have hr' : ¬ Has i r := by rw [← h4]; simpa using hb
          refine ⟨♯0, by simp [coefImpl, hl, hr, h1, h3, ha, hb], fun v φ hd => ⟨trivial, ?_⟩⟩
          simp [cval, cval_moved hl', cval_moved hr']
        · have hr' : Has i r := by rw [← h4]; exact hb
          refine ⟨l *' cr, by simp [coefImpl, hl, hr, h1, h3, h7, ha, hb], fun v φ hd => ?_⟩
          obtain ⟨h9, h10⟩ := h8 v φ hd.2
          refine ⟨⟨hd.1, h9⟩, ?_⟩
          rw [cval_zero_noSum h.2 hp.2 hr', add_zero] at h10
          rw [cval_zero_noSum (e := l *' r) h hp (.inr hr'), add_zero]
          simp only [cval, ← h10]; ring
      · have hl' : Has i l := by rw [← h2]; exact ha
        refine ⟨cl *' r, ?_, fun v φ hd => ?_⟩
        · by_cases hb : b = 0 <;> simp [coefImpl, hl, hr, h1, h3, h5, ha, hb]
        obtain ⟨h9, h10⟩ := h6 v φ hd.1
        refine ⟨⟨h9, hd.2⟩, ?_⟩
        rw [cval_zero_noSum h.1 hp.1 hl', add_zero] at h10
        rw [cval_zero_noSum (e := l *' r) h hp (.inl hl'), add_zero]
        simp only [cval, ← h10]; ring
    | div =>
      obtain ⟨c, h1, h2⟩ := ihl h hp.1
      refine ⟨c /' r, by simp [coefImpl, h1], fun v φ hd => ?_⟩
      obtain ⟨h3, h4⟩ := h2 v φ hd.1
      refine ⟨⟨h3, hd.2⟩, ?_⟩
      simp only [cval, cval_moved hp.2, ← h4]; ring

theorem coefImpl_splits (i : Nat) {e : CtExpr} (h : Expanded e) (hp : PolyIn i e) :
    ∃ c, coefImpl (.var i) e = some c ∧ ∀ v φ : Nat → F, CDefined v φ e → SplitsAt i c e v φ := by
  induction e with
  | const n => exact coefImpl_monomial i trivial hp
  | var j => exact coefImpl_monomial i trivial hp
  | fsym t => exact coefImpl_monomial i trivial hp
  | bin l op r ihl ihr =>
    cases op with
    | plus =>
      obtain ⟨a, h1, h2⟩ := ihl h.1 hp.1
      obtain ⟨b, h3, h4⟩ := ihr h.2 hp.2
      refine ⟨a +' b, by simp [coefImpl, h1, h3], fun v φ hd => ?_⟩
      obtain ⟨h5, h6⟩ := h2 v φ hd.1
      obtain ⟨h7, h8⟩ := h4 v φ hd.2
      exact ⟨⟨h5, h7⟩, by simp only [cval, ← h6, ← h8]; ring⟩
    | minus =>
      obtain ⟨a, h1, h2⟩ := ihl h.1 hp.1
      obtain ⟨b, h3, h4⟩ := ihr h.2 hp.2
      refine ⟨a -' b, by simp [coefImpl, h1, h3], fun v φ hd => ?_⟩
      obtain ⟨h5, h6⟩ := h2 v φ hd.1
      obtain ⟨h7, h8⟩ := h4 v φ hd.2
      exact ⟨⟨h5, h7⟩, by simp only [cval, ← h6, ← h8]; ring⟩
    | mult => exact coefImpl_monomial i h hp
    | div =>
      obtain ⟨c, h1, h2⟩ := ihl h hp.1
      refine ⟨c /' r, by simp [coefImpl, h1], fun v φ hd => ?_⟩
      obtain ⟨h3, h4⟩ := h2 v φ hd.1
      refine ⟨⟨h3, hd.2⟩, ?_⟩
      simp only [cval, cval_moved hp.2, ← h4]; ring

end

end VM.Ct
