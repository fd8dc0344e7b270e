import Verif.Ct.Expand
import Verif.Spec.CtManip
import Mathlib.Tactic.Ring
import Mathlib.Tactic.FieldSimp
import Mathlib.Tactic.Tauto
namespace VM.Ct
open VM.Spec

/-- What was expanded is smaller. -/
theorem expand_mass_lt {l r : CtExpr} (h : hasPM (l *' r) = true) :
    mass (expand (l *' r)) < mass (l *' r) := (expandE (l *' r)).2.2 l r rfl h

theorem expandWith_mass_lt {e f : CtExpr} (h : hasPM e = true) :
    mass (expandWith e f) < mass e * mass f := (expandF e f).2.2 h

/-- Induction along the instantiations of `expand` and `expand_with_factor`. -/
theorem expand_induction {P : CtExpr → CtExpr → Prop} {Q : CtExpr → CtExpr → CtExpr → Prop}
    (const : ∀ n, P ♯n ♯n) (var : ∀ i, P (.var i) (.var i)) (fsym : ∀ t, P (.fsym t) (.fsym t))
    (add : ∀ l r l' r', P l l' → P r r' → P (l +' r) (l' +' r'))
    (sub : ∀ l r l' r', P l l' → P r r' → P (l -' r) (l' -' r'))
    (quot : ∀ l r l' r', P l l' → P r r' → P (l /' r) (l' /' r'))
    (flat : ∀ l r, hasPM l = false → hasPM r = false → P (l *' r) (l *' r))
    (left : ∀ l r w, hasPM l = true → hasPM r = false → Q l r w → P (l *' r) w)
    (right : ∀ l r w, hasPM l = false → hasPM r = true → Q r l w → P (l *' r) w)
    (both : ∀ l r w e, hasPM l = true → hasPM r = true → Q l r w → P w e → P (l *' r) e)
    (wflat : ∀ e f, hasPM e = false → Q e f (e *' f))
    (wadd : ∀ l r f l' r', Q l f l' → Q r f r' → Q (l +' r) f (l' +' r'))
    (wsub : ∀ l r f l' r', Q l f l' → Q r f r' → Q (l -' r) f (l' -' r'))
    (wmul : ∀ l r f e w, hasPM (l *' r) = true → P (l *' r) e → Q e f w → Q (l *' r) f w)
    (wquot : ∀ l r f l', hasPM l = true → Q l f l' → Q (l /' r) f (l' /' r)) :
    (∀ e, P e (expand e)) ∧ ∀ e f, Q e f (expandWith e f) := by
  have key : ∀ n, (∀ e, mass e ≤ n → P e (expand e)) ∧
      ∀ e f, mass e * mass f ≤ n → Q e f (expandWith e f) := by
    intro n
    induction n with
    | zero =>
      refine ⟨fun e he => ?_, fun e f he => ?_⟩
      · have := two_le_mass e; omega
      · have := two_le_mass e; have := mass_mul_left e f; omega
    | succ n ih =>
      obtain ⟨ihE, ihF⟩ := ih
      have hF : ∀ e f, mass e * mass f ≤ n + 1 → Q e f (expandWith e f) := by
        intro e f hm
        have hf := two_le_mass f
        by_cases hpm : hasPM e = true
        · cases e with
          | bin l op r =>
            cases op with
            | plus =>
              rw [expandWith_add]
              simp only [mass, Nat.add_mul] at hm
              exact wadd _ _ _ _ _ (ihF _ _ (by omega)) (ihF _ _ (by omega))
            | minus =>
              rw [expandWith_sub]
              simp only [mass, Nat.add_mul] at hm
              exact wsub _ _ _ _ _ (ihF _ _ (by omega)) (ihF _ _ (by omega))
            | mult =>
              rw [expandWith_mul _ _ _ hpm]
              change mass (l *' r) * mass f ≤ n + 1 at hm
              have h1 := mass_mul_left (l *' r) f
              have h2 := expand_mass_lt hpm
              have h3 := Nat.mul_lt_mul_of_pos_right h2 (show 0 < mass f by omega)
              exact wmul _ _ _ _ _ hpm (ihE _ (by omega)) (ihF _ _ (by omega))
            | div =>
              rw [expandWith_quot _ _ _ hpm]
              simp only [mass, Nat.add_mul] at hm
              exact wquot _ _ _ _ hpm (ihF _ _ (by omega))
          | _ => simp [hasPM] at hpm
        · rw [Bool.not_eq_true] at hpm
          rw [expandWith_flat _ _ hpm]
          exact wflat _ _ hpm
      refine ⟨fun e he => ?_, hF⟩
      cases e with
      | const n => rw [expand_const]; exact const n
      | var i => rw [expand_var]; exact var i
      | fsym t => rw [expand_fsym]; exact fsym t
      | bin l op r =>
        cases op with
        | plus =>
          simp only [mass] at he
          rw [expand_add]; exact add _ _ _ _ (ihE _ (by omega)) (ihE _ (by omega))
        | minus =>
          simp only [mass] at he
          rw [expand_sub]; exact sub _ _ _ _ (ihE _ (by omega)) (ihE _ (by omega))
        | div =>
          simp only [mass] at he
          rw [expand_quot]; exact quot _ _ _ _ (ihE _ (by omega)) (ihE _ (by omega))
        | mult =>
          simp only [mass] at he
          rw [expand_mul]
          unfold expandProduct
          split
          · exact flat _ _ ‹_› ‹_›
          · exact left _ _ _ ‹_› ‹_› (hF _ _ he)
          · exact right _ _ _ ‹_› ‹_› (hF _ _ (by rw [Nat.mul_comm]; exact he))
          · have := expandWith_mass_lt (f := r) ‹hasPM l = true›
            exact both _ _ _ _ ‹_› ‹_› (hF _ _ he) (ihE _ (by omega))
  exact ⟨fun e => (key _).1 e le_rfl, fun e f => (key _).2 e f le_rfl⟩

section
variable {F : Type*} [Field F]

theorem cval_mul (v φ : Nat → F) (l r : CtExpr) : cval v φ (l *' r) = cval v φ l * cval v φ r := rfl

theorem expand_value (v φ : Nat → F) :
    (∀ e, CDefined v φ e → CDefined v φ (expand e) ∧ cval v φ (expand e) = cval v φ e) ∧
    ∀ e f, CDefined v φ e → CDefined v φ f →
      CDefined v φ (expandWith e f) ∧ cval v φ (expandWith e f) = cval v φ e * cval v φ f := by
  refine expand_induction
    (P := fun e e' => CDefined v φ e → CDefined v φ e' ∧ cval v φ e' = cval v φ e)
    (Q := fun e f w => CDefined v φ e → CDefined v φ f → CDefined v φ w ∧ cval v φ w = cval v φ e * cval v φ f)
    ?_ ?_ ?_ ?_ ?_ ?_ ?_ ?_ ?_ ?_ ?_ ?_ ?_ ?_ ?_
  · exact fun _ h => ⟨h, rfl⟩
  · exact fun _ h => ⟨h, rfl⟩
  · exact fun _ h => ⟨h, rfl⟩
  · intro l r l' r' hl hr h
    obtain ⟨h1, h2⟩ := hl h.1; obtain ⟨h3, h4⟩ := hr h.2
    exact ⟨⟨h1, h3⟩, by simp only [cval, h2, h4]⟩
  · intro l r l' r' hl hr h
    obtain ⟨h1, h2⟩ := hl h.1; obtain ⟨h3, h4⟩ := hr h.2
    exact ⟨⟨h1, h3⟩, by simp only [cval, h2, h4]⟩
  · intro l r l' r' hl hr h
    obtain ⟨h1, h2⟩ := hl h.1; obtain ⟨h3, h4⟩ := hr h.2.1
    exact ⟨⟨h1, h3, by rw [h4]; exact h.2.2⟩, by simp only [cval, h2, h4]⟩
  · exact fun _ _ _ _ h => ⟨h, rfl⟩
  · exact fun l r w _ _ hq h => hq h.1 h.2
  · intro l r w _ _ hq h
    rw [cval_mul, mul_comm]
    exact hq h.2 h.1
  · intro l r w e _ _ hq hp h
    obtain ⟨h1, h2⟩ := hq h.1 h.2
    obtain ⟨h3, h4⟩ := hp h1
    exact ⟨h3, h4.trans h2⟩
  · exact fun _ _ _ h1 h2 => ⟨⟨h1, h2⟩, rfl⟩
  · intro l r f l' r' hl hr h hf
    obtain ⟨h1, h2⟩ := hl h.1 hf; obtain ⟨h3, h4⟩ := hr h.2 hf
    exact ⟨⟨h1, h3⟩, by simp only [cval, h2, h4]; ring⟩
  · intro l r f l' r' hl hr h hf
    obtain ⟨h1, h2⟩ := hl h.1 hf; obtain ⟨h3, h4⟩ := hr h.2 hf
    exact ⟨⟨h1, h3⟩, by simp only [cval, h2, h4]; ring⟩
  · intro l r f e w _ hp hq h hf
    obtain ⟨h1, h2⟩ := hp h
    obtain ⟨h3, h4⟩ := hq h1 hf
    exact ⟨h3, by rw [h4, h2]⟩
  · intro l r f l' _ hl h hf
    obtain ⟨h1, h2⟩ := hl h.1 hf
    exact ⟨⟨h1, h.2.1, h.2.2⟩, by simp only [cval, h2]; ring⟩

end

/-! ### The shape of the result -/

theorem hasPM_noSum (e : CtExpr) : hasPM e = false ↔ NoSum e := by
  induction e with
  | bin l op r ihl ihr => cases op <;> simp [hasPM, NoSum, ihl, ihr]
  | _ => simp [hasPM, NoSum]

theorem NoSum.expanded {e : CtExpr} (h : NoSum e) : Expanded e := by
  induction e with
  | bin l op r ihl ihr =>
    cases op with
    | plus => exact h.elim
    | minus => exact h.elim
    | mult => exact h
    | div => exact ihl h
  | _ => trivial

/-- Outside of denominators everything is expanded; if the factor contains no sum, also the result of
`expand_with_factor` is. -/
theorem expand_shape : (∀ e, Expanded (expand e)) ∧
    ∀ e f, NoSum f → Expanded (expandWith e f) := by
  refine expand_induction (P := fun _ e' => Expanded e') (Q := fun _ f w => NoSum f → Expanded w)
    ?_ ?_ ?_ ?_ ?_ ?_ ?_ ?_ ?_ ?_ ?_ ?_ ?_ ?_ ?_
  · exact fun _ => trivial
  · exact fun _ => trivial
  · exact fun _ => trivial
  · exact fun _ _ _ _ hl hr => ⟨hl, hr⟩
  · exact fun _ _ _ _ hl hr => ⟨hl, hr⟩
  · exact fun _ _ _ _ hl _ => hl
  · exact fun l r hl hr => ⟨(hasPM_noSum l).1 hl, (hasPM_noSum r).1 hr⟩
  · exact fun l r w _ hr hq => hq ((hasPM_noSum r).1 hr)
  · exact fun l r w hl _ hq => hq ((hasPM_noSum l).1 hl)
  · exact fun _ _ _ _ _ _ _ hp => hp
  · exact fun e f he hf => ⟨(hasPM_noSum e).1 he, hf⟩
  · exact fun _ _ _ _ _ hl hr hf => ⟨hl hf, hr hf⟩
  · exact fun _ _ _ _ _ hl hr hf => ⟨hl hf, hr hf⟩
  · exact fun _ _ _ _ _ _ _ hq hf => hq hf
  · exact fun _ _ _ _ _ hl hf => hl hf

theorem expandedAll_iff (e : CtExpr) : ExpandedAll e ↔ Expanded e ∧ DensExpanded e := by
  induction e with
  | bin l op r ihl ihr =>
    cases op with
    | plus => simp only [ExpandedAll, Expanded, DensExpanded, ihl, ihr]; tauto
    | minus => simp only [ExpandedAll, Expanded, DensExpanded, ihl, ihr]; tauto
    | mult =>
      simp only [ExpandedAll, Expanded, DensExpanded, ihl, ihr]
      have h1 := NoSum.expanded (e := l)
      have h2 := NoSum.expanded (e := r)
      tauto
    | div => simp only [ExpandedAll, Expanded, DensExpanded, ihl]; tauto
  | _ => simp [ExpandedAll, Expanded, DensExpanded]

theorem DensExpanded.product {e : CtExpr} (h : DensExpanded e) : ProductDens e := by
  induction e with
  | bin l op r ihl ihr =>
    cases op with
    | plus => exact ⟨ihl h.1, ihr h.2⟩
    | minus => exact ⟨ihl h.1, ihr h.2⟩
    | mult => exact h
    | div => exact ⟨ihl h.1, ihr ((expandedAll_iff r).1 h.2).2⟩
  | _ => trivial

theorem expand_dens : (∀ e, ProductDens e → DensExpanded (expand e)) ∧
    ∀ e f, DensExpanded e → DensExpanded f → DensExpanded (expandWith e f) := by
  have key := expand_induction
    (P := fun e e' => Expanded e' ∧ (ProductDens e → DensExpanded e'))
    (Q := fun e f w => (NoSum f → Expanded w) ∧ (DensExpanded e → DensExpanded f → DensExpanded w))
    ?_ ?_ ?_ ?_ ?_ ?_ ?_ ?_ ?_ ?_ ?_ ?_ ?_ ?_ ?_
  · exact ⟨fun e => (key.1 e).2, fun e f => (key.2 e f).2⟩
  all_goals intros
  all_goals simp only [Expanded, ProductDens, DensExpanded, hasPM_noSum, expandedAll_iff] at *
  all_goals try tauto
  case refine_10 l r w e hl hr hq hp =>
    exact ⟨hp.1, fun h => hp.2 (DensExpanded.product (hq.2 h.1 h.2))⟩

theorem not_sumFactor {e : CtExpr} (h : ExpandedAll e) : ¬ SumFactor e := by
  have hs : ∀ e, NoSum e → ¬ IsSum e := by
    intro e
    cases e with
    | bin l op r => cases op <;> simp [NoSum, IsSum]
    | _ => simp [NoSum, IsSum]
  induction e with
  | bin l op r ihl ihr =>
    cases op with
    | plus => exact not_or.2 ⟨ihl h.1, ihr h.2⟩
    | minus => exact not_or.2 ⟨ihl h.1, ihr h.2⟩
    | mult =>
      obtain ⟨h1, h2, h3, h4⟩ := h
      simp only [SumFactor, not_or]
      exact ⟨hs _ h1, hs _ h2, ihl h3, ihr h4⟩
    | div => exact not_or.2 ⟨ihl h.1, ihr h.2⟩
  | _ => exact id

theorem expand_divFree : (∀ e, DivFree e → DivFree (expand e)) ∧
    ∀ e f, DivFree e → DivFree f → DivFree (expandWith e f) := by
  refine expand_induction (P := fun e e' => DivFree e → DivFree e')
    (Q := fun e f w => DivFree e → DivFree f → DivFree w) ?_ ?_ ?_ ?_ ?_ ?_ ?_ ?_ ?_ ?_ ?_ ?_ ?_ ?_ ?_
  all_goals intros
  all_goals simp only [DivFree] at *
  all_goals tauto

/-! ### Occurrences of variables -/

theorem PolyIn.of_not_has {i : Nat} {e : CtExpr} (h : ¬ Has i e) : PolyIn i e := by
  induction e with
  | bin l op r ihl ihr =>
    obtain ⟨h1, h2⟩ := not_or.1 h
    cases op with
    | div => exact ⟨ihl h1, h2⟩
    | _ => exact ⟨ihl h1, ihr h2⟩
  | _ => trivial

theorem expand_has (i : Nat) : (∀ e, Has i (expand e) → Has i e) ∧
    ∀ e f, Has i (expandWith e f) → Has i e ∨ Has i f := by
  refine expand_induction (P := fun e e' => Has i e' → Has i e)
    (Q := fun e f w => Has i w → Has i e ∨ Has i f) ?_ ?_ ?_ ?_ ?_ ?_ ?_ ?_ ?_ ?_ ?_ ?_ ?_ ?_ ?_
  all_goals intros
  all_goals simp only [Has] at *
  all_goals tauto

theorem expand_poly (i : Nat) : (∀ e, PolyIn i e → PolyIn i (expand e)) ∧
    ∀ e f, PolyIn i e → PolyIn i f → PolyIn i (expandWith e f) := by
  have key := expand_induction (P := fun e e' => (Has i e' → Has i e) ∧ (PolyIn i e → PolyIn i e'))
    (Q := fun e f w => (Has i w → Has i e ∨ Has i f) ∧ (PolyIn i e → PolyIn i f → PolyIn i w))
    ?_ ?_ ?_ ?_ ?_ ?_ ?_ ?_ ?_ ?_ ?_ ?_ ?_ ?_ ?_
  · exact ⟨fun e => (key.1 e).2, fun e f => (key.2 e f).2⟩
  all_goals intros
  all_goals simp only [Has, PolyIn] at *
  all_goals tauto

end VM.Ct
