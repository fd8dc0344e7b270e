import Verif.Spec.Nested
import Verif.Ct.IntegrateLemmas
import Verif.Ct.OverloadLemmas
import Verif.Ct.NormalLemmas
import Verif.Props.Worlds
/-
Lemmas for C95: what occurs in an integral.
-/
namespace VM.Ct
open VM.Spec VM.Props

theorem powC_parts (t : CtExpr) (n : Nat) :
    (∀ j, Has j (powC t n) → Has j t) ∧ (∀ j, PolyIn j t → PolyIn j (powC t n)) ∧ (NoSym t → NoSym (powC t n)) := by
  induction n using Nat.strongRecOn with
  | _ n ih =>
    rw [powC_eq]
    split_ifs with h0 h1 h2
    · simp [Has, PolyIn, NoSym]
    · exact ⟨fun _ => id, fun _ => id, id⟩
    · exact ⟨fun j h => h.elim id id, fun j h => ⟨h, h⟩, fun h => ⟨h, h⟩⟩
    · obtain ⟨h3, h4, h5⟩ := ih (n / 2) (by omega)
      obtain ⟨h6, h7, h8⟩ := ih (n - n / 2) (by omega)
      exact ⟨fun j h => h.elim (h3 j) (h6 j), fun j h => ⟨h4 j h, h7 j h⟩, fun h => ⟨h5 h, h8 h⟩⟩

theorem monomial_parts {t m : CtExpr} {k : Int} (h : monomial t k = some m) :
    (∀ j, Has j m → Has j t) ∧ (∀ j, PolyIn j t → PolyIn j m) ∧ (NoSym t → NoSym m) := by
  unfold monomial at h
  split_ifs at h with h0 h1
  · cases h; exact ⟨fun _ => id, fun _ => id, id⟩
  · cases h
    obtain ⟨h2, h3, h4⟩ := powC_parts t (k + 1).toNat
    exact ⟨fun j h => h.elim (h2 j) False.elim, fun j h => ⟨h3 j h, id⟩, fun h => ⟨h4 h, trivial⟩⟩

theorem subst_one_has (i : Nat) {e : CtExpr} {j : Nat} (h : Has j (ctSubst (.var i) ♯1 e)) : Has j e ∧ j ≠ i := by
  induction e with
  | const n => rw [ctSubst_const] at h; exact h.elim
  | var k =>
    rw [ctSubst_var] at h
    split at h
    · exact h.elim
    · rename_i hk; obtain rfl : k = j := h; exact ⟨rfl, hk⟩
  | fsym t => rw [ctSubst_fsym] at h; exact h.elim
  | bin a op b iha ihb =>
    rw [ctSubst_bin] at h
    exact h.elim (fun h => ⟨.inl (iha h).1, (iha h).2⟩) fun h => ⟨.inr (ihb h).1, (ihb h).2⟩

theorem subst_one_poly (i : Nat) {e : CtExpr} {j : Nat} (h : PolyIn j e) : PolyIn j (ctSubst (.var i) ♯1 e) := by
  induction e with
  | const n => rw [ctSubst_const]; trivial
  | var k => rw [ctSubst_var]; split <;> trivial
  | fsym t => rw [ctSubst_fsym]; trivial
  | bin a op b iha ihb =>
    rw [ctSubst_bin]
    cases op with
    | div => exact ⟨iha h.1, fun hh => h.2 (subst_one_has i hh).1⟩
    | _ => exact ⟨iha h.1, ihb h.2⟩

theorem expand_noSym : (∀ e, NoSym e → NoSym (expand e)) ∧ ∀ e f, NoSym e → NoSym f → NoSym (expandWith e f) := by
  refine expand_induction (P := fun e e' => NoSym e → NoSym e')
    (Q := fun e f w => NoSym e → NoSym f → NoSym w) ?_ ?_ ?_ ?_ ?_ ?_ ?_ ?_ ?_ ?_ ?_ ?_ ?_ ?_ ?_
  all_goals intros
  all_goals simp only [NoSym] at *
  all_goals tauto

/-- What an integral `integrate_impl` computes is a simplified expression; what occurs in it, and in its denominators. -/
theorem integrateImpl_parts {cv : Conv} {i : Nat} {a b e r : CtExpr} (hp : PolyIn i e)
    (h : integrateImpl cv a b (.var i) e = some r) :
    (∃ q, ctSimplify cv q = some r) ∧
    (∀ j, Has j r → Has j a ∨ Has j b ∨ Has j e ∧ j ≠ i) ∧
    (∀ j, PolyIn j a → PolyIn j b → PolyIn j e → PolyIn j r) ∧
    (NoSym a → NoSym b → NoSym e → NoSym r) := by
  induction e generalizing r with
  | const n =>
    refine ⟨⟨_, h⟩, fun j hj => ?_, fun j ha hb _ => (ctSimplify_has j h).2 ⟨trivial, hb, ha⟩,
      fun ha hb _ => ctSimplify_noSym h ⟨trivial, hb, ha⟩⟩
    exact ((ctSimplify_has j h).1 hj).elim False.elim fun h => h.elim (.inr ∘ .inl) .inl
  | var k =>
    refine ⟨⟨_, h⟩, fun j hj => ?_, fun j ha hb _ => (ctSimplify_has j h).2 ⟨⟨⟨hb, hb⟩, id⟩, ⟨ha, ha⟩, id⟩,
      fun ha hb _ => ctSimplify_noSym h ⟨⟨⟨hb, hb⟩, trivial⟩, ⟨ha, ha⟩, trivial⟩⟩
    rcases (ctSimplify_has j h).1 hj with ((h1 | h1) | h1) | ((h1 | h1) | h1)
    exacts [.inr (.inl h1), .inr (.inl h1), h1.elim, .inl h1, .inl h1, h1.elim]
  | fsym t => cases h
  | bin l op r' ihl ihr =>
    cases op with
    | plus =>
      simp only [integrateImpl, Option.bind_eq_some_iff] at h
      obtain ⟨l₁, hl, r₁, hr, h⟩ := h
      obtain ⟨-, h1, h2, h3⟩ := ihl hp.1 hl
      obtain ⟨-, h4, h5, h6⟩ := ihr hp.2 hr
      refine ⟨⟨_, h⟩, fun j hj => ?_, fun j ha hb he => (ctSimplify_has j h).2 ⟨h2 j ha hb he.1, h5 j ha hb he.2⟩,
        fun ha hb he => ctSimplify_noSym h ⟨h3 ha hb he.1, h6 ha hb he.2⟩⟩
      exact ((ctSimplify_has j h).1 hj).elim
        (fun h7 => (h1 j h7).imp id (Or.imp id (And.imp_left .inl)))
        fun h7 => (h4 j h7).imp id (Or.imp id (And.imp_left .inr))
    | minus =>
      simp only [integrateImpl, Option.bind_eq_some_iff] at h
      obtain ⟨l₁, hl, r₁, hr, h⟩ := h
      obtain ⟨-, h1, h2, h3⟩ := ihl hp.1 hl
      obtain ⟨-, h4, h5, h6⟩ := ihr hp.2 hr
      refine ⟨⟨_, h⟩, fun j hj => ?_, fun j ha hb he => (ctSimplify_has j h).2 ⟨h2 j ha hb he.1, h5 j ha hb he.2⟩,
        fun ha hb he => ctSimplify_noSym h ⟨h3 ha hb he.1, h6 ha hb he.2⟩⟩
      exact ((ctSimplify_has j h).1 hj).elim
        (fun h7 => (h1 j h7).imp id (Or.imp id (And.imp_left .inl)))
        fun h7 => (h4 j h7).imp id (Or.imp id (And.imp_left .inr))
    | div =>
      simp only [integrateImpl, Option.bind_eq_some_iff] at h
      obtain ⟨l₁, hl, h⟩ := h
      obtain ⟨-, h1, h2, h3⟩ := ihl hp.1 hl
      refine ⟨⟨_, h⟩, fun j hj => ?_, fun j ha hb he => (ctSimplify_has j h).2 ⟨h2 j ha hb he.1, he.2⟩,
        fun ha hb he => ctSimplify_noSym h ⟨h3 ha hb he.1, he.2⟩⟩
      rcases (ctSimplify_has j h).1 hj with h4 | h4
      · exact (h1 j h4).imp id (Or.imp id (And.imp_left .inl))
      · exact .inr (.inr ⟨.inr h4, fun hji => hp.2 (hji ▸ h4)⟩)
    | mult =>
      simp only [integrateImpl, Option.bind_eq_some_iff] at h
      obtain ⟨c, hc, k, hk, mb, hmb, ma, hma, u, hu, w, hw, h⟩ := h
      obtain ⟨h1, h2, h3⟩ := monomial_parts hmb
      obtain ⟨h4, h5, h6⟩ := monomial_parts hma
      refine ⟨⟨_, h⟩, fun j hj => ?_, fun j ha hb he => ?_, fun ha hb he => ?_⟩
      · have hcj : Has j c → Has j (l *' r') ∧ j ≠ i := fun hh => subst_one_has i ((ctSimplify_has j hc).1 hh)
        rcases (ctSimplify_has j h).1 hj with h7 | h7
        · rcases (ctSimplify_has j hu).1 h7 with h8 | h8
          · exact .inr (.inl (h1 j h8))
          · exact .inr (.inr (hcj h8))
        · rcases (ctSimplify_has j hw).1 h7 with h8 | h8
          · exact .inl (h4 j h8)
          · exact .inr (.inr (hcj h8))
      · have hcj : PolyIn j c := (ctSimplify_has j hc).2 (subst_one_poly i he)
        exact (ctSimplify_has j h).2 ⟨(ctSimplify_has j hu).2 ⟨h2 j hb, hcj⟩, (ctSimplify_has j hw).2 ⟨h5 j ha, hcj⟩⟩
      · have hcj : NoSym c := ctSimplify_noSym hc (ctSubst_noSym trivial he)
        exact ctSimplify_noSym h ⟨ctSimplify_noSym hu ⟨h3 hb, hcj⟩, ctSimplify_noSym hw ⟨h6 ha, hcj⟩⟩

/-- The same for `integrate`. -/
theorem ctIntegrate_parts {cv : Conv} {i : Nat} {a b e r : CtExpr} (hp : PolyIn i e)
    (h : ctIntegrate cv a b e (.var i) = some r) :
    (∃ q, ctSimplify cv q = some r) ∧
    (∀ j, Has j r → Has j a ∨ Has j b ∨ Has j e ∧ j ≠ i) ∧
    (∀ j, PolyIn j a → PolyIn j b → PolyIn j e → PolyIn j r) ∧
    (NoSym a → NoSym b → NoSym e → NoSym r) := by
  cases e with
  | bin l op r' =>
    simp only [ctIntegrate, Option.bind_eq_some_iff] at h
    obtain ⟨p, hs, h⟩ := h
    obtain ⟨h1, h2, h3, h4⟩ := integrateImpl_parts ((ctSimplify_has i hs).2 ((expand_poly i).1 _ hp)) h
    exact ⟨h1, fun j hj => (h2 j hj).imp id (Or.imp id (And.imp_left fun h =>
        (expand_has j).1 _ ((ctSimplify_has j hs).1 h))),
      fun j ha hb he => h3 j ha hb ((ctSimplify_has j hs).2 ((expand_poly j).1 _ he)),
      fun ha hb he => h4 ha hb (ctSimplify_noSym hs (expand_noSym.1 _ he))⟩
  | _ => exact integrateImpl_parts hp h

theorem numeric_of_closed {e : CtExpr} (hn : NoSym e) (h : ∀ j, ¬ Has j e) : Numeric e := by
  induction e with
  | const n => trivial
  | var k => exact (h k rfl).elim
  | fsym t => exact hn.elim
  | bin l op r ihl ihr => exact ⟨ihl hn.1 fun j hj => h j (.inl hj), ihr hn.2 fun j hj => h j (.inr hj)⟩

/-- Whether an expression without variables in denominators is defined does not depend on the point. -/
theorem PolyAll.defined {e : CtExpr} (hp : PolyAll e) {v w φ : Nat → ℝ} (h : CDefined v φ e) : CDefined w φ e := by
  induction e with
  | const | var | fsym => trivial
  | bin l op r ihl ihr =>
    cases op with
    | div =>
      have hr : PolyAll r := fun j => PolyIn.of_not_has (hp j).2
      refine ⟨ihl (fun j => (hp j).1) h.1, ihr hr h.2.1, ?_⟩
      rw [cval_has fun k hk => ((hp k).2 hk).elim]
      exact h.2.2
    | _ => exact ⟨ihl (fun j => (hp j).1) h.1, ihr (fun j => (hp j).2) h.2⟩

end VM.Ct
