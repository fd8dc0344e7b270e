import Verif.Spec.Body
import Verif.Rt.PairLemmas
/-
Functions with local objects work on the heap as on independent values.
-/
namespace VM
open Spec Run Prog
variable {K : Type} [Num K] {o fl : Nat → Bool} {G : List Nat}

/-- The code, run on the heap, has one of its effects. -/
inductive BSim (fl : Nat → Bool) (σ : Store K) (b : Body K) (G : List Nat) : Out (State K) Unit → Prop
  | ok {s' L τ} : Rep fl s' τ (L ++ G) → Did σ b false τ → (Neat σ b → L = []) → BSim fl σ b G (.ok () s')
  | threw {x s' L τ} : Rep fl s' τ (L ++ G) → Did σ b true τ →
      (Neat σ b → x = .badAlloc ∧ ∃ a, fl a = true) → BSim fl σ b G (.throw x s')

theorem destroy_sim {s : State K} {σ : Store K} {i : Nat} (H : Rep fl s σ G) (hi : σ i ≠ none) :
    ∃ s', VM.exec o (.destroy i) s = .ok () s' ∧ Rep fl s' (σ.set i none) G := by
  obtain ⟨v, hv⟩ := Option.ne_none_iff_exists'.1 hi
  have h := exec_ends (o := o) H (.destroy hv) trivial
  revert h
  generalize VM.exec o (.destroy i) s = r
  rintro (h | ⟨_, h, _⟩)
  · exact ⟨_, rfl, h⟩
  · cases h

theorem after_sim {s : State K} {σ : Store K} {i : Nat} {b : Body K} (h : BSim fl σ b G (b.exec o s))
    (hi : ∀ υ, Did σ b true υ → υ i ≠ none) :
    (∃ s' L τ, after o i (b.exec o) s = .ok () s' ∧ Rep fl s' τ (L ++ G) ∧ Did σ b false τ ∧ (Neat σ b → L = [])) ∨
    ∃ x s' L τ, after o i (b.exec o) s = .throw x s' ∧ Rep fl s' (τ.set i none) (L ++ G) ∧ Did σ b true τ ∧
      (Neat σ b → x = .badAlloc ∧ ∃ a, fl a = true) := by
  unfold after
  revert h
  generalize b.exec o s = r
  rintro (⟨h1, h2, h3⟩ | @⟨x, s', L, τ, h1, h2, h3⟩)
  · exact .inl ⟨_, _, _, rfl, h1, h2, h3⟩
  · obtain ⟨s'', h4, h5⟩ := destroy_sim (o := o) h1 (hi _ h2)
    exact .inr ⟨x, s'', L, τ, by simp only [h4], h5, h2, h3⟩

theorem body_sim : ∀ (b : Body K) {s : State K} {σ : Store K} {G : List Nat}, Rep fl s σ G → Legal σ b →
    BSim fl σ b G (b.exec o s)
  | .one c, s, σ, G, H, ⟨τ, hx⟩ => by
    have hs := exec_sim (o := o) H hx
    rw [Body.exec]
    revert hs
    generalize VM.exec o c s = r
    rintro (⟨h2, h3, h4⟩ | ⟨h2, h3⟩ | ⟨h2, h3, ⟨a, -, -, ha⟩⟩)
    · exact .ok h2 (.one (.normal hx h4)) h3
    · exact .threw h2 (.one (.threw hx h3)) fun h => absurd h3 (not_throwing_tidy h)
    · exact .threw h2 (.one (.noMemory h3)) fun _ => ⟨rfl, a, ha⟩
  | .scope i a b, s, σ, G, H, ⟨hl, hr⟩ => by
    have h := body_sim a H hl
    rw [Body.exec]
    revert h
    generalize ha : a.exec o s = r
    rintro (@⟨s', L, τ, h1, h2, h3⟩ | ⟨h1, h2, h3⟩)
    · rw [bind_ok ha]
      obtain ⟨hb, hi⟩ := hr τ h2
      rcases after_sim (body_sim b h1 hb) (fun υ h => hi true υ h) with ⟨s'', M, υ, g1, g2, g3, g4⟩ |
        ⟨x, s'', M, υ, g1, g2, g3, g4⟩
      · rw [bind_ok g1]
        obtain ⟨s3, k1, k2⟩ := destroy_sim (o := o) g2 (hi _ _ g3)
        rw [k1]
        refine .ok (L := M ++ L) (by rw [List.append_assoc]; exact k2) (.scope h2 g3) fun hn => ?_
        rw [h3 hn.1, g4 (hn.2 _ h2)]; rfl
      · rw [bind_throw g1]
        exact .threw (L := M ++ L) (by rw [List.append_assoc]; exact g2) (.scope h2 g3) fun hn => g4 (hn.2 _ h2)
    · rw [bind_throw ha]
      exact .threw h1 (.scopeMake h2) fun hn => h3 hn.1
  | .keep i a b, s, σ, G, H, ⟨hl, hr⟩ => by
    have h := body_sim a H hl
    rw [Body.exec]
    revert h
    generalize ha : a.exec o s = r
    rintro (@⟨s', L, τ, h1, h2, h3⟩ | ⟨h1, h2, h3⟩)
    · rw [bind_ok ha]
      obtain ⟨hb, hi⟩ := hr τ h2
      rcases after_sim (body_sim b h1 hb) hi with ⟨s'', M, υ, g1, g2, g3, g4⟩ | ⟨x, s'', M, υ, g1, g2, g3, g4⟩
      · rw [g1]
        refine .ok (L := M ++ L) (by rw [List.append_assoc]; exact g2) (.keep h2 g3) fun hn => ?_
        rw [h3 hn.1, g4 (hn.2 _ h2)]; rfl
      · rw [g1]
        exact .threw (L := M ++ L) (by rw [List.append_assoc]; exact g2) (.keepThrew h2 g3) fun hn => g4 (hn.2 _ h2)
    · rw [bind_throw ha]
      exact .threw h1 (.keepMake h2) fun hn => h3 hn.1
  | .seq a b, s, σ, G, H, ⟨hl, hr⟩ => by
    have h := body_sim a H hl
    rw [Body.exec]
    revert h
    generalize ha : a.exec o s = r
    rintro (@⟨s', L, τ, h1, h2, h3⟩ | ⟨h1, h2, h3⟩)
    · rw [bind_ok ha]
      have h := body_sim b h1 (hr τ h2)
      revert h
      generalize b.exec o s' = r
      rintro (@⟨s'', M, υ, g2, g3, g4⟩ | @⟨x, s'', M, υ, g2, g3, g4⟩)
      · refine .ok (L := M ++ L) (by rw [List.append_assoc]; exact g2) (.seq h2 g3) fun hn => ?_
        rw [h3 hn.1, g4 (hn.2 _ h2)]; rfl
      · exact .threw (L := M ++ L) (by rw [List.append_assoc]; exact g2) (.seq h2 g3) fun hn => g4 (hn.2 _ h2)
    · rw [bind_throw ha]
      exact .threw h1 (.seqThrew h2) fun hn => h3 hn.1
  | .attempt a p q, s, σ, G, H, ⟨hl, hr⟩ => by
    have h := body_sim a H hl
    simp only [Body.exec]
    revert h
    generalize a.exec o s = r
    rintro (@⟨s', L, τ, h1, h2, h3⟩ | @⟨x, s', L, τ, h1, h2, h3⟩)
    · simp only
      have h := body_sim p h1 ((hr τ).1 h2)
      revert h
      generalize p.exec o s' = r
      rintro (@⟨s'', M, υ, g2, g3, g4⟩ | @⟨x, s'', M, υ, g2, g3, g4⟩)
      · exact .ok (L := M ++ L) (by rw [List.append_assoc]; exact g2) (.attempt h2 g3) fun hn => hn.elim
      · exact .threw (L := M ++ L) (by rw [List.append_assoc]; exact g2) (.attempt h2 g3) fun hn => hn.elim
    · simp only
      have h := body_sim q h1 ((hr τ).2 h2)
      revert h
      generalize q.exec o s' = r
      rintro (@⟨s'', M, υ, g2, g3, g4⟩ | @⟨x, s'', M, υ, g2, g3, g4⟩)
      · exact .ok (L := M ++ L) (by rw [List.append_assoc]; exact g2) (.attemptThrew h2 g3) fun hn => hn.elim
      · exact .threw (L := M ++ L) (by rw [List.append_assoc]; exact g2) (.attemptThrew h2 g3) fun hn => hn.elim

/-! ### What functions do to objects from outside -/

theorem outcome_constructs {σ τ : Store K} {c : Stmt K} {i : Nat} {t : Bool} (hc : Constructs i c)
    (h : Outcome σ c t τ) :
    (∀ j, j ≠ i → τ j = σ j) ∧ (t = true → τ i = σ i) ∧ (t = false → σ i = none ∧ τ i ≠ none) := by
  cases h with
  | normal h ht =>
    cases h <;> first
      | exact absurd hc id
      | (cases hc; exact ⟨fun j hj => set_other hj, (fun h => by cases h), (fun _ => ⟨‹_›, by rw [set_self]; simp⟩)⟩)
      | exact absurd ⟨_, _, _, .inl rfl, ‹_›⟩ ht
  | threw h ht =>
    obtain ⟨k, rhs, x, rfl | rfl, h2⟩ := ht
    · cases hc
      cases h with
      | init h3 h4 => exact absurd h2 h4.not_throw
      | initUnset h3 h4 => cases h2
      | initThrow => exact ⟨fun _ _ => rfl, fun _ => rfl, (fun h => by cases h)⟩
    · exact absurd hc id
  | noMemory h =>
    cases h <;> first
      | exact absurd hc id
      | exact ⟨fun _ _ => rfl, fun _ => rfl, (fun h => by cases h)⟩

theorem outcome_changes {σ τ : Store K} {c : Stmt K} {i : Nat} {t : Bool} (hc : Changes i c)
    (h : Outcome σ c t τ) : (∀ j, j ≠ i → τ j = σ j) ∧ (τ i = none ↔ σ i = none) := by
  cases h with
  | normal h ht =>
    cases h <;> first
      | exact absurd hc id
      | (cases hc; exact ⟨fun j hj => set_other hj, by rw [set_self]; simp [*]⟩)
      | exact ⟨fun _ _ => rfl, Iff.rfl⟩
  | threw h ht =>
    cases h <;> first
      | exact absurd hc id
      | (cases hc; exact ⟨fun j hj => set_other hj, by rw [set_self]; simp [*]⟩)
      | exact ⟨fun _ _ => rfl, Iff.rfl⟩
  | noMemory h =>
    cases h <;> first
      | exact absurd hc id
      | exact ⟨fun _ _ => rfl, Iff.rfl⟩
      | (cases hc; exact ⟨fun j hj => set_other hj, by rw [set_self]; simp [*]⟩)

/-- The effect of a function with result `i`. -/
structure Returned (σ : Store K) (i : Nat) (b : Body K) (t : Bool) (τ : Store K) : Prop where
  same : ∀ j, ¬ Assigns j b → (t = false → j ≠ i) → τ j = σ j
  alive : ∀ j, (t = false → j ≠ i) → (τ j = none ↔ σ j = none)
  made : t = false → σ i = none ∧ τ i ≠ none

/-- The effect of a function without result. -/
structure Proceeded (σ : Store K) (b : Body K) (τ : Store K) : Prop where
  same : ∀ j, ¬ Assigns j b → τ j = σ j
  alive : ∀ j, τ j = none ↔ σ j = none

theorem body_did (b : Body K) : ∀ {σ τ : Store K} {t : Bool}, Did σ b t τ →
    (∀ i, Returns i b → Returned σ i b t τ) ∧ (Procedure b → Proceeded σ b τ) := by
  induction b with
  | one c =>
    intro σ τ t h
    cases h with | one h =>
    constructor
    · intro i hr
      cases hr with | one hc =>
      obtain ⟨h1, h2, h3⟩ := outcome_constructs hc h
      have h4 : ∀ j, (t = false → j ≠ i) → τ j = σ j := by
        intro j hj
        by_cases h : j = i
        · subst h
          cases t with
          | true => exact h2 rfl
          | false => exact absurd rfl (hj rfl)
        · exact h1 j h
      exact ⟨fun j _ hj => h4 j hj, fun j hj => by rw [h4 j hj], h3⟩
    · intro hr
      cases hr with | @one i _ hc =>
      obtain ⟨h1, h2⟩ := outcome_changes hc h
      refine ⟨fun j hj => h1 j ?_, fun j => ?_⟩
      · rintro rfl; exact hj (.one hc)
      · by_cases h : j = i
        · subst h; exact h2
        · rw [h1 j h]
  | scope j a b iha ihb =>
    intro σ τ t h
    cases h with
    | scopeMake h =>
      have key : ∀ {k}, Returns k a → (∀ j', ¬ Assigns j' (.scope j a b) → τ j' = σ j') ∧ ∀ j', τ j' = none ↔ σ j' = none :=
        fun ha => ⟨fun k hk => ((iha h).1 _ ha).same k (fun h => hk (.scopeL h)) (by simp),
          fun k => ((iha h).1 _ ha).alive k (by simp)⟩
      constructor
      · intro i hr
        cases hr with | scope hij ha hb =>
        exact ⟨fun k hk _ => (key ha).1 k hk, fun k _ => (key ha).2 k, by simp⟩
      · intro hr
        cases hr with | scope ha hb =>
        exact ⟨(key ha).1, (key ha).2⟩
    | @scope _ _ _ _ _ τ1 υ h1 h2 =>
      constructor
      · intro i hr
        cases hr with | scope hij ha hb =>
        have ra := (iha h1).1 j ha
        have rb := (ihb h2).1 i hb
        refine ⟨fun k hk ht => ?_, fun k ht => ?_, fun ht => ?_⟩
        · by_cases hkj : k = j
          · subst hkj; rw [set_self, (ra.made rfl).1]
          · rw [set_other hkj, rb.same k (fun h => hk (.scopeR hkj h)) ht,
              ra.same k (fun h => hk (.scopeL h)) (fun _ => hkj)]
        · by_cases hkj : k = j
          · subst hkj; rw [set_self, (ra.made rfl).1]
          · rw [set_other hkj, rb.alive k ht, ra.alive k (fun _ => hkj)]
        · rw [set_other (Ne.symm hij), ← ra.alive i (fun _ => Ne.symm hij)]
          exact rb.made ht
      · intro hr
        cases hr with | scope ha hb =>
        have ra := (iha h1).1 j ha
        have rb := (ihb h2).2 hb
        refine ⟨fun k hk => ?_, fun k => ?_⟩
        · by_cases hkj : k = j
          · subst hkj; rw [set_self, (ra.made rfl).1]
          · rw [set_other hkj, rb.same k (fun h => hk (.scopeR hkj h)),
              ra.same k (fun h => hk (.scopeL h)) (fun _ => hkj)]
        · by_cases hkj : k = j
          · subst hkj; rw [set_self, (ra.made rfl).1]
          · rw [set_other hkj, rb.alive k, ra.alive k (fun _ => hkj)]
  | keep j a b iha ihb =>
    intro σ τ t h
    refine ⟨fun i hr => ?_, fun hr => by cases hr⟩
    cases hr with | keep ha hb =>
    cases h with
    | keepMake h =>
      have ra := (iha h).1 _ ha
      exact ⟨fun k hk ht => ra.same k (fun h => hk (.keepL h)) ht, ra.alive, by simp⟩
    | @keep _ _ _ _ τ1 _ h1 h2 =>
      have ra := (iha h1).1 _ ha
      have rb := (ihb h2).2 hb
      refine ⟨fun k hk ht => ?_, fun k ht => ?_, fun ht => ⟨(ra.made rfl).1, ?_⟩⟩
      · rw [rb.same k (fun h => hk (.keepR (ht rfl) h)), ra.same k (fun h => hk (.keepL h)) ht]
      · rw [rb.alive, ra.alive k ht]
      · rw [Ne, rb.alive]; exact (ra.made rfl).2
    | @keepThrew _ _ _ _ τ1 υ h1 h2 =>
      have ra := (iha h1).1 _ ha
      have rb := (ihb h2).2 hb
      refine ⟨fun k hk ht => ?_, fun k ht => ?_, by simp⟩
      · by_cases hkj : k = j
        · subst hkj; rw [set_self, (ra.made rfl).1]
        · rw [set_other hkj, rb.same k (fun h => hk (.keepR hkj h)), ra.same k (fun h => hk (.keepL h)) (fun _ => hkj)]
      · by_cases hkj : k = j
        · subst hkj; rw [set_self, (ra.made rfl).1]
        · rw [set_other hkj, rb.alive, ra.alive k (fun _ => hkj)]
  | seq a b iha ihb =>
    intro σ τ t h
    constructor
    · intro i hr
      cases hr with | seq ha hb =>
      cases h with
      | seqThrew h =>
        have ra := (iha h).2 ha
        exact ⟨fun k hk _ => ra.same k (fun h => hk (.seqL h)), fun k _ => ra.alive k, by simp⟩
      | seq h1 h2 =>
        have ra := (iha h1).2 ha
        have rb := (ihb h2).1 _ hb
        refine ⟨fun k hk ht => ?_, fun k ht => ?_, fun ht => ?_⟩
        · rw [rb.same k (fun h => hk (.seqR h)) ht, ra.same k (fun h => hk (.seqL h))]
        · rw [rb.alive k ht, ra.alive]
        · rw [← ra.alive]; exact rb.made ht
    · intro hr
      cases hr with | seq ha hb =>
      cases h with
      | seqThrew h =>
        have ra := (iha h).2 ha
        exact ⟨fun k hk => ra.same k (fun h => hk (.seqL h)), ra.alive⟩
      | seq h1 h2 =>
        have ra := (iha h1).2 ha
        have rb := (ihb h2).2 hb
        refine ⟨fun k hk => ?_, fun k => ?_⟩
        · rw [rb.same k (fun h => hk (.seqR h)), ra.same k (fun h => hk (.seqL h))]
        · rw [rb.alive, ra.alive]
  | attempt a p q iha ihp ihq =>
    intro σ τ t h
    have key : Procedure a → ∃ u σ', Proceeded σ a σ' ∧ (u = false ∧ Did σ' p t τ ∨ u = true ∧ Did σ' q t τ) := by
      intro ha
      cases h with
      | attempt h1 h2 => exact ⟨false, _, (iha h1).2 ha, .inl ⟨rfl, h2⟩⟩
      | attemptThrew h1 h2 => exact ⟨true, _, (iha h1).2 ha, .inr ⟨rfl, h2⟩⟩
    constructor
    · intro i hr
      cases hr with | attempt ha hp hq =>
      obtain ⟨u, σ', ra, h⟩ := key ha
      have rb : (∀ j, ¬ Assigns j (.attempt a p q) → (t = false → j ≠ i) → τ j = σ' j) ∧
          (∀ j, (t = false → j ≠ i) → (τ j = none ↔ σ' j = none)) ∧ (t = false → σ' i = none ∧ τ i ≠ none) := by
        rcases h with ⟨-, h⟩ | ⟨-, h⟩
        · have r := (ihp h).1 _ hp
          exact ⟨fun k hk ht => r.same k (fun h => hk (.attemptL h)) ht, r.alive, r.made⟩
        · have r := (ihq h).1 _ hq
          exact ⟨fun k hk ht => r.same k (fun h => hk (.attemptR h)) ht, r.alive, r.made⟩
      refine ⟨fun k hk ht => ?_, fun k ht => ?_, fun ht => ?_⟩
      · rw [rb.1 k hk ht, ra.same k (fun h => hk (.attempt h))]
      · rw [rb.2.1 k ht, ra.alive]
      · rw [← ra.alive]; exact rb.2.2 ht
    · intro hr
      cases hr with | attempt ha hp hq =>
      obtain ⟨u, σ', ra, h⟩ := key ha
      have rb : (∀ j, ¬ Assigns j (.attempt a p q) → τ j = σ' j) ∧ (∀ j, (τ j = none ↔ σ' j = none)) := by
        rcases h with ⟨-, h⟩ | ⟨-, h⟩
        · have r := (ihp h).2 hp
          exact ⟨fun k hk => r.same k (fun h => hk (.attemptL h)), r.alive⟩
        · have r := (ihq h).2 hq
          exact ⟨fun k hk => r.same k (fun h => hk (.attemptR h)), r.alive⟩
      refine ⟨fun k hk => ?_, fun k => ?_⟩
      · rw [rb.1 k hk, ra.same k (fun h => hk (.attempt h))]
      · rw [rb.2 k, ra.alive]

end VM
