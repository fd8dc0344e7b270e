import Verif.Rt.Threads
/-
Threads that share memory which none of them releases do not see each other.
-/
namespace VM
variable {K β : Type}

@[simp] theorem Heap.give_next (h : Heap K) (c : Option (Cell K)) : (h.give c).next = h.next + 1 := by cases c <;> rfl

@[simp] theorem Heap.give_fails (h : Heap K) (c : Option (Cell K)) : (h.give c).fails = h.fails := by cases c <;> rfl

namespace Code

/-- The number of steps of a thread that runs alone. -/
def steps : Code K β → Heap K → Nat
  | .done _, _ => 0
  | .undefined, _ => 0
  | .read a k, h => match h.cells a with
    | none => 0
    | some c => (k c).steps h + 1
  | .new c k, h =>
    if h.fails h.next then (k none).steps { h with next := h.next + 1 } + 1
    else (k (some h.next)).steps (h.give c) + 1
  | .free a k, h => match h.cells a with
    | none => 0
    | some _ => k.steps { h with cells := fun b => if b = a then none else h.cells b } + 1

theorem step_run {c : Code K β} {h : Heap K} {r : β × Heap K} (hr : c.run h = some r) :
    ∃ c' h', c.step h = some (c', h') ∧ c'.run h' = some r ∧ c'.steps h' = c.steps h - 1 := by
  cases c with
  | done b => exact ⟨_, _, rfl, hr, rfl⟩
  | undefined => cases hr
  | read a k =>
    rw [run] at hr
    cases hc : h.cells a with
    | none => simp [hc] at hr
    | some c => exact ⟨k c, h, by simp [step, hc], by simpa [hc] using hr, by simp [steps, hc]⟩
  | new c k =>
    rw [run] at hr
    cases hf : h.fails h.next with
    | true =>
      rw [hf, if_pos rfl] at hr
      exact ⟨_, _, by simp [step, hf], hr, by simp [steps, hf]⟩
    | false =>
      rw [hf, if_neg (by simp)] at hr
      exact ⟨_, _, by simp [step, hf], hr, by simp [steps, hf]⟩
  | free a k =>
    rw [run] at hr
    cases hc : h.cells a with
    | none => simp [hc] at hr
    | some c =>
      exact ⟨_, _, by simp [step, hc]; exact ⟨rfl, rfl⟩, by simpa [hc] using hr, by simp [steps, hc]⟩

theorem steps_zero {c : Code K β} {h : Heap K} {r : β × Heap K} (hr : c.run h = some r) (hs : c.steps h = 0) :
    c = .done r.1 ∧ h = r.2 := by
  cases c with
  | done b => cases hr; exact ⟨rfl, rfl⟩
  | undefined => cases hr
  | read a k =>
    rw [run] at hr
    rw [steps] at hs
    cases hc : h.cells a <;> simp [hc] at hr hs
  | new c k =>
    rw [steps] at hs
    cases hf : h.fails h.next <;> simp [hf] at hs
  | free a k =>
    rw [run] at hr
    rw [steps] at hs
    cases hc : h.cells a <;> simp [hc] at hr hs

/-- Addresses are not used again, and a node that is there is never written to. -/
theorem run_old {c : Code K β} {h : Heap K} {b : β} {h' : Heap K} (hr : c.run h = some (b, h')) :
    h.next ≤ h'.next ∧ h'.fails = h.fails ∧
      ∀ a, a < h.next → h'.cells a = h.cells a ∨ h'.cells a = none := by
  induction c generalizing h with
  | done b' => cases hr; exact ⟨Nat.le_refl _, rfl, fun _ _ => .inl rfl⟩
  | undefined => cases hr
  | read a k ih =>
    rw [run] at hr
    cases hc : h.cells a with
    | none => simp [hc] at hr
    | some c => exact ih c (by simpa [hc] using hr)
  | new c k ih =>
    rw [run] at hr
    cases hf : h.fails h.next with
    | true =>
      rw [hf, if_pos rfl] at hr
      obtain ⟨h1, h2, h3⟩ := ih _ hr
      exact ⟨Nat.le_of_succ_le h1, h2, fun a ha => h3 a (Nat.lt_succ_of_lt ha)⟩
    | false =>
      rw [hf, if_neg (by simp)] at hr
      obtain ⟨h1, h2, h3⟩ := ih _ hr
      rw [Heap.give_next] at h1 h3
      rw [Heap.give_fails] at h2
      refine ⟨Nat.le_of_succ_le h1, h2, fun a ha => ?_⟩
      cases c with
      | none => exact h3 a (Nat.lt_succ_of_lt ha)
      | some c => simpa [Heap.give, Nat.ne_of_lt ha] using h3 a (Nat.lt_succ_of_lt ha)
  | free a k ih =>
    rw [run] at hr
    cases hc : h.cells a with
    | none => simp [hc] at hr
    | some c =>
      simp only [hc] at hr
      obtain ⟨h1, h2, h3⟩ := ih hr
      refine ⟨h1, h2, fun b hb => ?_⟩
      have := h3 b hb
      by_cases hba : b = a
      · right; simpa [hba] using this
      · simpa [hba] using this

end Code

variable {ι : Type} [DecidableEq ι]

/-- Where the threads work: `S` are the addresses of shared nodes, `D t` those of thread `t`. -/
structure Areas (S : Nat → Prop) (D : ι → Nat → Prop) : Prop where
  shared : ∀ t a, D t a → ¬ S a
  disj : ∀ t u a, t ≠ u → D t a → ¬ D u a

/-- Thread `t` of the machine is where it would be if it ran alone, on its way to the result `b` and the memory
`h'`; it has `n` steps to go. -/
structure Alone (S : Nat → Prop) (D : ι → Nat → Prop) (M : Machine ι K β) (t : ι) (b : β) (h' : Heap K) (n : Nat)
    (h : Heap K) : Prop where
  next : (M.threads t).next = h.next
  fails : M.fails = h.fails
  same : ∀ a, S a ∨ D t a → M.cells a = h.cells a
  only : ∀ a, h.cells a ≠ none → S a ∨ D t a
  old : ∀ a, S a → a < h.next
  run : (M.threads t).code.run h = some (b, h')
  names : ∀ a, h.next ≤ a → a < h'.next → D t a
  keep : ∀ a, S a → h'.cells a = h.cells a
  steps : (M.threads t).code.steps h ≤ n
  fresh : ∀ a, h.next ≤ a → h.cells a = none

variable {S : Nat → Prop} {D : ι → Nat → Prop} {M : Machine ι K β}

omit [DecidableEq ι] in
/-- A thread changes only what is its own, and reads only this and what is shared. -/
theorem Alone.access {t : ι} {b : β} {h' h : Heap K} {n : Nat} (H : Alone S D M t b h' n h) {a : Nat} {w : Bool}
    (ha : (M.threads t).access = some (a, w)) : (S a ∨ D t a) ∧ (w = true → D t a) := by
  obtain ⟨c', h1, e1, e2, -⟩ := Code.step_run H.run
  have hold := Code.run_old e2
  have hn := H.next
  unfold Thread.access at ha
  generalize hth : M.threads t = th at *
  obtain ⟨c, nx⟩ := th
  simp only at hn ha e1
  subst hn
  cases c with
  | done b' => cases ha
  | undefined => cases ha
  | read a' k =>
    cases ha
    simp only [Code.step, Option.map_eq_some_iff, Prod.mk.injEq] at e1
    obtain ⟨c, q1, -, -⟩ := e1
    exact ⟨H.only a (by simp [q1]), fun h => by cases h⟩
  | new c k =>
    cases ha
    simp only [Code.step] at e1
    have hD : D t h.next := by
      refine H.names _ (Nat.le_refl _) (Nat.lt_of_lt_of_le ?_ hold.1)
      cases hfa : h.fails h.next <;> simp only [hfa, if_true, if_false, Bool.false_eq_true] at e1 <;> cases e1 <;> simp
    exact ⟨.inr hD, fun _ => hD⟩
  | free a' k =>
    cases ha
    simp only [Code.step, Option.map_eq_some_iff, Prod.mk.injEq] at e1
    obtain ⟨c, q1, -, q3⟩ := e1
    subst q3
    have q5 : D t a := by
      refine (H.only a (by simp [q1])).resolve_left fun hS => ?_
      have := hold.2.2 a (H.old a hS)
      simp [H.keep a hS, q1] at this
    exact ⟨.inr q5, fun _ => q5⟩

omit [DecidableEq ι] in
/-- The next name a thread uses for memory is not in use. -/
theorem Alone.unused {t : ι} {b : β} {h' h : Heap K} {n : Nat} (H : Alone S D M t b h' n h) {c : Option (Cell K)}
    {k : Option Nat → Code K β} (hc : (M.threads t).code = .new c k) : M.cells (M.threads t).next = none := by
  have h1 : (M.threads t).access = some ((M.threads t).next, true) := by rw [Thread.access, hc]
  rw [H.same _ (H.access h1).1]
  exact H.fresh _ (Nat.le_of_eq H.next.symm)

/-- One step: the thread gets ahead, the others do not notice. -/
theorem Alone.step (A : Areas S D) {t : ι} {b : β} {h' h : Heap K} {n : Nat} (H : Alone S D M t b h' n h) :
    ∃ M' h1, M.step t = some M' ∧ Alone S D M' t b h' (n - 1) h1 ∧
      ∀ u b' k' m k, u ≠ t → Alone S D M u b' k' m k → Alone S D M' u b' k' m k := by
  obtain ⟨c', h1, e1, e2, e3⟩ := Code.step_run H.run
  have hold := Code.run_old e2
  -- the same step in the common memory
  obtain ⟨M', g1, g2, g3, g4, g5, g6, g7, g8, g9⟩ : ∃ M', M.step t = some M' ∧ M'.threads t = ⟨c', h1.next⟩ ∧
      (∀ u, u ≠ t → M'.threads u = M.threads u) ∧ M'.fails = M.fails ∧ h1.fails = h.fails ∧ h.next ≤ h1.next ∧
      (∀ a, S a ∨ D t a → M'.cells a = h1.cells a) ∧ (∀ a, ¬ D t a → M'.cells a = M.cells a ∧ h1.cells a = h.cells a) ∧
      (∀ a, h1.next ≤ a → h1.cells a = none) := by
    have hn := H.next
    have hf := H.fails
    have hrun := H.run
    unfold Machine.step
    generalize hth : M.threads t = th at *
    obtain ⟨c, nx⟩ := th
    simp only at hn hrun e1 e3 ⊢
    subst hn
    cases c with
    | done b' =>
      cases e1
      exact ⟨_, rfl, by simp, by simp +contextual, rfl, rfl, Nat.le_refl _, H.same, fun _ _ => ⟨rfl, rfl⟩, H.fresh⟩
    | undefined => cases e1
    | read a k =>
      simp only [Code.step, Option.map_eq_some_iff, Prod.mk.injEq] at e1
      obtain ⟨c, q1, q2, q3⟩ := e1
      subst q3
      have q4 : M.cells a = some c := by rw [H.same a (H.only a (by simp [q1]))]; exact q1
      refine ⟨⟨M.cells, M.fails, fun u => if u = t then ⟨k c, h.next⟩ else M.threads u⟩, by simp [Code.step, q4], by simp [q2],
        by simp +contextual, rfl, rfl, Nat.le_refl _, H.same, fun _ _ => ⟨rfl, rfl⟩, H.fresh⟩
    | new c k =>
      simp only [Code.step] at e1 ⊢
      rw [hf]
      have hD : D t h.next := by
        refine H.names _ (Nat.le_refl _) (Nat.lt_of_lt_of_le ?_ hold.1)
        cases hfa : h.fails h.next <;> simp only [hfa, if_true, if_false, Bool.false_eq_true] at e1 <;> cases e1 <;> simp
      cases hfa : h.fails h.next with
      | true =>
        simp only [hfa, if_true] at e1 ⊢
        cases e1
        exact ⟨_, rfl, by simp, by simp +contextual, rfl, rfl, Nat.le_succ _, H.same, fun _ _ => ⟨rfl, rfl⟩,
          fun a ha => H.fresh a (Nat.le_of_succ_le ha)⟩
      | false =>
        simp only [hfa, if_false, Bool.false_eq_true] at e1 ⊢
        cases e1
        refine ⟨_, rfl, by cases c <;> simp [Heap.give], by simp +contextual, rfl, by simp, by simp, ?_, ?_, ?_⟩
        · intro a ha
          cases c with
          | none => exact H.same a ha
          | some c => by_cases hb : a = h.next <;> simp [Heap.give, hb, H.same a ha]
        · intro a ha
          cases c with
          | none => exact ⟨rfl, rfl⟩
          | some c =>
            have hb : a ≠ h.next := fun hb => ha (hb ▸ hD)
            simp [Heap.give, hb]
        · intro a ha
          rw [Heap.give_next] at ha
          cases c with
          | none => exact H.fresh a (Nat.le_of_succ_le ha)
          | some c => simpa [Heap.give, show a ≠ h.next by omega] using H.fresh a (Nat.le_of_succ_le ha)
    | free a k =>
      simp only [Code.step, Option.map_eq_some_iff, Prod.mk.injEq] at e1
      obtain ⟨c, q1, q2, q3⟩ := e1
      subst q3
      have q4 : M.cells a = some c := by rw [H.same a (H.only a (by simp [q1]))]; exact q1
      have q5 : D t a := by
        refine (H.only a (by simp [q1])).resolve_left fun hS => ?_
        have := hold.2.2 a (H.old a hS)
        simp [H.keep a hS, q1] at this
      refine ⟨⟨fun b => if b = a then none else M.cells b, M.fails, fun u => if u = t then ⟨k, h.next⟩ else M.threads u⟩,
        by simp [Code.step, q4], by simp [q2], by simp +contextual, rfl, rfl, Nat.le_refl _, ?_, ?_, ?_⟩
      · intro b' hb
        by_cases hba : b' = a <;> simp [hba, H.same b' hb]
      · intro b' hb
        have : b' ≠ a := fun hba => hb (hba ▸ q5)
        simp [this]
      · intro b' hb
        simp [H.fresh b' hb]
  refine ⟨M', h1, g1, ⟨by rw [g2], by rw [g4, g5, H.fails], g7, ?_, fun a ha => Nat.lt_of_lt_of_le (H.old a ha) g6,
    by rw [g2]; exact e2, fun a ha => H.names a (Nat.le_trans g6 ha), ?_, ?_, g9⟩, ?_⟩
  · intro a ha
    by_cases hd : D t a
    · exact .inr hd
    · rw [(g8 a hd).2] at ha; exact H.only a ha
  · intro a ha
    rw [(g8 a fun hd => A.shared t a hd ha).2]; exact H.keep a ha
  · rw [g2, e3]; exact Nat.sub_le_sub_right H.steps 1
  · intro u b' k' m k hu U
    have hd : ∀ a, S a ∨ D u a → ¬ D t a := fun a ha hd => ha.elim (A.shared t a hd) (A.disj t u a (Ne.symm hu) hd)
    exact ⟨by rw [g3 u hu]; exact U.next, by rw [g4]; exact U.fails,
      fun a ha => by rw [(g8 a (hd a ha)).1]; exact U.same a ha, U.only, U.old, by rw [g3 u hu]; exact U.run, U.names, U.keep,
      by rw [g3 u hu]; exact U.steps, U.fresh⟩

/-- Every thread is where it would be if it had run alone, after any number of steps in any order. -/
theorem Alone.exec (A : Areas S D) {b : ι → β} {h' : ι → Heap K} : ∀ (ts : List ι) {M : Machine ι K β} {n : ι → Nat}
    {h : ι → Heap K}, (∀ t, Alone S D M t (b t) (h' t) (n t) (h t)) →
    ∃ (M' : Machine ι K β) (h1 : ι → Heap K), M.exec ts = some M' ∧ ∀ t, Alone S D M' t (b t) (h' t) (n t - ts.count t) (h1 t)
  | [], M, n, h, H => ⟨M, h, rfl, by simpa using H⟩
  | t :: ts, M, n, h, H => by
    obtain ⟨M1, h1, e1, e2, e3⟩ := (H t).step A
    obtain ⟨M', h2, e4, e5⟩ := Alone.exec A ts (M := M1) (n := fun u => if u = t then n t - 1 else n u)
      (h := fun u => if u = t then h1 else h u) fun u => by
        by_cases hu : u = t
        · subst hu; simpa using e2
        · simpa [hu] using e3 u _ _ _ _ hu (H u)
    refine ⟨M', h2, by simp [Machine.exec, e1, e4], fun u => ?_⟩
    have := e5 u
    by_cases hu : u = t
    · subst hu
      simp only [if_true] at this
      simpa [List.count_cons, Nat.sub_sub, Nat.add_comm] using this
    · simpa [hu, List.count_cons, Ne.symm hu] using this

end VM
