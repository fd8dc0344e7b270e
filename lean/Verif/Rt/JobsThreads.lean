import Verif.Rt.JobsSim
/-
Threads that run programs with calls.
-/
namespace VM
variable {K : Type}
open Act Run Spec

variable {ι : Type} [DecidableEq ι]

/-- A step of a thread changes at most the memory it accesses. -/
theorem step_cells {β : Type} {M M' : Machine ι K β} {t : ι} (h : M.step t = some M') (a : Nat)
    (ha : M'.cells a ≠ M.cells a) : (M.threads t).access = some (a, true) := by
  unfold Machine.step at h
  rw [Option.map_eq_some_iff] at h
  obtain ⟨r, h, rfl⟩ := h
  simp only [Thread.access]
  cases hc : (M.threads t).code with
  | done b => rw [hc] at h; cases h; exact (ha rfl).elim
  | undefined => rw [hc] at h; cases h
  | read a' k =>
    rw [hc, Code.step, Option.map_eq_some_iff] at h
    obtain ⟨x, h, rfl⟩ := h
    exact (ha rfl).elim
  | new c' k =>
    rw [hc, Code.step] at h
    dsimp only at h
    split at h
    · cases h; exact (ha rfl).elim
    · cases h
      cases c' with
      | none => exact (ha rfl).elim
      | some c' =>
        by_cases hn : a = (M.threads t).next
        · rw [hn]
        · exact (ha (if_neg hn)).elim
  | free a' k =>
    rw [hc, Code.step, Option.map_eq_some_iff] at h
    obtain ⟨x, h, rfl⟩ := h
    by_cases hn : a = a'
    · rw [hn]
    · exact (ha (if_neg hn)).elim

/-- Memory outside the areas of the threads stays as it is. -/
theorem Alone.outside {β : Type} {S : Nat → Prop} {D : ι → Nat → Prop} (A : Areas S D) {b : ι → β} {h' : ι → Heap K} :
    ∀ (ts : List ι) {M M' : Machine ι K β} {n : ι → Nat} {h : ι → Heap K},
      (∀ t, Alone S D M t (b t) (h' t) (n t) (h t)) → M.exec ts = some M' → ∀ a, (∀ t, ¬ D t a) → M'.cells a = M.cells a
  | [], M, M', n, h, H, he, a, ha => by cases he; rfl
  | t :: ts, M, M', n, h, H, he, a, ha => by
    obtain ⟨M1, h1, e1, e2, e3⟩ := (H t).step A
    rw [Machine.exec, e1] at he
    have := Alone.outside A ts (M := M1) (n := fun u => if u = t then n t - 1 else n u)
      (h := fun u => if u = t then h1 else h u) (fun u => by
        by_cases hu : u = t
        · subst hu; simpa using e2
        · simpa [hu] using e3 u _ _ _ _ hu (H u)) he a ha
    rw [this]
    by_contra hne
    exact ha t (((H t).access (step_cells e1 a hne)).2 rfl)

variable [Num K] [NumLt K] {s : State K} {σ : Store K} {G : List Nat} {who : Nat → Option ι} {fl : Nat → Bool}

/-- Threads that work on objects of their own and only read the shared ones: whatever the order of their accesses to
memory, each does what it does alone. -/
theorem jobs_sim (H : Rep fl s σ G) {P : ι → Job K} {ord : ι → Nat → Bool} {lo hi : ι → Nat}
    {code : ι → Code K (JobResult K)} (hS : ∀ t, SafeJob (σ.part who t) (P t))
    (hO : ∀ t, JobOn (fun i => who i = some t) (P t)) (hN : JobNames s who ord P lo hi)
    (hC : ∀ t, RunsJob (ord t) (P t) (sharedWith s who t) (code t)) :
    ∃ (τ : ι → Store K) (as : ι → List (Except Exc (Answer K))) (l : ι → Local) (n : ι → Nat),
      (∀ t, RanJob (Short fl (lo t) (hi t)) (σ.part who t) (P t) (as t) (τ t)) ∧
      ∀ ts : List ι, ∃ M, (startedJobs s lo code).exec ts = some M ∧ ¬ Race M ∧ Fresh M ∧
        (∀ r e k, who r.obj = none → Spec.look σ r = some e → (State.mk ⟨M.cells, k, s.heap.fails⟩ s.ptr s.objs).view r = .ok e) ∧
        (∀ t, n t ≤ ts.count t → (M.threads t).code = .done (as t, l t) ∧ (∀ i, (l t).objs i = none ↔ τ t i = none) ∧
          ∀ r e, Spec.look (τ t) r = some e → ((l t).state ⟨M.cells, (M.threads t).next, M.fails⟩).view r = .ok e) ∧
        ((∀ t, n t ≤ ts.count t ∧ ¬ Short fl (lo t) (hi t) ∧ TidyJob (σ.part who t) (P t)) → ∀ a, M.cells a ≠ none →
          (∃ t, Belongs ((l t).state ⟨M.cells, (M.threads t).next, M.fails⟩) a) ∨
          (∃ r, who r.obj = none ∧ s.target r = .ok (.node a)) ∨ (s.heap.cells a ≠ none ∧ ¬ Belongs s a)) := by
  obtain ⟨⟨fp, H⟩, hk⟩ := H
  have hrep := fun t => reached_rep (who := who) (t := t) H hk (hN.unused t)
  have hsim := fun t => job_sim (o := ord t) (s := (sharedWith s who t).state (reached s who t (lo t)))
    (G := []) ⟨⟨_, (hrep t).1⟩, (hrep t).2⟩ (hS t)
  obtain ⟨as, has⟩ := Classical.axiomOfChoice hsim
  obtain ⟨s', hs'⟩ := Classical.axiomOfChoice has
  obtain ⟨L, hL⟩ := Classical.axiomOfChoice hs'
  obtain ⟨τ, hτ⟩ := Classical.axiomOfChoice hL
  have hrun : ∀ t, (code t).run (reached s who t (lo t)) = some ((as t, ⟨(s' t).ptr, (s' t).objs⟩), (s' t).heap) := by
    intro t
    rw [hC t, (hτ t).1]
  have hhi : ∀ t, (s' t).heap.next ≤ hi t := fun t => hN.enough t _ _ (hτ t).1
  have hshort : ∀ t, Fails fl (reached s who t (lo t)).next (s' t).heap.next → Short fl (lo t) (hi t) :=
    fun t h => fails_wider h (Nat.le_refl _) (hhi t)
  let S : Nat → Prop := fun a => ∃ p i, objOf p = some i ∧ who i = none ∧ a ∈ fp p
  let D : ι → Nat → Prop := fun t a => (∃ p i, objOf p = some i ∧ who i = some t ∧ a ∈ fp p) ∨ (lo t ≤ a ∧ a < hi t)
  have hlt : ∀ p a, a ∈ fp p → a < s.heap.next := fun p a ha => H.wf.lt (H.alloc ha)
  have hinj : ∀ p q a, a ∈ fp p → a ∈ fp q → p = q := fun p q a h1 h2 =>
    Classical.byContradiction fun h => H.disj p q h a h1 h2
  have hA : Areas S D := by
    constructor
    · rintro t a (⟨p, i, h1, h2, h3⟩ | ⟨h1, h2⟩) ⟨q, j, h4, h5, h6⟩
      · cases hinj p q a h3 h6
        rw [h1] at h4; cases h4
        rw [h2] at h5; cases h5
      · have := hlt q a h6
        have := hN.unused t
        omega
    · rintro t u a htu (⟨p, i, h1, h2, h3⟩ | ⟨h1, h2⟩) (⟨q, j, h4, h5, h6⟩ | ⟨h4, h5⟩)
      · cases hinj p q a h3 h6
        rw [h1] at h4; cases h4
        rw [h2] at h5; cases h5
        exact htu rfl
      · have := hlt p a h3
        have := hN.unused u
        omega
      · have := hlt q a h6
        have := hN.unused t
        omega
      · rcases hN.disjoint t u htu with h | h <;> omega
  have hstart : ∀ t, Alone S D (startedJobs s lo code) t (as t, ⟨(s' t).ptr, (s' t).objs⟩) (s' t).heap
      ((code t).steps (reached s who t (lo t))) (reached s who t (lo t)) := by
    intro t
    refine ⟨rfl, rfl, ?_, ?_, ?_, hrun t, ?_, ?_, Nat.le_refl _, (hrep t).1.wf⟩
    · rintro a (⟨p, i, h1, h2, h3⟩ | ⟨p, i, h1, h2, h3⟩ | ⟨h1, h2⟩)
      · exact (reached_cells H hk ⟨i, h1, .inl h2⟩ h3).symm
      · exact (reached_cells H hk ⟨i, h1, .inr h2⟩ h3).symm
      · have h3 : s.heap.cells a = none := H.wf a (Nat.le_trans (hN.unused t) h1)
        exact h3.trans ((hrep t).1.wf a h1).symm
    · intro a ha
      obtain ⟨p, ⟨i, h1, h2 | h2⟩, h3⟩ := reached_only H hk ha
      · exact .inl ⟨p, i, h1, h2, h3⟩
      · exact .inr (.inl ⟨p, i, h1, h2, h3⟩)
    · rintro a ⟨p, i, h1, h2, h3⟩
      exact Nat.lt_of_lt_of_le (hlt p a h3) (hN.unused t)
    · intro a h1 h2
      exact .inr ⟨h1, Nat.lt_of_lt_of_le h2 (hhi t)⟩
    · -- the shared trees are still there, so they are as they were
      rintro a ⟨p, i, h1, h2, h3⟩
      have hp : AllowedP who t p := ⟨i, h1, .inl h2⟩
      have hne : ∀ j, objOf p = some j → ¬ who j = some t := by
        intro j hj; rw [h1] at hj; cases hj; rw [h2]; simp
      have hptr : (s' t).ptr p = (sharedWith s who t).ptr p :=
        Keeps.job hne (by rintro rfl; cases h1) (P t) (hO t) (hτ t).1
      cases hA : own σ p with
      | none => rw [(H.unset p hA).2] at h3; cases h3
      | some e =>
        obtain ⟨x, h4, h5⟩ := H.owns p e hA
        obtain ⟨⟨fp', H'⟩, -⟩ := (hτ t).2.2.1
        have hA' : own (τ t) p = some e := by
          have hτi : τ t i = σ i := by
            rw [ranJob_store (hτ t).2.1 (hO t) (i := i) (by rw [h2]; simp), Store.part, if_pos (.inl h2)]
          rw [← hA]
          cases p with
          | one j => cases h1; simp only [own, hτi]
          | two j => cases h1; simp only [own, hτi]
          | tmp => cases h1
        obtain ⟨y, h6, h7⟩ := H'.owns p e hA'
        rw [hptr, sharedWith_ptr s p hp, h4] at h6
        cases h6
        have h8 : Own (reached s who t (lo t)).cells x e (fp p) := h5.mono _ fun b hb => reached_cells H hk hp hb
        exact own_same e h8 h7 (fun b hb => (Code.run_old (hrun t)).2.2 b
          (Nat.lt_of_lt_of_le (hlt p b hb) (hN.unused t))) a h3
  refine ⟨τ, as, fun t => ⟨(s' t).ptr, (s' t).objs⟩, fun t => (code t).steps (reached s who t (lo t)),
    fun t => (hτ t).2.1.mono (hshort t), fun ts => ?_⟩
  obtain ⟨M, h1, e1, e2⟩ := Alone.exec hA ts hstart
  have hrace : ¬ Race M := by
    rintro ⟨t, u, a, w, htu, g1, g2⟩
    have g3 := ((e2 t).access g1).2 rfl
    rcases ((e2 u).access g2).1 with h | h
    · exact hA.shared t a g3 h
    · exact hA.disj t u a htu g3 h
  have hend : ∀ t, (code t).steps (reached s who t (lo t)) ≤ ts.count t →
      (M.threads t).code = .done (as t, ⟨(s' t).ptr, (s' t).objs⟩) ∧ h1 t = (s' t).heap := by
    intro t ht
    have hz : (M.threads t).code.steps (h1 t) = 0 := by have := (e2 t).steps; omega
    exact Code.steps_zero (e2 t).run hz
  refine ⟨M, e1, hrace, fun t _ _ hc => (e2 t).unused hc,
    fun r e k hr he => shared_view H hk (fun p i a g1 g2 g3 => ?_) hr he, fun t ht => ?_, fun hall a ha => ?_⟩
  · have hSa : S a := ⟨p, i, g1, g2, g3⟩
    cases ts with
    | nil => cases e1; rfl
    | cons t ts =>
      have hfin := e2 t
      rw [hfin.same a (.inl hSa), ← hfin.keep a hSa, (hstart t).keep a hSa]
      exact ((hstart t).same a (.inl hSa)).symm
  · obtain ⟨hdone, hheap⟩ := hend t ht
    refine ⟨hdone, fun i => by simp only [(hτ t).2.2.1.2 i, Option.map_eq_none_iff], fun r e hr => ?_⟩
    have hv := (hτ t).2.2.1.view r
    rw [hr] at hv
    refine view_mono _ (h := (s' t).heap) (fun a ha => ?_) hv
    rw [← hheap] at ha ⊢
    exact (e2 t).same a ((e2 t).only a ha)
  · by_cases hD : ∃ t, D t a
    · obtain ⟨t, hD⟩ := hD
      obtain ⟨ht, hsh, htd⟩ := hall t
      obtain ⟨-, hheap⟩ := hend t ht
      have hL0 : L t = [] := (hτ t).2.2.2.2 (fun h => hsh (hshort t h)) htd
      obtain ⟨⟨fp', H'⟩, hk'⟩ := (hτ t).2.2.1
      rw [(e2 t).same a (.inr hD), hheap] at ha
      rw [hL0] at H'
      obtain ⟨p, hp⟩ := (H'.cover a ha).resolve_left (by simp)
      obtain ⟨r, -, hr⟩ := fp_target H' hk' hp
      refine .inl ⟨t, r, target_mono (h := (s' t).heap) ⟨(s' t).ptr, (s' t).objs⟩ (fun b hb => ?_) hr⟩
      rw [← hheap] at hb ⊢
      exact (e2 t).same b ((e2 t).only b hb)
    · have hD' : ∀ t, ¬ D t a := fun t h => hD ⟨t, h⟩
      rw [Alone.outside hA ts hstart e1 a hD'] at ha
      by_cases hB : Belongs s a
      · obtain ⟨r, hr⟩ := hB
        obtain ⟨p, g1, g2⟩ := target_fp H hr
        cases hw : who r.obj with
        | none => exact .inr (.inl ⟨r, hw, hr⟩)
        | some t => exact (hD' t (.inl ⟨p, r.obj, g1, hw, g2⟩)).elim
      · exact .inr (.inr ⟨ha, hB⟩)

/-! ### Names -/

/-- Names for threads, one after the other. -/
noncomputable def jobNameFrom (s : State K) (who : Nat → Option ι) (ord : ι → Nat → Bool) (P : ι → Job K)
    (dec : Nat → Option ι) : Nat → Nat
  | 0 => s.heap.next
  | k + 1 => match dec k with
    | none => jobNameFrom s who ord P dec k
    | some t => match (P t).run (ord t) ((sharedWith s who t).state (reached s who t (jobNameFrom s who ord P dec k))) with
      | .ok (_, s') => max (jobNameFrom s who ord P dec k) s'.heap.next
      | _ => jobNameFrom s who ord P dec k

theorem jobNameFrom_mono (s : State K) (who : Nat → Option ι) (ord : ι → Nat → Bool) (P : ι → Job K)
    (dec : Nat → Option ι) {j k : Nat} (h : j ≤ k) : jobNameFrom s who ord P dec j ≤ jobNameFrom s who ord P dec k := by
  induction h with
  | refl => exact Nat.le_refl _
  | step _ ih =>
    refine Nat.le_trans ih ?_
    rw [jobNameFrom]
    split
    · exact Nat.le_refl _
    · split
      · exact Nat.le_max_left _ _
      · exact Nat.le_refl _

theorem jobNames_exist (s : State K) (who : Nat → Option ι) (ord : ι → Nat → Bool) (P : ι → Job K)
    {enc : ι → Nat} {dec : Nat → Option ι} (hd : ∀ t, dec (enc t) = some t) : ∃ lo hi, JobNames s who ord P lo hi := by
  refine ⟨fun t => jobNameFrom s who ord P dec (enc t), fun t => jobNameFrom s who ord P dec (enc t + 1), ?_, ?_, ?_⟩
  · exact fun t => jobNameFrom_mono s who ord P dec (Nat.zero_le _)
  · intro t as s' hs
    simp only [jobNameFrom, hd, hs]
    exact Nat.le_max_right _ _
  · intro t u htu
    have hne : enc t ≠ enc u := by
      intro h
      have := hd t
      rw [h, hd u] at this
      exact htu (Option.some.inj this).symm
    rcases Nat.lt_or_gt_of_ne hne with h | h
    · exact .inl (jobNameFrom_mono s who ord P dec h)
    · exact .inr (jobNameFrom_mono s who ord P dec h)

end VM
