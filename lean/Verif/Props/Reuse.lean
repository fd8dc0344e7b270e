import Verif.Rt.ReuseLemmas
import Verif.Props.Threads
/-
C79: memory that has been released may be given again.
-/
namespace VM.Props
open Spec
variable {K : Type} [Num K] {o f : Nat → Bool} {ι : Type} [DecidableEq ι]

/-- A program that uses its objects as they may be used (`Safe`), with `code` for its accesses to memory, whichever
addresses its requests are given (`Reuser.Step.give` admits any that is not in use at that moment): it never accesses
an address at which there is nothing, and can always go on; at any moment each node is at an address of its own, and at
the addresses in use there is nothing else (`Placed`), so that no more addresses are in use than there are nodes;
after `n` accesses it has ended, with the objects `s` that a run without reuse gives it, and these show, in the
memory as it is (`R.seen`), the values they should. -/
theorem C79_program {p : Client K} (hp : Safe .empty p) {code : Code K Local} (hc : Runs o p noObjects code) :
    ∃ s τ n, p.run o (.begin f) = .ok s ∧ Ran .empty p τ ∧ (∀ i, s.objs i = none ↔ τ i = none) ∧
      ∀ addr ts R, (alone f addr code).Exec ts R →
        ¬ R.Faulty () ∧ (∃ R', R.Step () R') ∧
        (∃ M, (Machine.mk (fun _ => none) f fun _ : Unit => ⟨code, 0⟩).exec ts = some M ∧ R.threads = M.threads ∧
          Placed M.cells R.mem R.addr) ∧
        (n ≤ ts.length → (R.threads ()).code = .done ⟨s.ptr, s.objs⟩ ∧ Placed s.heap.cells R.mem R.addr ∧
          Bounded R.mem ∧ ∀ r e k, look τ r = some e → (State.mk ⟨R.seen, k, f⟩ s.ptr s.objs).view r = .ok e) := by
  obtain ⟨s, L, τ, h1, h2, h3⟩ := client_sim (o := o) (fl := f) start_rep hp
  have h4 := hc ⟨fun _ => none, 0, f⟩
  rw [show noObjects.state (K := K) ⟨fun _ => none, 0, f⟩ = .begin f from rfl, h1] at h4
  obtain ⟨n, hn⟩ := alone_sim h4
  refine ⟨s, τ, n, h1, h2, fun i => by rw [h3.2 i]; simp, fun addr ts R hR => ?_⟩
  have hB : Bounded R.mem := hR.bounded ⟨0, fun _ _ => rfl⟩
  have S0 : Stands (Machine.mk (fun _ => none) f fun _ : Unit => ⟨code, 0⟩) (alone f addr code) :=
    ⟨⟨(fun _ _ h => by cases h), fun _ _ h => absurd rfl h, fun _ h => absurd rfl h⟩, rfl, rfl⟩
  obtain ⟨M, e1, S⟩ := S0.exec (fun ts => by obtain ⟨M, g1, g2, -⟩ := hn ts; exact ⟨M, g1, g2⟩) hR
  have hM : M.step () ≠ none := by
    obtain ⟨M', g1, -⟩ := hn (ts ++ [()])
    rw [Machine.exec_append, e1] at g1
    intro h
    simp [Machine.exec, h] at g1
  obtain ⟨s1, s2⟩ := S.step hM
  obtain ⟨B, hB'⟩ := hB
  refine ⟨s1, s2 ⟨B, hB' B (Nat.le_refl _)⟩, ⟨M, e1, S.threads, S.placed⟩, fun hl => ?_⟩
  obtain ⟨M', g1, -, g2⟩ := hn ts
  rw [e1] at g1
  cases g1
  obtain ⟨g3, g4⟩ := g2 hl
  refine ⟨by rw [S.threads]; exact g3, g4 ▸ S.placed, ⟨B, hB'⟩, fun r e k he => ?_⟩
  have hv := h3.view r
  rw [he] at hv
  refine view_mono ⟨s.ptr, s.objs⟩ (h := s.heap) (h' := ⟨R.seen, k, f⟩) (fun a ha => ?_) hv
  rw [← g4] at ha ⊢
  exact S.seen ha

/-- The same for threads (see `C72_threads`), started after a main program, wherever its nodes are (`C79_program` says
where): there is no undefined behaviour and no data race at any moment, every thread can always go on, the shared
objects show what they showed at the start, and each thread that got enough time has ended with the objects that a run
of its own, without reuse, gives it, and these show the values they should. -/
theorem C79_threads {p : Client K} (hp : Safe .empty p) :
    ∃ s σ, p.run o (.begin f) = .ok s ∧ Ran .empty p σ ∧ (∀ i, s.objs i = none ↔ σ i = none) ∧
      (∀ r, s.view r = shown (look σ r)) ∧
      ∀ (who : Nat → Option ι) (P : ι → Client K) (ord : ι → Nat → Bool) (lo hi : ι → Nat) (code : ι → Code K Local),
        (∀ t, Safe (σ.part who t) (P t)) → (∀ t, OnlyOn (fun i => who i = some t) (P t)) →
        Names s who ord P lo hi → (∀ t, Runs (ord t) (P t) (sharedWith s who t) (code t)) →
        ∃ (τ : ι → Store K) (l : ι → Local) (n : ι → Nat), (∀ t, Ran (σ.part who t) (P t) (τ t)) ∧
          ∀ mem addr, Placed s.heap.cells mem addr → Bounded mem →
          ∀ ts R, (startedIn s lo code mem addr).Exec ts R → ¬ RaceAt R ∧
            (∀ t, ¬ R.Faulty t ∧ ∃ R', R.Step t R') ∧
            (∃ M, (started s lo code).exec ts = some M ∧ R.threads = M.threads ∧ Placed M.cells R.mem R.addr) ∧
            (∀ r e k, who r.obj = none → look σ r = some e →
              (State.mk ⟨R.seen, k, f⟩ s.ptr s.objs).view r = .ok e) ∧
            ∀ t, n t ≤ ts.count t → (R.threads t).code = .done (l t) ∧ (∀ i, (l t).objs i = none ↔ τ t i = none) ∧
              ∀ r e k, look (τ t) r = some e → ((l t).state ⟨R.seen, k, f⟩).view r = .ok e := by
  obtain ⟨s, σ, h1, h2, h3, h4, h5⟩ := C72_threads (ι := ι) (o := o) (f := f) hp
  refine ⟨s, σ, h1, h2, h3, h4, fun who P ord lo hi code hS hO hN hC => ?_⟩
  obtain ⟨τ, l, n, g1, g2⟩ := h5 who P ord lo hi code hS hO hN hC
  refine ⟨τ, l, n, g1, fun mem addr hP hB ts R hR => ?_⟩
  have hB : Bounded R.mem := hR.bounded hB
  have S0 : Stands (started s lo code) (startedIn s lo code mem addr) := ⟨hP, rfl, rfl⟩
  obtain ⟨M, e1, S⟩ := S0.exec (fun ts => by obtain ⟨M, q1, -, q2, -⟩ := g2 ts; exact ⟨M, q1, q2⟩) hR
  have hM : ∀ t, M.step t ≠ none := by
    intro t
    obtain ⟨M', q1, -⟩ := g2 (ts ++ [t])
    rw [Machine.exec_append, e1] at q1
    intro h
    simp [Machine.exec, h] at q1
  obtain ⟨M', q1, q2, -, q3, q4⟩ := g2 ts
  rw [e1] at q1
  cases q1
  obtain ⟨B, hB⟩ := hB
  refine ⟨S.race hM q2, fun t => ⟨(S.step (hM t)).1, (S.step (hM t)).2 ⟨B, hB B (Nat.le_refl _)⟩⟩,
    ⟨M, e1, S.threads, S.placed⟩, fun r e k hr he => ?_, fun t ht => ?_⟩
  · exact view_mono ⟨s.ptr, s.objs⟩ (h := ⟨M.cells, k, f⟩) (h' := ⟨R.seen, k, f⟩) (fun a ha => S.seen ha) (q3 r e k hr he)
  · obtain ⟨r1, r2, r3⟩ := q4 t ht
    exact ⟨by rw [S.threads]; exact r1, r2, fun r e k he =>
      view_mono (l t) (h := ⟨M.cells, (M.threads t).next, M.fails⟩) (h' := ⟨R.seen, k, f⟩) (fun a ha => S.seen ha) (r3 r e he)⟩

/-- There are such executions, of any length. -/
theorem C79_exist {p : Client K} (hp : Safe .empty p) (addr : Nat → Nat) :
    ∃ code, Runs o p noObjects code ∧ ∀ n, ∃ R, (alone f addr code).Exec (List.replicate n ()) R := by
  obtain ⟨code, hc⟩ := PTraced.client (o := o) p noObjects
  obtain ⟨s, τ, n, -, -, -, H⟩ := C79_program (f := f) hp hc
  have snoc : ∀ {R R' R'' : Reuser Unit K Local} {ts : List Unit}, R.Exec ts R' → R'.Step () R'' → R.Exec (ts ++ [()]) R'' := by
    intro R R' R'' ts h1 h2
    induction h1 with
    | nil => exact .cons h2 .nil
    | cons h _ ih => exact .cons h (ih h2)
  refine ⟨code, hc, fun n => ?_⟩
  induction n with
  | zero => exact ⟨_, .nil⟩
  | succ n ih =>
    obtain ⟨R, hR⟩ := ih
    obtain ⟨R', hR'⟩ := (H addr _ R hR).2.1
    exact ⟨R', by rw [List.replicate_succ']; exact snoc hR hR'⟩

/-- `expr a = 2;`, as in C72. -/
example : ∃ code, Runs o creator noObjects code ∧ ∀ n, ∃ R, (alone f id code).Exec (List.replicate n ()) R :=
  C79_exist creator_safe id

/-! ### What reuse does to programs that are not safe -/

/-- `p = new 5; delete p; q = new 7; return *p;` -/
def stale : Code XRat (Cell XRat) :=
  .new (some ⟨.const (some 5), []⟩) fun
    | none => .undefined
    | some p => .free p (.new (some ⟨.const (some 7), []⟩) fun _ => .read p .done)

/-- Without reuse this is undefined behaviour that is seen; with reuse it can give the 7 that was never in `*p`.  So what
the theorems above say needs the program to be safe. -/
theorem C79_stale :
    (Machine.mk (fun _ => none) (fun _ => false) fun _ : Unit => ⟨stale, 0⟩).exec [(), (), (), ()] = none ∧
    ∃ R, (alone (fun _ => false) id stale).Exec [(), (), (), ()] R ∧
      (R.threads ()).code = .done ⟨.const (some 7), []⟩ := by
  refine ⟨rfl, ⟨_, .cons (.give 0 rfl rfl rfl) (.cons (.free (c := ⟨.const (some 5), []⟩) rfl rfl)
    (.cons (.give 0 rfl rfl rfl) (.cons (.read (c := ⟨.const (some 7), []⟩) rfl rfl) .nil))), rfl⟩⟩

end VM.Props
