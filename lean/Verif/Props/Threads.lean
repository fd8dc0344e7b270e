import Verif.Rt.ThreadsSim
import Verif.NumRat
import Verif.Rt.Dec
/-
C72: threads.  A main program creates objects, some of which it hands over to threads (`who`); the others are shared.
The threads then run at the same time, in any order of their single accesses to memory.
-/
namespace VM.Props
open Spec
variable {K : Type} [Num K] {o f : Nat → Bool} {ι : Type} [DecidableEq ι]

/-- Threads do not disturb each other.  After a main program that uses its objects as they may be used, let each
thread run a program that does the same with its own objects and the shared ones (`Safe`), and changes only its own
(`OnlyOn`).  Then, in whatever order the threads make their accesses to memory (`ts`) and whichever requests for
memory fail (`f`): there is no undefined behaviour and no data race at any moment, and memory that is given is
not in use (`Fresh`); the shared objects show at any moment what they
showed at the start; and each thread that got enough time has ended with the objects a run of its own gives it (`τ`,
the same for all orders), and each of these shows its value.
`Runs` says that `code t` are the accesses to memory of the program `P t`. -/
theorem C72_threads {p : Client K} (hp : Safe .empty p) :
    ∃ s σ, p.run o (.begin f) = .ok s ∧ Ran .empty p σ ∧ (∀ i, s.objs i = none ↔ σ i = none) ∧
      (∀ r, s.view r = shown (look σ r)) ∧
      ∀ (who : Nat → Option ι) (P : ι → Client K) (ord : ι → Nat → Bool) (lo hi : ι → Nat) (code : ι → Code K Local),
        (∀ t, Safe (σ.part who t) (P t)) → (∀ t, OnlyOn (fun i => who i = some t) (P t)) →
        Names s who ord P lo hi → (∀ t, Runs (ord t) (P t) (sharedWith s who t) (code t)) →
        ∃ (τ : ι → Store K) (l : ι → Local) (n : ι → Nat), (∀ t, Ran (σ.part who t) (P t) (τ t)) ∧
          ∀ ts : List ι, ∃ M, (started s lo code).exec ts = some M ∧ ¬ Race M ∧ Fresh M ∧
            (∀ r e k, who r.obj = none → look σ r = some e →
              (State.mk ⟨M.cells, k, f⟩ s.ptr s.objs).view r = .ok e) ∧
            ∀ t, n t ≤ ts.count t → (M.threads t).code = .done (l t) ∧ (∀ i, (l t).objs i = none ↔ τ t i = none) ∧
              ∀ r e, look (τ t) r = some e → ((l t).state ⟨M.cells, (M.threads t).next, M.fails⟩).view r = .ok e := by
  obtain ⟨s, L, σ, h1, h2, h3⟩ := client_sim (o := o) (fl := f) start_rep hp
  refine ⟨s, σ, h1, h2, fun i => by rw [h3.2 i]; simp, h3.view, fun who P ord lo hi code hS hO hN hC => ?_⟩
  obtain ⟨τ, l, n, g1, g2⟩ := threads_sim h3 hS hO hN hC
  obtain ⟨fp, H⟩ := h3.1
  refine ⟨τ, l, n, g1, fun ts => ?_⟩
  obtain ⟨M, e1, e0, ef, e2, e3⟩ := g2 ts
  refine ⟨M, e1, e0, ef, fun r e k => ?_, e3⟩
  rw [← H.fails]
  exact e2 r e k

omit [Num K] in
/-- The accesses that `Race` looks at are all there are: if a step of a thread changes memory, this was its next access and
counts as a change; and memory that is not what it accesses next plays no role in its step. -/
theorem C72_accesses {β : Type} {M M' : Machine ι K β} {t : ι} (h : M.step t = some M') :
    (∀ a, M'.cells a ≠ M.cells a → (M.threads t).access = some (a, true)) ∧
    ∀ a c, (∀ w, (M.threads t).access ≠ some (a, w)) →
      Machine.step { M with cells := fun b => if b = a then c else M.cells b } t =
        some { M' with cells := fun b => if b = a then c else M'.cells b } := by
  unfold Machine.step at h ⊢
  rw [Option.map_eq_some_iff] at h
  obtain ⟨r, h, rfl⟩ := h
  simp only [Thread.access]
  cases hc : (M.threads t).code with
  | done b =>
    rw [hc] at h; cases h
    exact ⟨fun a ha => (ha rfl).elim, fun a c _ => rfl⟩
  | undefined => rw [hc] at h; cases h
  | read a' k =>
    rw [hc, Code.step, Option.map_eq_some_iff] at h
    obtain ⟨x, h, rfl⟩ := h
    refine ⟨fun a ha => (ha rfl).elim, fun a c ha => ?_⟩
    have : a' ≠ a := fun e => ha false (by rw [e])
    simp only [Code.step, if_neg this]
    dsimp only at h
    rw [h]; rfl
  | new c' k =>
    rw [hc, Code.step] at h
    dsimp only at h
    split at h
    · rename_i hf
      cases h
      refine ⟨fun a ha => (ha rfl).elim, fun a c _ => ?_⟩
      simp only [Code.step]
      rw [if_pos hf]; rfl
    · rename_i hf
      cases h
      refine ⟨fun a ha => ?_, fun a c ha => ?_⟩
      · cases c' with
        | none => exact (ha rfl).elim
        | some c' =>
          by_cases hn : a = (M.threads t).next
          · rw [hn]
          · exact (ha (if_neg hn)).elim
      · have hn : (M.threads t).next ≠ a := fun e => ha true (by rw [e])
        simp only [Code.step]
        rw [if_neg hf]
        cases c' with
        | none => rfl
        | some c' =>
          simp only [Heap.give, Option.map_some, Option.some.injEq, Machine.mk.injEq, and_self, and_true]
          funext b
          by_cases h1 : b = a
          · have : b ≠ (M.threads t).next := fun e => hn (e.symm.trans h1)
            simp [h1, hn.symm]
          · simp [h1]
  | free a' k =>
    rw [hc, Code.step, Option.map_eq_some_iff] at h
    obtain ⟨x, h, rfl⟩ := h
    refine ⟨fun a ha => ?_, fun a c ha => ?_⟩
    · by_cases hn : a = a'
      · rw [hn]
      · exact (ha (if_neg hn)).elim
    · have hn : a' ≠ a := fun e => ha true (by rw [e])
      simp only [Code.step, if_neg hn]
      dsimp only at h
      simp only [h, Option.map_some, Option.some.injEq, Machine.mk.injEq, and_self, and_true]
      funext b
      by_cases h1 : b = a
      · simp [h1, hn.symm]
      · simp [h1]

/-- A step that releases the node at address 3. -/
example : ∃ M' : Machine Unit XRat Unit, (Machine.step (⟨fun _ => some ⟨.const (some 1), []⟩, fun _ => false,
    fun _ => ⟨.free 3 (.done ()), 7⟩⟩ : Machine Unit XRat Unit) ()) = some M' ∧ M'.cells 3 = none := ⟨_, rfl, rfl⟩

/-- What the threads leave in shared objects, as each of them sees it, is what was there. -/
theorem C72_shared {σ τ : Store K} {who : Nat → Option ι} {t : ι} {p : Client K} (h : Ran (σ.part who t) p τ)
    (ho : OnlyOn (fun i => who i = some t) p) {i : Nat} (hi : who i = none) : τ i = σ i := by
  rw [ran_store h ho (i := i) (by simp [hi]), Store.part, if_pos (.inl hi)]

/-- There are such threads: every program is a sequence of accesses to memory, and there are enough names for any
number of threads. -/
theorem C72_exist (s : State K) (who : Nat → Option ι) (P : ι → Client K) (ord : ι → Nat → Bool)
    {enc : ι → Nat} {dec : Nat → Option ι} (hd : ∀ t, dec (enc t) = some t) :
    ∃ (lo hi : ι → Nat) (code : ι → Code K Local), Names s who ord P lo hi ∧ ∀ t, Runs (ord t) (P t) (sharedWith s who t) (code t) := by
  obtain ⟨lo, hi, h⟩ := names_exist s who ord P hd
  exact ⟨lo, hi, fun t => Classical.choose (PTraced.client (P t) _), h, fun t =>
    Classical.choose_spec (PTraced.client (P t) _)⟩

/-! ### An example -/

/-- The main program: `expr a = 2;`. -/
def creator : Client XRat := .step (.init 0 (.leaf (.const (some 2)))) .done .done

/-- The program of a thread: `{ expr b = a * a; inplace_simplify(b); }` -/
def worker (i : Nat) : Client XRat :=
  .step (.init i (.bin .mult ⟨0, []⟩ ⟨0, []⟩)) (.step (.inplace i) (.step (.destroy i) .done .done)
    (.step (.destroy i) .done .done)) .done

theorem creator_safe : Safe .empty creator :=
  ⟨⟨_, .init rfl (.const (some 2))⟩, fun _ => ⟨fun _ => trivial, fun _ => trivial⟩⟩

theorem worker_safe {σ : Store XRat} {i : Nat} (h0 : look σ ⟨0, []⟩ = some (.const (some 2))) (hi : σ i = none) :
    Safe σ (worker i) := by
  have two : simplified (K := XRat) (.bin .mult (.const (some 2)) (.const (some 2))) = .ok (.const (some 4)) := by
    decide +kernel
  refine ⟨⟨_, .init hi (.bin h0 h0)⟩, fun τ => ⟨fun h => ?_, fun _ => trivial⟩⟩
  obtain rfl : τ = σ.set i (some (.expr (some (.bin .mult (.const (some 2)) (.const (some 2)))))) := by
    cases h with
    | normal h _ =>
      cases h with
      | init _ h =>
        cases h with
        | bin h1 h2 =>
          rw [h0] at h1 h2
          cases h1
          cases h2
          rfl
      | initThrow _ h => cases h
  have hx : (σ.set i (some (.expr (some (.bin .mult (.const (some 2)) (.const (some 2))))))) i =
      some (.expr (some (.bin .mult (.const (some 2)) (.const (some 2))))) := by simp [Store.set]
  refine ⟨⟨_, .inplace hx two⟩, fun τ => ⟨fun h => ?_, fun h => ?_⟩⟩
  · cases h with
    | normal h _ =>
      cases h with
      | @inplace _ _ y _ _ =>
        exact ⟨⟨_, .destroy (o := .expr (some y)) (by simp [Store.set])⟩, fun _ => ⟨fun _ => trivial, fun _ => trivial⟩⟩
  · have : ∃ y, τ i = some (.expr (some y)) := by
      cases h with
      | threw h _ => cases h with | inplace => exact ⟨_, by simp [Store.set]; rfl⟩
      | noMemory h => cases h with | inplace => exact ⟨_, by simp [Store.set]; rfl⟩
    obtain ⟨y, hy⟩ := this
    exact ⟨⟨_, .destroy hy⟩, fun _ => ⟨fun _ => trivial, fun _ => trivial⟩⟩

/-- The state after the main program. -/
def created : State XRat :=
  ⟨⟨fun a => if a = 0 then some ⟨.const (some 2), []⟩ else none, 1, fun _ => false⟩,
    fun p => if p = .one 0 then some 0 else none, fun i => if i = 0 then some .expr else none⟩

theorem creator_ends {s : State XRat} (hs : creator.run o .start = .ok s) : s = created := by
  have : creator.run o .start = .ok created := rfl
  rw [hs] at this
  exact Res.ok.inj this

theorem created_value {σ : Store XRat} (hv : ∀ r, created.view r = shown (look σ r)) :
    look σ ⟨0, []⟩ = some (.const (some 2)) := by
  have h1 := hv ⟨0, []⟩
  cases hl : look σ ⟨0, []⟩ with
  | none => rw [hl] at h1; cases h1
  | some x => rw [hl] at h1; cases h1; rfl

/-- The objects of the threads: object `t + 1` is that of thread `t`. -/
def owner : Nat → Option Nat
  | 0 => none
  | t + 1 => some t

/-- Any number of threads that compute the square of `a`, each in an object of its own. -/
example {s : State XRat} {σ : Store XRat} (hs : creator.run o .start = .ok s) (hi : ∀ i, s.objs i = none ↔ σ i = none)
    (hv : ∀ r, s.view r = shown (look σ r)) :
    (∀ t, Safe (σ.part owner t) (worker (t + 1))) ∧ (∀ t, OnlyOn (fun i => owner i = some t) (worker (t + 1))) ∧
      ∃ (lo hi : Nat → Nat) (code : Nat → Code XRat Local), Names s owner (fun _ => o) (fun t => worker (t + 1)) lo hi ∧
        ∀ t, Runs o (worker (t + 1)) (sharedWith s owner t) (code t) := by
  obtain rfl := creator_ends hs
  refine ⟨fun t => worker_safe ?_ ?_, fun t => ?_, C72_exist _ _ _ _ (enc := id) (dec := some) fun _ => rfl⟩
  · rw [← created_value hv]
    simp [look, Store.part, Allowed, owner]
  · have : σ (t + 1) = none := (hi (t + 1)).1 rfl
    simp [Store.part, this]
  · exact ⟨rfl, ⟨rfl, ⟨rfl, trivial, trivial⟩, ⟨rfl, trivial, trivial⟩⟩, trivial⟩

/-! ### Threads that change shared objects -/

/-- `who` for the two threads below: `a` is shared, `b` belongs to the second. -/
def owner' : Nat → Option Bool
  | 1 => some true
  | _ => none

/-- The two threads: `a = 3;` and `expr b = a;`. -/
def racers : Bool → Client XRat
  | false => .step (.assign 0 (.leaf (.const (some 3)))) .done .done
  | true => .step (.init 1 (.copy ⟨0, []⟩)) .done .done

/-- The condition that threads change only their own objects is needed: if one thread assigns to an object which
another thread copies, each of the two programs being right by itself, there is an order in which the copy reads
memory that the assignment has released. -/
theorem C72_race {s : State XRat} {σ : Store XRat} (hs : creator.run o .start = .ok s)
    (hi : ∀ i, s.objs i = none ↔ σ i = none) (hv : ∀ r, s.view r = shown (look σ r)) :
    (∀ t, Safe (σ.part owner' t) (racers t)) ∧ OnlyOn (fun i => owner' i = some true) (racers true) ∧
      ∀ (lo hi : Bool → Nat) (code : Bool → Code XRat Local), Names s owner' (fun _ => o) racers lo hi →
        (∀ t, Runs o (racers t) (sharedWith s owner' t) (code t)) →
        ∃ ts : List Bool, (started s lo code).exec ts = none := by
  obtain rfl := creator_ends hs
  have h0 := created_value hv
  have h0' : σ 0 = some (.expr (some (.const (some 2)))) := by
    unfold look at h0
    simp only at h0
    cases hσ : σ 0 with
    | none => rw [hσ] at h0; cases h0
    | some x =>
      rw [hσ] at h0
      rcases x with (_ | e) | ⟨_ | op, _ | l, _ | r⟩ | ⟨_ | op, _ | l⟩
      all_goals first | cases h0; done | skip
      · cases h0; rfl
  refine ⟨fun t => ?_, ⟨rfl, trivial, trivial⟩, fun lo hi code hN hC => ?_⟩
  · cases t with
    | false => exact ⟨⟨_, .assign (o := some (.const (some 2))) (by simp [Store.part, Allowed, owner', h0'])
        (.const (some 3))⟩, fun _ => ⟨fun _ => trivial, fun _ => trivial⟩⟩
    | true => exact ⟨⟨_, .init (by simp [Store.part, (hi 1).1 rfl]) (.copy (e := .const (some 2))
        (by simp [look, Store.part, Allowed, owner', h0', Obj.part, part]))⟩, fun _ => ⟨fun _ => trivial, fun _ => trivial⟩⟩
  · obtain ⟨k, hk⟩ : ∃ k, lo false = k + 1 := ⟨lo false - 1, by have : 1 ≤ lo false := hN.unused false; omega⟩
    obtain ⟨m, hm⟩ := Machine.exec_alone (t := false) _ (started created lo code) rfl
    have e1 : ∃ s', (racers false).run o ((sharedWith created owner' false).state ⟨created.heap.cells, k + 1, fun _ => false⟩) =
        .ok s' ∧ s'.heap.cells 0 = none := ⟨_, rfl, rfl⟩
    obtain ⟨s', e1, e2⟩ := e1
    have e3 : ∀ h : Heap XRat, h.cells 0 = none → (racers true).run o ((sharedWith created owner' true).state h) = .ub := by
      intro h hh
      have h1 : Act.cell 0 h = .ub := by simp only [Act.cell, Run.look, hh]
      have h2 : clone 0 h = .ub := Run.bind_ub h1
      have h3 : Prog.heap (clone 0) ((sharedWith created owner' true).state h) = .ub := by
        unfold Prog.heap
        rw [show clone 0 ((sharedWith created owner' true).state h).heap = .ub from h2]
      have h4 : exec o (.init 1 (.copy ⟨0, []⟩)) ((sharedWith created owner' true).state h) = .ub := by
        refine Eq.trans (b := (Prog.heap (clone 0) >>= fun a => do
            Prog.setObj 1 (some .expr)
            Prog.reset (.one 1) (some a)) ((sharedWith created owner' true).state h)) rfl ?_
        exact Run.bind_ub h3
      simp only [racers, Client.run, h4]
    have e4 := hC false ⟨created.heap.cells, k + 1, fun _ => false⟩
    rw [e1] at e4
    have e5 : (code false).run ⟨(started created lo code).cells, ((started created lo code).threads false).next,
        (started created lo code).fails⟩ = some (⟨s'.ptr, s'.objs⟩, s'.heap) := by
      rw [← hk] at e4
      exact e4
    rw [show ((started created lo code).threads false).code = code false from rfl, e5] at hm
    obtain ⟨M, g1, g2, g3, g4⟩ := hm
    obtain ⟨n, hn⟩ := Machine.exec_alone (t := true) _ M rfl
    rw [g4 true (by decide)] at hn
    have e6 := hC true ⟨M.cells, lo true, M.fails⟩
    rw [e3 _ (by rw [← e2, g2])] at e6
    rw [show ((started created lo code).threads true).code.run
      ⟨M.cells, ((started created lo code).threads true).next, M.fails⟩ = none from e6] at hn
    exact ⟨_ ++ _, (Machine.exec_append _ _ _).trans (by rw [g1]; exact hn)⟩
end VM.Props
