import Verif.Rt.JobsThreads
import Verif.Props.Threads
import Verif.Props.NewtonA
/-
C103: programs and threads that evaluate, print, integrate and solve.
-/
namespace VM.Props
open Spec
variable {K : Type} [Num K] [NumLt K] {o f : Nat → Bool} {ι : Type} [DecidableEq ι]

/-- A program that builds and changes objects, calls functions that only read them, and goes on according to their
results: if it uses its objects as they may be used, there is no undefined behaviour, every call gives what the values
of the objects determine, or `std::bad_alloc` if a request for memory fails (`RanJob`), and at the end the objects show
their values.  If no request fails and nothing throws, all memory that is left belongs to objects. -/
theorem C103_program {p : Job K} (hp : SafeJob .empty p) :
    ∃ as s τ, p.run o (.begin f) = .ok (as, s) ∧ RanJob (Short f 0 s.heap.next) .empty p as τ ∧
      (∀ r, s.view r = shown (look τ r)) ∧ (∀ i, s.objs i = none ↔ τ i = none) ∧
      (¬ Short f 0 s.heap.next → TidyJob .empty p → ∀ a, s.heap.cells a ≠ none → Belongs s a) := by
  obtain ⟨as, s, L, τ, h1, h2, h3, h4, h5⟩ := job_sim (o := o) (fl := f) start_rep hp
  refine ⟨as, s, τ, h1, h2, h3.view, fun i => by rw [h3.2 i]; simp, fun hf ht a ha => ?_⟩
  obtain ⟨⟨fp, H⟩, hk⟩ := h3
  rw [h5 hf ht] at H
  obtain ⟨p, hp⟩ := (H.cover a ha).resolve_left (by simp)
  obtain ⟨r, -, hr⟩ := fp_target H hk hp
  exact ⟨r, hr⟩

/-- Threads that run such programs, and change only their own objects, do not disturb each other.  In whatever order
they make their accesses to memory (`ts`) and whichever requests for memory fail (`f`): there is no undefined behaviour
and no data race at any moment, and memory that is given is not in use; the shared objects show at any moment what they
showed at the start; each thread that got enough time has ended, all its calls have given what they give if the thread
runs alone (`as`, the same for all orders), and its objects show what they show then.  A thread gets `std::bad_alloc`
only if one of its own requests for memory fails.  When all threads have ended, if no request failed and nothing threw,
all memory belongs to an object of a thread, to a shared object, or had been left over by the main program. -/
theorem C103_threads {p : Client K} (hp : Safe .empty p) :
    ∃ s σ, p.run o (.begin f) = .ok s ∧ Ran .empty p σ ∧ (∀ i, s.objs i = none ↔ σ i = none) ∧
      (∀ r, s.view r = shown (look σ r)) ∧
      ∀ (who : Nat → Option ι) (P : ι → Job K) (ord : ι → Nat → Bool) (lo hi : ι → Nat) (code : ι → Code K (JobResult K)),
        (∀ t, SafeJob (σ.part who t) (P t)) → (∀ t, JobOn (fun i => who i = some t) (P t)) →
        JobNames s who ord P lo hi → (∀ t, RunsJob (ord t) (P t) (sharedWith s who t) (code t)) →
        ∃ (τ : ι → Store K) (as : ι → List (Except Exc (Answer K))) (l : ι → Local) (n : ι → Nat),
          (∀ t, RanJob (Short f (lo t) (hi t)) (σ.part who t) (P t) (as t) (τ t)) ∧
          ∀ ts : List ι, ∃ M, (startedJobs s lo code).exec ts = some M ∧ ¬ Race M ∧ Fresh M ∧
            (∀ r e k, who r.obj = none → look σ r = some e →
              (State.mk ⟨M.cells, k, f⟩ s.ptr s.objs).view r = .ok e) ∧
            (∀ t, n t ≤ ts.count t → (M.threads t).code = .done (as t, l t) ∧ (∀ i, (l t).objs i = none ↔ τ t i = none) ∧
              ∀ r e, look (τ t) r = some e → ((l t).state ⟨M.cells, (M.threads t).next, M.fails⟩).view r = .ok e) ∧
            ((∀ t, n t ≤ ts.count t ∧ ¬ Short f (lo t) (hi t) ∧ TidyJob (σ.part who t) (P t)) → ∀ a, M.cells a ≠ none →
              (∃ t, Belongs ((l t).state ⟨M.cells, (M.threads t).next, M.fails⟩) a) ∨
              (∃ r, who r.obj = none ∧ s.target r = .ok (.node a)) ∨ (s.heap.cells a ≠ none ∧ ¬ Belongs s a)) := by
  obtain ⟨s, L, σ, h1, h2, h3⟩ := client_sim (o := o) (fl := f) start_rep hp
  refine ⟨s, σ, h1, h2, fun i => by rw [h3.2 i]; simp, h3.view, fun who P ord lo hi code hS hO hN hC => ?_⟩
  obtain ⟨τ, as, l, n, g1, g2⟩ := jobs_sim h3 hS hO hN hC
  obtain ⟨fp, H⟩ := h3.1
  refine ⟨τ, as, l, n, g1, fun ts => ?_⟩
  obtain ⟨M, e1, e0, ef, e2, e3, e4⟩ := g2 ts
  refine ⟨M, e1, e0, ef, fun r e k => ?_, e3, e4⟩
  rw [← H.fails]
  exact e2 r e k

/-- With enough memory a call in such a program gives exactly what the values determine, whatever the program, or the
thread, did before and other threads do meanwhile. -/
theorem C103_answer {σ τ : Store K} {q : Query K} {k : Except Exc (Answer K) → Job K} {as : List (Except Exc (Answer K))}
    {r : Res (Answer K)} (h : RanJob False σ (.query q k) as τ) (hq : Asks σ q r) :
    ∃ a as', Answers r a ∧ as = a :: as' ∧ RanJob False σ (k a) as' τ := by
  cases h with
  | query h1 h2 h3 => exact ⟨_, _, hq.unique h1 ▸ h2, rfl, h3⟩
  | noAnswer h => exact h.elim

/-- What such programs leave in objects that are not their own is what was there. -/
theorem C103_shared {short : Prop} {σ τ : Store K} {who : Nat → Option ι} {t : ι} {p : Job K}
    {as : List (Except Exc (Answer K))} (h : RanJob short (σ.part who t) p as τ)
    (ho : JobOn (fun i => who i = some t) p) {i : Nat} (hi : who i = none) : τ i = σ i := by
  rw [ranJob_store h ho (i := i) (by simp [hi]), Store.part, if_pos (.inl hi)]

/-- There are such threads: every program with calls is a sequence of accesses to memory, and there are enough names for
any number of threads. -/
theorem C103_exist (s : State K) (who : Nat → Option ι) (P : ι → Job K) (ord : ι → Nat → Bool)
    {enc : ι → Nat} {dec : Nat → Option ι} (hd : ∀ t, dec (enc t) = some t) :
    ∃ (lo hi : ι → Nat) (code : ι → Code K (JobResult K)), JobNames s who ord P lo hi ∧
      ∀ t, RunsJob (ord t) (P t) (sharedWith s who t) (code t) := by
  obtain ⟨lo, hi, h⟩ := jobNames_exist s who ord P hd
  exact ⟨lo, hi, fun t => Classical.choose (PTraced.job (P t) _), h, fun t =>
    Classical.choose_spec (PTraced.job (P t) _)⟩

/-! ### Examples -/

/-- `expr x = variable(0); expr a = 2; expr y = variable(1);`, the solution of `x = a`, `y = a`, and the value of `y`
there. -/
def solves : Job XRat :=
  .step (.init 0 (.leaf (.var 0))) (.step (.init 1 (.leaf (.const (some 2)))) (.step (.init 2 (.leaf (.var 1)))
    (.query (.solve leftFirst 3 [some 0, some 0] ⟨⟨0, []⟩, ⟨1, []⟩, ⟨2, []⟩, ⟨1, []⟩⟩) fun
      | .ok (.point (some p)) => .query (.value leftFirst p ⟨2, []⟩) fun _ => .done
      | _ => .done) .done) .done) .done

/-- The store in which it calls the solver. -/
def solving : Store XRat := ((Store.empty.set 0 (some (.expr (some (.var 0))))).set 1
  (some (.expr (some (.const (some 2)))))).set 2 (some (.expr (some (.var 1))))

theorem solving_asks : Asks solving (.solve leftFirst 3 [some 0, some 0] ⟨⟨0, []⟩, ⟨1, []⟩, ⟨2, []⟩, ⟨1, []⟩⟩)
    (.ok (.point (some [some 2, some 2]))) := by
  have hr : newtonLoop leftFirst (⟨.var 0, .const (some 2)⟩ : Equation XRat) ⟨.var 1, .const (some 2)⟩ 3 (Num.lit 1)
      [some 0, some 0] = some (.ok [some 2, some 2]) := by decide +kernel
  exact .solved (q₁ := ⟨.var 0, .const (some 2)⟩) (q₂ := ⟨.var 1, .const (some 2)⟩) rfl rfl rfl rfl
    ⟨.var _, .const _⟩ ⟨.var _, .const _⟩ hr

/-- The hypothesis of `C103_program` holds for it. -/
example : SafeJob .empty solves := by
  refine ⟨⟨_, .init rfl (.var _)⟩, fun τ => ⟨fun h => ?_, fun _ => trivial⟩⟩
  cases h with | normal h _ =>
  cases h with | initThrow _ h => cases h | init _ h =>
  cases h
  refine ⟨⟨_, .init rfl (.const _)⟩, fun τ => ⟨fun h => ?_, fun _ => trivial⟩⟩
  cases h with | normal h _ =>
  cases h with | initThrow _ h => cases h | init _ h =>
  cases h
  refine ⟨⟨_, .init rfl (.var _)⟩, fun τ => ⟨fun h => ?_, fun _ => trivial⟩⟩
  cases h with | normal h _ =>
  cases h with | initThrow _ h => cases h | init _ h =>
  cases h
  refine ⟨⟨_, solving_asks, nofun, fun a h => ?_⟩, trivial⟩
  cases h
  exact ⟨⟨_, .value (e := .var 1) rfl, nofun, fun _ _ => trivial⟩, trivial⟩

/-! `expr a = 2;`, and then three threads -/

/-- `a(3)`; the LaTeX code of `a`; and `{ expr b = a * a; std::cout << b; }`. -/
def readers (fmt : XRat → Txt) (w : Order XRat) (T : Translator) : Fin 3 → Job XRat
  | 0 => .query (.value w [some 3] ⟨0, []⟩) fun _ => .done
  | 1 => .query (.latex fmt T false ⟨0, []⟩) fun _ => .done
  | 2 => .step (.init 1 (.bin .mult ⟨0, []⟩ ⟨0, []⟩))
      (.query (.text fmt ⟨1, []⟩) fun _ => .step (.destroy 1) .done .done) .done

/-- The third thread has an object of its own. -/
def readerOf : Nat → Option (Fin 3)
  | 1 => some 2
  | _ => none

theorem readers_safe {fmt : XRat → Txt} {w : Order XRat} {T : Translator} {σ : Store XRat}
    (h0 : look σ ⟨0, []⟩ = some (.const (some 2))) (h1 : σ 1 = none) (t : Fin 3) :
    SafeJob σ (readers fmt w T t) ∧ TidyJob σ (readers fmt w T t) := by
  match t with
  | 0 => exact ⟨⟨⟨_, .value h0, nofun, fun _ _ => trivial⟩, trivial⟩, fun _ _ _ _ => trivial⟩
  | 1 => exact ⟨⟨⟨_, .latex h0, nofun, fun _ _ => trivial⟩, trivial⟩, fun _ _ _ _ => trivial⟩
  | 2 =>
    have hv : ∀ τ, Exec σ (.init 1 (.bin .mult ⟨0, []⟩ ⟨0, []⟩)) τ →
        τ = σ.set 1 (some (.expr (some (.bin .mult (.const (some 2)) (.const (some 2)))))) := by
      intro τ h
      cases h with
      | init _ h =>
        cases h with
        | bin h2 h3 =>
          rw [h0] at h2 h3
          cases h2
          cases h3
          rfl
      | initThrow _ h => cases h
    have hl : look (σ.set 1 (some (.expr (some (.bin .mult (.const (some 2)) (.const (some 2))))))) ⟨1, []⟩ =
        some (.bin .mult (.const (some 2)) (.const (some 2))) := by
      simp [look, Store.set, Obj.part, part]
    have hd : SafeJob (σ.set 1 (some (.expr (some (.bin .mult (.const (some 2)) (.const (some 2)))))))
        (.step (.destroy 1) .done .done) :=
      ⟨⟨_, .destroy (by simp [Store.set]; rfl)⟩, fun _ => ⟨fun _ => trivial, fun _ => trivial⟩⟩
    refine ⟨⟨⟨_, .init h1 (.bin h0 h0)⟩, fun τ => ⟨fun h => ?_, fun _ => trivial⟩⟩, ?_, fun τ h => ?_⟩
    · cases h with
      | normal h _ =>
        rw [hv τ h]
        exact ⟨⟨_, .text hl, nofun, fun _ _ => hd⟩, hd⟩
    · exact ⟨fun x h => (by cases h), fun _ _ _ _ h => (by cases h)⟩
    · rw [hv τ h]
      exact fun _ _ _ _ => ⟨trivial, fun _ _ => trivial⟩

theorem ran_done {short : Prop} {σ τ : Store K} {as : List (Except Exc (Answer K))} (h : RanJob short σ .done as τ) : as = [] := by
  cases h; rfl

/-- The three threads get the value 2, the LaTeX code and the text, in every order, as soon as they have had enough
time. -/
example {fmt : XRat → Txt} {w : Order XRat} {T : Translator} :
    ∃ (s : State XRat) (lo : Fin 3 → Nat) (code : Fin 3 → Code XRat (JobResult XRat)) (l : Fin 3 → Local) (n : Fin 3 → Nat),
      creator.run o .start = .ok s ∧ ∀ ts : List (Fin 3), ∃ M, (startedJobs s lo code).exec ts = some M ∧ ¬ Race M ∧
        (n 0 ≤ ts.count 0 → (M.threads 0).code = .done ([.ok (.number (some 2))], l 0)) ∧
        (n 1 ≤ ts.count 1 → (M.threads 1).code = .done ([.ok (.text (latex fmt T false (.const (some 2))))], l 1)) ∧
        (n 2 ≤ ts.count 2 → (M.threads 2).code =
          .done ([.ok (.text (deepStr fmt (.bin .mult (.const (some 2)) (.const (some 2)))))], l 2)) := by
  obtain ⟨s, σ, h1, h2, h3, h4, h5⟩ := C103_threads (o := o) (f := fun _ => false) (ι := Fin 3) creator_safe
  obtain rfl := creator_ends (o := o) h1
  have h0 := created_value h4
  obtain ⟨lo, hi, code, hN, hC⟩ := C103_exist created readerOf (readers fmt w T) (fun _ => o)
    (enc := fun t => t.val) (dec := fun k => if h : k < 3 then some ⟨k, h⟩ else none) (by simp)
  have g0 : ∀ t, look (σ.part readerOf t) ⟨0, []⟩ = some (.const (some 2)) := fun t => by
    rw [← h0]; simp [look, Store.part, Allowed, readerOf]
  have g1 : ∀ t, (σ.part readerOf t) 1 = none := fun t => by simp [Store.part, (h3 1).1 rfl]
  obtain ⟨τ, as, l, n, k1, k2⟩ := h5 readerOf (readers fmt w T) (fun _ => o) lo hi code
    (fun t => (readers_safe (g0 t) (g1 t) t).1)
    (fun t => by
      match t with
      | 0 => exact fun _ => trivial
      | 1 => exact fun _ => trivial
      | 2 => exact ⟨rfl, fun _ => ⟨rfl, trivial, trivial⟩, trivial⟩) hN hC
  have k1 : ∀ t, RanJob False (σ.part readerOf t) (readers fmt w T t) (as t) (τ t) := fun t =>
    (k1 t).mono fun ⟨_, _, _, h⟩ => by cases h
  refine ⟨created, lo, code, l, n, h1, fun ts => ?_⟩
  obtain ⟨M, m1, m2, -, -, m3, -⟩ := k2 ts
  refine ⟨M, m1, m2, fun h => ?_, fun h => ?_, fun h => ?_⟩
  · obtain ⟨a, as', e1, e2, e3⟩ := C103_answer (k1 0) (.value (g0 0))
    cases e1
    rw [(m3 0 h).1, e2, ran_done e3]
  · obtain ⟨a, as', e1, e2, e3⟩ := C103_answer (k1 1) (.latex (g0 1))
    cases e1
    rw [(m3 1 h).1, e2, ran_done e3]
  · have := k1 2
    cases this with
    | normal f1 f2 f3 =>
      cases f1 with
      | init _ f4 =>
        cases f4 with
        | bin f5 f6 =>
          rw [g0] at f5 f6
          cases f5; cases f6
          obtain ⟨a, as', e1, e2, e3⟩ := C103_answer f3 (.text (e := .bin .mult (.const (some 2)) (.const (some 2)))
            (by simp [look, Store.set, Obj.part, part]))
          cases e1
          cases e3 with
          | normal _ _ e3 => rw [(m3 2 h).1, e2, ran_done e3]
          | threw _ _ e3 => rw [(m3 2 h).1, e2, ran_done e3]
          | noMemory e3 => exact e3.elim
      | initThrow _ f4 => cases f4
    | threw f1 f2 =>
      obtain ⟨i, rhs, x, h | h, h'⟩ := f2 <;> cases h
      cases h'
    | noMemory f1 => exact f1.elim

end VM.Props
