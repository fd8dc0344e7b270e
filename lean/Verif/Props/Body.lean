import Verif.Rt.BodyCoords
import Verif.Props.Memory
import Verif.NumRat
import Verif.Rt.Dec
/-
C86: functions with local objects.
-/
namespace VM.Props
open Spec Run
variable {K : Type} [Num K] {o f : Nat → Bool}

/-- Code with local objects, temporaries and `try` blocks that uses its objects as they may be used (`Legal`) runs
without undefined behaviour, whichever requests for memory fail.  Afterwards, whether it threw or not, exactly those
objects exist, and every part of them shows the value, that is possible if each object holds a value of its own
(`Did`). -/
theorem C86_program {b : Body K} (h : Legal .empty b) :
    ∃ t s τ, ((t = false ∧ b.exec o (.begin f) = .ok () s) ∨ ∃ x, t = true ∧ b.exec o (.begin f) = .throw x s) ∧
      Did .empty b t τ ∧ (∀ i, s.objs i = none ↔ τ i = none) ∧ ∀ r, s.view r = shown (Spec.look τ r) := by
  have h := body_sim (o := o) b (start_rep (fl := f)) h
  revert h
  generalize b.exec o (.begin f) = r
  rintro (⟨h1, h2, -⟩ | @⟨x, s', L, τ, h1, h2, -⟩)
  · exact ⟨false, _, _, .inl ⟨rfl, rfl⟩, h2, fun i => by rw [h1.2 i]; simp, h1.view⟩
  · exact ⟨true, _, _, .inr ⟨x, rfl, rfl⟩, h2, fun i => by rw [h1.2 i]; simp, h1.view⟩

/-- The state after a program that uses its objects as they may be used. -/
theorem after_program {p b : Body K} (h : Legal .empty (.seq p b)) {s : State K}
    (hs : p.exec o (.begin f) = .ok () s) :
    ∃ σ L, Did .empty p false σ ∧ Rep f s σ (L ++ []) ∧ Legal σ b ∧ (Neat .empty p → L = []) := by
  have h1 := body_sim (o := o) p (start_rep (fl := f)) h.1
  rw [hs] at h1
  cases h1 with
  | ok h1 h2 h3 => exact ⟨_, _, h2, h1, h.2 _ h2, h3⟩

/-- A call of a function that returns a new object `i` (`Returns`), at any point of any program: the call makes object
`i`; all other objects exist afterwards exactly if they did before, in particular its local objects and temporaries are
gone; and every object that it does not assign to (`Assigns`) shows what it showed. -/
theorem C86_call {p b : Body K} (h : Legal .empty (.seq p b)) {s s' : State K} {i : Nat}
    (hs : p.exec o (.begin f) = .ok () s) (hb : Returns i b) (hs' : b.exec o s = .ok () s') :
    s.objs i = none ∧ s'.objs i ≠ none ∧ (∀ j, j ≠ i → (s'.objs j = none ↔ s.objs j = none)) ∧
      ∀ r : Src, r.obj ≠ i → ¬ Assigns r.obj b → s'.view r = s.view r := by
  obtain ⟨σ, L, -, h1, h2, -⟩ := after_program h hs
  have h3 := body_sim (o := o) b h1 h2
  rw [hs'] at h3
  cases h3 with
  | ok h4 h5 h6 =>
    have r := (body_did b h5).1 i hb
    refine ⟨?_, ?_, fun j hj => ?_, fun q hq ha => ?_⟩
    · rw [h1.2 i, (r.made rfl).1]; rfl
    · rw [h4.2 i]; simpa using (r.made rfl).2
    · rw [h4.2 j, h1.2 j]; simpa using r.alive j fun _ => hj
    · rw [h4.view, h1.view, Spec.look, Spec.look, r.same q.obj ha fun _ => hq]

/-- The same for a function without result. -/
theorem C86_procedure {p b : Body K} (h : Legal .empty (.seq p b)) {s s' : State K}
    (hs : p.exec o (.begin f) = .ok () s) (hb : Procedure b)
    (hs' : b.exec o s = .ok () s' ∨ ∃ x, b.exec o s = .throw x s') :
    (∀ j, s'.objs j = none ↔ s.objs j = none) ∧ ∀ r : Src, ¬ Assigns r.obj b → s'.view r = s.view r := by
  obtain ⟨σ, L, -, h1, h2, -⟩ := after_program h hs
  have h3 := body_sim (o := o) b h1 h2
  obtain ⟨L', τ, h4, r⟩ : ∃ L' τ, Rep f s' τ L' ∧ Proceeded σ b τ := by
    rcases hs' with hs' | ⟨x, hs'⟩ <;> rw [hs'] at h3
    · cases h3 with | ok h4 h5 h6 => exact ⟨_, _, h4, (body_did b h5).2 hb⟩
    · cases h3 with | threw h4 h5 h6 => exact ⟨_, _, h4, (body_did b h5).2 hb⟩
  exact ⟨fun j => by rw [h4.2 j, h1.2 j]; simpa using r.alive j,
    fun q ha => by rw [h4.view, h1.view, Spec.look, Spec.look, r.same q.obj ha]⟩

/-- If the call throws, for whatever reason, no object has been made or destroyed: neither its result nor its local
objects exist.  Only objects that it assigns to may have changed. -/
theorem C86_call_throws {p b : Body K} (h : Legal .empty (.seq p b)) {s s' : State K} {i : Nat} {x : Exc}
    (hs : p.exec o (.begin f) = .ok () s) (hb : Returns i b) (hs' : b.exec o s = .throw x s') :
    (∀ j, s'.objs j = none ↔ s.objs j = none) ∧ ∀ r : Src, ¬ Assigns r.obj b → s'.view r = s.view r := by
  obtain ⟨σ, L, -, h1, h2, -⟩ := after_program h hs
  have h3 := body_sim (o := o) b h1 h2
  rw [hs'] at h3
  cases h3 with
  | threw h4 h5 h6 =>
    have r := (body_did b h5).1 i hb
    exact ⟨fun j => by rw [h4.2 j, h1.2 j]; simpa using r.alive j (by simp),
      fun q ha => by rw [h4.view, h1.view, Spec.look, Spec.look, r.same q.obj ha (by simp)]⟩

/-- Code in which no call throws and none is known to lose memory (`Neat`), on a machine with enough memory, does not
throw, and afterwards all memory that is still allocated belongs to objects that still exist. -/
theorem C86_no_garbage {b : Body K} (h : Legal .empty b) (hn : Neat .empty b) :
    ∃ s, b.exec o (.begin fun _ => false) = .ok () s ∧
      ∀ a, s.heap.cells a ≠ none → ∃ r, s.target r = .ok (.node a) := by
  have h := body_sim (o := o) b (start_rep (fl := fun _ => false)) h
  revert h
  generalize b.exec o (.begin fun _ => false) = r
  rintro (⟨h1, h2, h3⟩ | ⟨h1, h2, h3⟩)
  · rw [h3 hn] at h1
    refine ⟨_, rfl, fun a ha => ?_⟩
    rcases h1.reach ha with h | h
    · cases h
    · exact h
  · obtain ⟨-, a, ha⟩ := h3 hn
    cases ha

/-- In particular, if there are no objects left, nothing is allocated; as after a function without result, called
before any object has been made. -/
theorem C86_all_freed {b : Body K} (h : Legal .empty b) (hn : Neat .empty b) (hb : Procedure b) :
    ∃ s, b.exec o (.begin fun _ => false) = .ok () s ∧ (∀ a, s.heap.cells a = none) ∧ ∀ i, s.objs i = none := by
  have h := body_sim (o := o) b (start_rep (fl := fun _ => false)) h
  revert h
  generalize b.exec o (.begin fun _ => false) = r
  rintro (@⟨s, L, τ, h1, h2, h3⟩ | ⟨h1, h2, h3⟩)
  · rw [h3 hn] at h1
    have hτ : ∀ i, τ i = none := fun i => (((body_did b h2).2 hb).alive i).2 rfl
    refine ⟨_, rfl, fun a => ?_, fun i => by rw [h1.2 i, hτ i]; rfl⟩
    cases ha : s.heap.cells a with
    | none => rfl
    | some c =>
      rcases h1.reach (a := a) (by simp [ha]) with h | ⟨r, hr⟩
      · cases h
      · rw [State.target, h1.2 r.obj, hτ r.obj] at hr
        cases hr
  · obtain ⟨-, a, ha⟩ := h3 hn
    cases ha

/-- `apply_coordinate_system(cartesian<d>(), e)` for an expression `e` of any program, with all its local objects and
temporaries in memory: it returns the value that the other claims are about (`coords`), changes no other object, and
leaves none behind; or it runs out of memory, and nothing has happened.
(`b`, ..., `b+12`: numbers for the local objects; `r`: that of the result.) -/
theorem C86_coords {p : Body K} (h : Legal .empty p) {s : State K} (hs : p.exec o (.begin f) = .ok () s) {d : Dim}
    {e z : Expr K} {src : Src} {b r : Nat} (he : s.view src = .ok e) (hz : coords d e = .ok z)
    (hf : ∀ j, b ≤ j → j ≤ b + 12 → s.objs j = none) (hr : s.objs r = none) (hrb : r < b ∨ b + 12 < r) :
    (∃ s', (coordsBody d b src r).exec o s = .ok () s' ∧ s'.view ⟨r, []⟩ = .ok z ∧ s'.objs r = some .expr ∧
      ∀ j, j ≠ r → s'.objs j = s.objs j ∧ ∀ ks, s'.view ⟨j, ks⟩ = s.view ⟨j, ks⟩) ∨
    ∃ s', (coordsBody d b src r).exec o s = .throw .badAlloc s' ∧ (∃ a, f a = true) ∧
      ∀ j, s'.objs j = s.objs j ∧ ∀ ks, s'.view ⟨j, ks⟩ = s.view ⟨j, ks⟩ := by
  have h1 := body_sim (o := o) p (start_rep (fl := f)) h
  rw [hs] at h1
  cases h1 with
  | @ok _ L σ h1 h2 h3 =>
    rw [h1.view] at he
    have he' : Spec.look σ src = some e := by
      cases hl : Spec.look σ src with
      | none => rw [hl] at he; cases he
      | some x => rw [hl] at he; cases he; rfl
    have hn : ∀ {j}, s.objs j = none → σ j = none := fun {j} h => by
      rw [h1.2 j] at h; simpa using h
    have g := yields_coords (fun j h h' => hn (hf j h h')) (hn hr) hrb he' hz
    have h4 := body_sim (o := o) _ h1 g.legal
    revert h4
    generalize (coordsBody d b src r).exec o s = q
    rintro (@⟨s', M, τ, k1, k2, k3⟩ | @⟨x, s', M, τ, k1, k2, k3⟩)
    · rcases g.effect _ _ k2 with ⟨-, rfl⟩ | ⟨h, -⟩
      · refine .inl ⟨s', rfl, ?_, ?_, fun j hj => ⟨?_, fun ks => ?_⟩⟩
        · rw [k1.view]; simp [Spec.look, set_self, Obj.part, part, shown]
        · rw [k1.2 r, set_self]; rfl
        · rw [k1.2 j, h1.2 j, set_other hj]
        · rw [k1.view, h1.view, Spec.look, Spec.look, set_other hj]
      · cases h
    · rcases g.effect _ _ k2 with ⟨h, -⟩ | ⟨-, rfl⟩
      · cases h
      · obtain ⟨rfl, ha⟩ := k3 g.neat
        exact .inr ⟨s', rfl, ha, fun j => ⟨by rw [k1.2 j, h1.2 j], fun ks => by rw [k1.view, h1.view]⟩⟩

/-- On a machine with enough memory the call gives nothing but its result: together with a program that loses no
memory, all that is allocated after the call belongs to the objects of the program and to the result. -/
theorem C86_coords_memory {p : Body K} (h : Legal .empty p) (hn : Neat .empty p) {s : State K}
    (hs : p.exec o (.begin fun _ => false) = .ok () s) {d : Dim} {e z : Expr K} {src : Src} {b r : Nat}
    (he : s.view src = .ok e) (hz : coords d e = .ok z) (hf : ∀ j, b ≤ j → j ≤ b + 12 → s.objs j = none)
    (hr : s.objs r = none) (hrb : r < b ∨ b + 12 < r) :
    ∃ s', (coordsBody d b src r).exec o s = .ok () s' ∧ ∀ a, s'.heap.cells a ≠ none → ∃ q, s'.target q = .ok (.node a) := by
  have h1 := body_sim (o := o) p (start_rep (fl := fun _ => false)) h
  rw [hs] at h1
  cases h1 with
  | @ok _ L σ h1 h2 h3 =>
    rw [h1.view] at he
    have he' : Spec.look σ src = some e := by
      cases hl : Spec.look σ src with
      | none => rw [hl] at he; cases he
      | some x => rw [hl] at he; cases he; rfl
    have hn' : ∀ {j}, s.objs j = none → σ j = none := fun {j} h => by
      rw [h1.2 j] at h; simpa using h
    have g := yields_coords (fun j h h' => hn' (hf j h h')) (hn' hr) hrb he' hz
    have h4 := body_sim (o := o) _ h1 g.legal
    revert h4
    generalize (coordsBody d b src r).exec o s = q
    rintro (@⟨s', M, τ, k1, k2, k3⟩ | @⟨x, s', M, τ, k1, k2, k3⟩)
    · rw [k3 g.neat, h3 hn] at k1
      refine ⟨s', rfl, fun a ha => ?_⟩
      rcases k1.reach ha with h | h
      · cases h
      · exact h
    · obtain ⟨-, a, ha⟩ := k3 g.neat
      cases ha

/-! ### Concrete cases -/

theorem legal_seq {σ : Store K} {a b : Body K} {i : Nat} {u : Obj K} (ha : Yields σ a i u)
    (hb : Legal (σ.set i (some u)) b) : Legal σ (.seq a b) :=
  ⟨ha.legal, fun τ h => by
    rcases ha.effect _ _ h with ⟨-, rfl⟩ | ⟨h, -⟩
    · exact hb
    · cases h⟩

theorem neat_seq {σ : Store K} {a b : Body K} {i : Nat} {u : Obj K} (ha : Yields σ a i u)
    (hb : Neat (σ.set i (some u)) b) : Neat σ (.seq a b) :=
  ⟨ha.neat, fun τ h => by
    rcases ha.effect _ _ h with ⟨-, rfl⟩ | ⟨h, -⟩
    · exact hb
    · cases h⟩

/-- `function_symbol u, v; expr gu = grad(u), gv = grad(v); expr e = gu * gv;` and then `b`. -/
def weakForm (b : Body XRat) : Body XRat :=
  .seq (.one (.init 0 (.leaf symU))) <| .seq (.one (.init 1 (.leaf symV))) <|
  .seq (.one (.init 2 (.un .grad (whole 0)))) <| .seq (.one (.init 3 (.un .grad (whole 1)))) <|
  .seq (.one (.init 4 (.bin .mult (whole 2) (whole 3)))) b

/-- The objects before `b`. -/
def weakStore : Store XRat :=
  ((((Store.empty.set 0 (some (.expr (some symU)))).set 1 (some (.expr (some symV)))).set 2
    (some (.expr (some (.un .grad symU))))).set 3 (some (.expr (some (.un .grad symV))))).set 4
    (some (.expr (some (.bin .mult (.un .grad symU) (.un .grad symV)))))

theorem weakForm_legal {b : Body XRat} (h : Legal weakStore b) : Legal .empty (weakForm b) :=
  legal_seq (.fsym rfl) <| legal_seq (.fsym rfl) <| legal_seq (.un rfl rfl) <| legal_seq (.un rfl rfl) <|
    legal_seq (.bin rfl rfl rfl) h

theorem weakForm_neat {b : Body XRat} (h : Neat weakStore b) : Neat .empty (weakForm b) :=
  neat_seq (.fsym rfl) <| neat_seq (.fsym rfl) <| neat_seq (.un rfl rfl) <| neat_seq (.un rfl rfl) <|
    neat_seq (.bin rfl rfl rfl) h

/-- What an object shows after the code. -/
def shows (f : Nat → Bool) (b : Body XRat) (r : Src) : Res (Expr XRat) :=
  match b.exec (fun _ => true) (.begin f) with
  | .ok _ s => s.view r
  | .throw x _ => .throw x
  | .ub => .ub

/-- How many objects with numbers below `n` exist after the code. -/
def objects (f : Nat → Bool) (b : Body XRat) (n : Nat) : Option Nat :=
  match b.exec (fun _ => true) (.begin f) with
  | .ok _ s | .throw _ s => some ((List.range n).filter fun i => (s.objs i).isSome).length
  | .ub => none

/-- The weak form in two dimensions, by `apply_coordinate_system`: its value, the objects left afterwards, and those
left if the memory runs out in the middle of the call; the program meets the conditions. -/
example : shows (fun _ => false) (weakForm (coordsBody .two 10 (whole 4) 5)) (whole 5) =
      .ok (.bin .plus (.bin .mult (.un (.pd 0) symU) (.un (.pd 0) symV)) (.bin .mult (.un (.pd 1) symU) (.un (.pd 1) symV))) ∧
    objects (fun _ => false) (weakForm (coordsBody .two 10 (whole 4) 5)) 30 = some 6 ∧
    shows (fun a => a == 60) (weakForm (coordsBody .two 10 (whole 4) 5)) (whole 5) = .throw .badAlloc ∧
    objects (fun a => a == 60) (weakForm (coordsBody .two 10 (whole 4) 5)) 30 = some 5 ∧
    Legal .empty (weakForm (coordsBody .two 10 (whole 4) 5)) ∧
    Neat .empty (weakForm (coordsBody .two 10 (whole 4) 5)) := by
  have g : Yields weakStore (coordsBody .two 10 (whole 4) 5) 5 (.expr (some _)) :=
    yields_coords (e := .bin .mult (.un .grad symU) (.un .grad symV))
      (z := .bin .plus (.bin .mult (.un (.pd 0) symU) (.un (.pd 0) symV))
        (.bin .mult (.un (.pd 1) symU) (.un (.pd 1) symV)))
      (fun j h h' => by
        simp only [weakStore]
        repeat rw [set_other (by omega)]
        rfl) rfl (by omega) rfl (by decide +kernel)
  refine ⟨?_, ?_, ?_, ?_, weakForm_legal g.legal, weakForm_neat g.neat⟩
  all_goals decide +kernel

/-- `expr f() { expr t = gu + gv; expr r = t * t; return r; }`, with result 9. -/
def doubling : Body XRat :=
  .scope 8 (.one (.init 8 (.bin .plus (whole 2) (whole 3)))) (.one (.init 9 (.bin .mult (whole 8) (whole 8))))

/-- A call of this function in the program above: it ends normally with enough memory, and throws otherwise. -/
example : Legal .empty (weakForm doubling) ∧ Neat .empty (weakForm doubling) ∧ Returns 9 doubling ∧
    (∀ i, ¬ Assigns i doubling) ∧
    shows (fun _ => false) (weakForm doubling) (whole 9) =
      .ok (.bin .mult (.bin .plus (.un .grad symU) (.un .grad symV)) (.bin .plus (.un .grad symU) (.un .grad symV))) ∧
    objects (fun _ => false) (weakForm doubling) 30 = some 6 ∧
    shows (fun a => a == 18) (weakForm doubling) (whole 9) = .throw .badAlloc ∧
    objects (fun a => a == 18) (weakForm doubling) 30 = some 5 := by
  have g : Yields weakStore doubling 9 _ := .scope (.bin rfl rfl rfl) (.bin rfl rfl rfl)
  refine ⟨weakForm_legal g.legal, weakForm_neat g.neat, .scope (by decide) (.one rfl) (.one rfl), fun i h => ?_, ?_, ?_,
    ?_, ?_⟩
  · cases h with
    | scopeL h => cases h with | one h => exact h
    | scopeR _ h => cases h with | one h => exact h
  all_goals decide +kernel

/-- `void g() { expr x = variable(0); expr y = x + x; x = y; }` -/
def doubled : Body XRat :=
  .scope 0 (.one (.init 0 (.leaf (.var 0)))) <| .scope 1 (.one (.init 1 (.bin .plus (whole 0) (whole 0))))
    (.one (.assign 0 (.copy (whole 1))))

theorem assign_did {σ τ : Store XRat} {t : Bool} {d e : Option (Expr XRat)} {i j : Nat} (hi : σ i = some (.expr d))
    (hj : σ j = some (.expr e)) (h : Did σ (.one (.assign i (.copy (whole j)))) t τ) : τ i ≠ none ∧ (i ≠ j → τ j ≠ none) := by
  have := (body_did _ h).2 (.one rfl)
  exact ⟨by rw [Ne, this.alive, hi]; simp, fun _ => by rw [Ne, this.alive, hj]; simp⟩

/-- It meets the conditions, and leaves nothing behind. -/
example : Legal .empty doubled ∧ Neat .empty doubled ∧ Procedure doubled := by
  have n0 : ∀ τ, Did (Store.empty (K := XRat)) (.one (.init 0 (.leaf (.var 0)))) false τ →
      τ = Store.empty.set 0 (some (.expr (some (.var 0)))) := by
    intro τ h
    cases h with | one h =>
    cases h with | normal h h' =>
    cases h with
    | init h1 h2 => cases h2; rfl
    | initThrow h1 h2 => cases h2
  have n1 : Yields ((Store.empty (K := XRat)).set 0 (some (.expr (some (.var 0)))))
      (.one (.init 1 (.bin .plus (whole 0) (whole 0)))) 1 (.expr (some (.bin .plus (.var 0) (.var 0)))) :=
    .bin rfl rfl rfl
  have n2 : ∀ τ, Did ((Store.empty (K := XRat)).set 0 (some (.expr (some (.var 0)))))
      (.one (.init 1 (.bin .plus (whole 0) (whole 0)))) false τ → τ = ((Store.empty (K := XRat)).set 0
        (some (.expr (some (.var 0))))).set 1 (some (.expr (some (.bin .plus (.var 0) (.var 0))))) := by
    intro τ h
    rcases n1.effect _ _ h with ⟨-, h⟩ | ⟨h, -⟩
    · exact h
    · cases h
  refine ⟨⟨⟨_, .init rfl (.var 0)⟩, fun τ h => ?_⟩, ⟨⟨(fun _ h => by cases h), (fun _ _ _ _ h => by cases h)⟩,
    fun τ h => ?_⟩, .scope (.one rfl) (.scope (.one rfl) (.one rfl))⟩
  · rw [n0 τ h]
    refine ⟨⟨n1.legal, fun υ h => ?_⟩, fun t υ h => ?_⟩
    · rw [n2 υ h]
      exact ⟨⟨_, .assign rfl (.copy rfl)⟩, fun t ω h => (assign_did rfl rfl h).2 (by decide)⟩
    · have := (body_did _ h).2 (.scope (.one rfl) (.one rfl))
      rw [Ne, this.alive]
      simp [Store.set]
  · rw [n0 τ h]
    exact ⟨n1.neat, fun υ h => by rw [n2 υ h]; exact tidy_copy⟩

/-- A function that assigns, with a `try` block: `void h() { try { e = gu; } catch (...) { } }`: an example of the
code to which `C86_procedure` applies. -/
example : Legal .empty (weakForm (.attempt (.one (.assign 4 (.copy (whole 2)))) (.one (.assign 4 (.copy (whole 3))))
      (.one (.assign 1 (.copy (whole 0)))))) ∧
    Procedure (.attempt (.one (.assign 4 (.copy (whole 2)))) (.one (.assign 4 (.copy (whole 3))))
      (.one (.assign 1 (.copy (whole 0)))) : Body XRat) ∧
    ¬ Assigns 2 (.attempt (.one (.assign 4 (.copy (whole 2)))) (.one (.assign 4 (.copy (whole 3))))
      (.one (.assign 1 (.copy (whole 0)))) : Body XRat) := by
  refine ⟨weakForm_legal ⟨⟨_, .assign rfl (.copy rfl)⟩, fun τ => ⟨fun h => ?_, fun h => ?_⟩⟩,
    .attempt (.one rfl) (.one rfl) (.one rfl), fun h => ?_⟩
  · have := (body_did _ h).2 (.one rfl)
    have h3 : τ 3 = weakStore 3 := this.same 3 fun h => by cases h with | one h => cases h
    have h4 : ∃ d, τ 4 = some (.expr d) := by
      cases h with | one h =>
      cases h with | normal h h' =>
      cases h with
      | assign h1 h2 => exact ⟨_, set_self⟩
      | assignThrow h1 h2 => cases h2
    obtain ⟨d, h4⟩ := h4
    exact ⟨_, .assign h4 (.copy (e := .un .grad symV) (by rw [Spec.look, h3]; rfl))⟩
  · have := (body_did _ h).2 (.one rfl)
    have h0 : τ 0 = weakStore 0 := this.same 0 fun h => by cases h with | one h => cases h
    have h1 : τ 1 = weakStore 1 := this.same 1 fun h => by cases h with | one h => cases h
    exact ⟨_, .assign (o := some symV) (by rw [h1]; rfl) (.copy (e := symU) (by rw [Spec.look, h0]; rfl))⟩
  · cases h with
    | attempt h => cases h with | one h => cases h
    | attemptL h => cases h with | one h => cases h
    | attemptR h => cases h with | one h => cases h

end VM.Props
