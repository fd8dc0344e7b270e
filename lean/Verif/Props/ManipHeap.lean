import Verif.Rt.ManipShare
import Verif.Props.Body
/-
C87: manipulation functors of the user, in memory.
-/
namespace VM.Props
open Spec Run Prog
variable {K : Type} [Num K] {o f : Nat → Bool}

/-- The state after a program. -/
theorem at_run {p : Body K} (h : Legal .empty p) {s : State K} (hs : p.exec o (.begin f) = .ok () s) :
    ∃ σ L, Rep f s σ L := by
  have h1 := body_sim (o := o) p (start_rep (fl := f)) h
  rw [hs] at h1
  cases h1 with
  | ok h1 h2 h3 => exact ⟨_, _, h1⟩

/-- `rt_expr t(e.get()->recursive_manipulation(functor));` for any functor that gives its results away, any expression
of any program in an expression object or inside of one: `t` holds what the other claims say about manipulation
(`manipulate`), and nothing else changes; or there is no memory, and nothing has happened. -/
theorem C87_manipulate {F : Manip K} {act : Nat → Act K Nat} (hF : GivesAway F act) {p : Body K}
    (h : Legal .empty p) {s : State K} (hs : p.exec o (.begin f) = .ok () s) {i a : Nat} {src : Src} {e z : Expr K}
    (ha : s.target src = .ok (.node a)) (he : s.view src = .ok e) (hi : s.objs i = none)
    (hz : manipulate F e = .ok z) :
    (∃ s', manipInit o F.modifies act i src s = .ok () s' ∧ s'.view ⟨i, []⟩ = .ok z ∧ s'.objs i = some .expr ∧
      ∀ j, j ≠ i → s'.objs j = s.objs j ∧ ∀ ks, s'.view ⟨j, ks⟩ = s.view ⟨j, ks⟩) ∨
    ∃ s', manipInit o F.modifies act i src s = .throw .badAlloc s' ∧ (∃ b, f b = true) ∧
      ∀ j, s'.objs j = s.objs j ∧ ∀ ks, s'.view ⟨j, ks⟩ = s.view ⟨j, ks⟩ := by
  obtain ⟨σ, L, h1⟩ := at_run h hs
  have hi' : σ i = none := by rw [h1.2 i] at hi; simpa using hi
  rcases manipInit_sim (o := o) hF h1 hi' (look_of_view h1 he) ha with
    ⟨z', s', g1, g2, g3⟩ | ⟨x, s', M, g2, g3, -, g5⟩
  · rw [hz] at g1
    cases g1
    refine .inl ⟨s', g2, ?_, ?_, fun j hj => ⟨?_, fun ks => ?_⟩⟩
    · rw [g3.view]; simp [Spec.look, Store.set, Obj.part, part, shown]
    · rw [g3.2 i]; simp [Store.set, kind]
    · rw [g3.2 j, h1.2 j]; simp [Store.set, hj]
    · rw [g3.view, h1.view]; simp [Spec.look, Store.set, hj]
  · obtain ⟨rfl, hf⟩ := g5.resolve_left fun g => absurd hz (g z)
    exact .inr ⟨s', g2, hf, fun j => ⟨by rw [g3.2 j, h1.2 j], fun ks => by rw [g3.view, h1.view]⟩⟩

/-- If the functor throws for one of the expressions it is called on, the exception leaves, there is no `t`, and all
objects are as they were. -/
theorem C87_throws {F : Manip K} {act : Nat → Act K Nat} (hF : GivesAway F act) {p : Body K}
    (h : Legal .empty p) {s : State K} (hs : p.exec o (.begin f) = .ok () s) {i a : Nat} {src : Src} {e : Expr K}
    (ha : s.target src = .ok (.node a)) (he : s.view src = .ok e) (hi : s.objs i = none)
    (hz : ∀ z, manipulate F e ≠ .ok z) :
    ∃ x s', manipInit o F.modifies act i src s = .throw x s' ∧
      ∀ j, s'.objs j = s.objs j ∧ ∀ ks, s'.view ⟨j, ks⟩ = s.view ⟨j, ks⟩ := by
  obtain ⟨σ, L, h1⟩ := at_run h hs
  have hi' : σ i = none := by rw [h1.2 i] at hi; simpa using hi
  rcases manipInit_sim (o := o) hF h1 hi' (look_of_view h1 he) ha with
    ⟨z', s', g1, -⟩ | ⟨x, s', M, g2, g3, -⟩
  · exact absurd g1 (hz z')
  · exact ⟨x, s', g2, fun j => ⟨by rw [g3.2 j, h1.2 j], fun ks => by rw [g3.view, h1.view]⟩⟩

/-- The object made from the result owns it like every other object its expression: any further code that uses its
objects as they may be used runs without undefined behaviour, with the effects possible if each object holds a value of
its own; `t` and the manipulated expression do not share anything. -/
theorem C87_afterwards {F : Manip K} {act : Nat → Act K Nat} (hF : GivesAway F act) {p q : Body K}
    (h : Legal .empty p) {s s' : State K} (hs : p.exec o (.begin f) = .ok () s) {i a : Nat} {src : Src} {e z : Expr K}
    (ha : s.target src = .ok (.node a)) (he : s.view src = .ok e) (hi : s.objs i = none)
    (hz : manipulate F e = .ok z) (hm : manipInit o F.modifies act i src s = .ok () s')
    (hq : ∀ σ, Did .empty p false σ → (∀ j, σ j = none ↔ s.objs j = none) → (∀ r, s.view r = shown (Spec.look σ r)) →
      Legal (σ.set i (some (.expr (some z)))) q) :
    ∃ t s'' σ τ, ((t = false ∧ q.exec o s' = .ok () s'') ∨ ∃ x, t = true ∧ q.exec o s' = .throw x s'') ∧
      Did .empty p false σ ∧ Did (σ.set i (some (.expr (some z)))) q t τ ∧ (∀ j, s''.objs j = none ↔ τ j = none) ∧
      ∀ r, s''.view r = shown (Spec.look τ r) := by
  have h1 := body_sim (o := o) p (start_rep (fl := f)) h
  rw [hs] at h1
  cases h1 with
  | @ok _ L σ h1 h2 h3 =>
    have hi' : σ i = none := by rw [h1.2 i] at hi; simpa using hi
    rcases manipInit_sim (o := o) hF h1 hi' (look_of_view h1 he) ha with
      ⟨z', s1, g1, g2, g3⟩ | ⟨x, s1, M, g2, -⟩
    · rw [hz] at g1
      cases g1
      rw [hm] at g2
      cases g2
      have h4 := body_sim (o := o) q g3 (hq σ h2 (fun j => by rw [h1.2 j]; simp) h1.view)
      revert h4
      generalize q.exec o s' = r
      rintro (⟨k1, k2, -⟩ | @⟨x, s'', M, τ, k1, k2, -⟩)
      · exact ⟨false, _, σ, _, .inl ⟨rfl, rfl⟩, h2, k2, fun i => by rw [k1.2 i]; simp, k1.view⟩
      · exact ⟨true, _, σ, _, .inr ⟨x, rfl, rfl⟩, h2, k2, fun i => by rw [k1.2 i]; simp, k1.view⟩
    · rw [hm] at g2; cases g2

/-- The manipulation leaves everything in memory as it was and allocates the nodes of its result, all of them new, and
nothing else; these are what `t` holds then. -/
theorem C87_clean {F : Manip K} {act : Nat → Act K Nat} (hF : GivesAway F act) {p : Body K}
    (h : Legal .empty p) {s : State K} (hs : p.exec o (.begin fun _ => false) = .ok () s) {i a : Nat} {src : Src}
    {e z : Expr K} (ha : s.target src = .ok (.node a)) (he : s.view src = .ok e) (hi : s.objs i = none)
    (hz : manipulate F e = .ok z) :
    ∃ b h' s', heap (manipFA o F.modifies act a) s = .ok b ⟨h', s.ptr, s.objs⟩ ∧
      manipInit o F.modifies act i src s = .ok () s' ∧ s'.heap = h' ∧ s'.target ⟨i, []⟩ = .ok (.node b) ∧
      Clean s.heap h' b z := by
  obtain ⟨σ, L, h1⟩ := at_run h hs
  obtain ⟨F0, hO⟩ := own_target h1 (look_of_view h1 he) ha
  have hi' : σ i = none := by rw [h1.2 i] at hi; simpa using hi
  obtain ⟨⟨fp, H⟩, -⟩ := h1
  have hm := manipFA_makes (o := o) hF hO _ _ (.refl H.wf)
  rw [hz] at hm
  revert hm
  cases hr : manipFA o F.modifies act a s.heap with
  | ub => rintro (_ | _ | ⟨_, h⟩); cases h
  | throw x h' =>
    rintro (_ | ⟨g1, g2⟩)
    obtain ⟨-, g3⟩ := g1.resolve_left fun g => absurd rfl (g _)
    obtain ⟨_, -, -, g4⟩ := H.scarce g3
    cases g4
  | ok b h' =>
    rintro (@⟨_, _, _, F1, L, g1, g2, g3, g4⟩)
    cases g1
    rw [g4.resolve_left id, List.append_nil] at g3
    have hq := (H.unset (.one i) (own_free hi').1).1
    refine ⟨b, h', ⟨h', at' s.ptr (.one i) (some b), fun k => if k = i then some .expr else s.objs k⟩, heap_ok hr, ?_,
      rfl, by simp [State.target, follow], clean_own g2 g3⟩
    rw [manipInit, look_bind (f := fun s : State K => s.objs i), hi]
    simp only
    rw [bind_ok (look_ok (f := fun s : State K => s.target src) ha)]
    simp only
    rw [bind_ok (heap_ok hr), bind_ok (setObj_eq _ _ _)]
    exact reset_none hq

/-- A functor that builds new expressions from copies of parts of the one it is called on, new constants, variables and
function symbols, or throws, gives its results away. -/
theorem C87_recipes {modifies : Expr K → Bool} {plan : Expr K → Except Exc (Recipe K)} (hp : Sound plan) :
    GivesAway (planned modifies plan) (cook o plan) := cook_givesAway hp

/-- A functor that does not do that but returns the pointer it was given, whatever it says it modifies: the object made
from the result of manipulating `e` is useless as soon as `e` is gone: reading it and its destruction are undefined. -/
theorem C87_argument_returned {modifies : Expr K → Bool} {p : Body K} (h : Legal .empty p) {s : State K}
    (hs : p.exec o (.begin fun _ => false) = .ok () s) {i j : Nat} {e : Expr K} (hj : s.objs j = some .expr)
    (he : s.view ⟨j, []⟩ = .ok e) (hi : s.objs i = none) :
    ∃ s' s'', manipInit o modifies pure i ⟨j, []⟩ s = .ok () s' ∧ exec o (.destroy j) s' = .ok () s'' ∧
      s''.view ⟨i, []⟩ = .ub ∧ exec o (.destroy i) s'' = .ub := by
  obtain ⟨σ, L, ⟨fp, H⟩, hk⟩ := at_run h hs
  have hl := look_of_view ⟨⟨fp, H⟩, hk⟩ he
  have hσ : σ j = some (.expr (some e)) := by
    have := hk j
    rw [hj] at this
    cases hv : σ j with
    | none => rw [hv] at this; cases this
    | some v =>
      cases v with
      | expr v =>
        cases v with
        | none => simp [Spec.look, hv, Obj.part] at hl
        | some x => simp only [Spec.look, hv, Option.bind_some, Obj.part, part, Option.some.injEq] at hl; rw [hl]
      | bin _ _ _ => rw [hv] at this; cases this
      | un _ _ => rw [hv] at this; cases this
  have hi' : σ i = none := by rw [hk i] at hi; simpa using hi
  have hij : i ≠ j := by rintro rfl; rw [hi] at hj; cases hj
  obtain ⟨a, hp, hO⟩ := H.owns (.one j) e (by simp [own, hσ, own1])
  have hp2 := (H.unset (.two j) (by simp [own, hσ, own2])).1
  have hq := (H.unset (.one i) (own_free hi').1).1
  have hq2 := (H.unset (.two i) (own_free hi').2).1
  have ht : s.target ⟨j, []⟩ = .ok (.node a) := by simp [State.target, hj, hp, follow]
  have hm := manipFN_shares (o := o) (modifies := modifies) e (Nat.lt_succ_self a) hO (fun _ h => h) (.refl H.wf)
  revert hm
  cases hr : manipFN o modifies pure (a + 1) a s.heap with
  | ub => rintro (_ | _)
  | throw x h' =>
    rintro (_ | ⟨_, g3⟩)
    obtain ⟨_, -, -, g4⟩ := H.scarce g3
    cases g4
  | ok b h' =>
    rintro (⟨E, hS⟩)
    have hd := hS.dead
    refine ⟨⟨h', at' s.ptr (.one i) (some b), fun k => if k = i then some .expr else s.objs k⟩,
      ⟨h'.free (fp (.one j)), at' (at' s.ptr (.one i) (some b)) (.one j) none,
        fun k => if k = j then none else if k = i then some .expr else s.objs k⟩, ?_, ?_, ?_, ?_⟩
    · rw [manipInit, look_bind (f := fun s : State K => s.objs i), hi]
      simp only
      rw [bind_ok (look_ok (f := fun s : State K => s.target ⟨j, []⟩) ht)]
      simp only
      rw [bind_ok (heap_ok (m := manipFA o modifies pure a) hr), bind_ok (setObj_eq _ _ _)]
      exact reset_none hq
    · rw [exec, look_bind (f := fun s : State K => s.objs j)]
      simp only [hij.symm, if_false, hj]
      rw [bind_ok (reset_none (by simpa using hp2)), bind_ok (reset_some (a := a) (by simpa [hij.symm] using hp)
        (delete_own (hO.adds E) (H.nodup _))), setObj_eq]
      simp [at_same, hp2]
    · simp [State.view, State.ref, State.target, hij, follow, load, hd.load]
    · rw [exec, look_bind (f := fun s : State K => s.objs i)]
      simp only [hij, if_false, if_true]
      rw [bind_ok (reset_none (by simpa [hij] using hq2))]
      have hdel : VM.delete b (h'.free (fp (.one j))) = .ub := hd.delete (b + 1)
      refine bind_ub ?_
      rw [reset, bind_ok (a := some b) (look_ok (by simp [hij]))]
      exact bind_ub (by simp [heap, hdel])

/-- A functor that doubles the variables, and throws when it meets a function symbol. -/
def doubleVars : Expr XRat → Except Exc (Recipe XRat)
  | .var _ => .ok (.bin .mult (.const (some 2)) (.part []))
  | .fsym _ _ => .error .notDifferentiable
  | _ => .ok (.part [])

theorem doubleVars_sound : Sound doubleVars := by
  intro e r h
  cases e <;> simp [doubleVars] at h <;> subst h <;> simp [dish, part]

theorem yields_var {σ : Store K} {i j : Nat} (hi : σ i = none) :
    Yields σ (.one (.init i (.leaf (.var j)))) i (.expr (some (.var j))) := by
  refine .init hi (.var j) (fun e' h => ?_) (fun r' h => by cases h)
    ⟨(fun x h => by cases h), (fun i t r e h => by cases h)⟩
  cases h
  rfl

/-- `expr a = t; expr b = a + a;` where `t` is a variable or a function symbol -/
def twice (t : Expr XRat) : Body XRat :=
  .seq (.one (.init 0 (.leaf t))) (.one (.init 1 (.bin .plus (whole 0) (whole 0))))

/-- What object `r` shows after `expr c(b.get()->recursive_manipulation(functor));`. -/
def manipulated (f : Nat → Bool) (act : Nat → Act XRat Nat) (t : Expr XRat) (r : Nat) : Res (Expr XRat) :=
  match (twice t).exec (fun _ => true) (.begin f) with
  | .ok _ s => match manipInit (fun _ => true) (fun _ => false) act 2 (whole 1) s with
    | .ok _ s' => s'.view (whole r)
    | .throw x _ => .throw x
    | .ub => .ub
  | _ => .ub

/-- Manipulating `x + x` gives `2 x + 2 x` in a new object, or there is no memory; manipulating `u + u` throws. -/
example : GivesAway (planned (fun _ => false) doubleVars) (cook o doubleVars) ∧
    Legal .empty (twice (.var 0)) ∧ Legal .empty (twice (.fsym 0 0)) ∧
    manipulated (fun _ => false) (cook (fun _ => true) doubleVars) (.var 0) 2 =
      .ok (.bin .plus (.bin .mult (.const (some 2)) (.var 0)) (.bin .mult (.const (some 2)) (.var 0))) ∧
    manipulated (fun _ => false) (cook (fun _ => true) doubleVars) (.var 0) 1 = .ok (.bin .plus (.var 0) (.var 0)) ∧
    manipulated (fun a => a == 9) (cook (fun _ => true) doubleVars) (.var 0) 2 = .throw .badAlloc ∧
    manipulated (fun _ => false) (cook (fun _ => true) doubleVars) (.fsym 0 0) 2 = .throw .notDifferentiable ∧
    manipulate (planned (fun _ => false) doubleVars) (.bin .plus (.var 0) (.var 0)) =
      .ok (.bin .plus (.bin .mult (.const (some 2)) (.var 0)) (.bin .mult (.const (some 2)) (.var 0))) ∧
    manipulate (planned (fun _ => false) doubleVars) (.bin .plus (.fsym 0 0) (.fsym 0 0)) = .throw .notDifferentiable := by
  refine ⟨cook_givesAway doubleVars_sound, legal_seq (yields_var rfl) ⟨_, .init rfl (.bin rfl rfl)⟩,
    legal_seq (.fsym rfl) ⟨_, .init rfl (.bin rfl rfl)⟩, ?_, ?_, ?_, ?_, ?_, ?_⟩
  all_goals decide +kernel

/-- The code after the manipulation may destroy the manipulated expression and go on with the result. -/
example : ∀ σ : Store XRat, (∃ e, σ 1 = some (.expr e)) →
    Legal (σ.set 2 (some (.expr (some (.var 0))))) (.seq (.one (.destroy 1)) (.one (.assign 2 (.copy (whole 2))))) := by
  rintro σ ⟨e, he⟩
  refine ⟨⟨_, .destroy (o := .expr e) (by simp [Store.set, he])⟩, fun τ h => ?_⟩
  cases h with | one h =>
  cases h with | normal h h' =>
  cases h with | destroy h =>
  exact ⟨_, .assign (o := some (.var 0)) (e := .var 0) (by simp [Store.set]) (.copy (by simp [Spec.look, Store.set, Obj.part, part]))⟩

/-- A functor that returns its argument, on `x + x`: everything looks fine as long as `b` is there. -/
example : manipulated (fun _ => false) pure (.var 0) 2 = .ok (.bin .plus (.var 0) (.var 0)) := by decide +kernel

end VM.Props
