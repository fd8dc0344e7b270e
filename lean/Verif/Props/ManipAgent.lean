import Verif.Rt.ManipAgentLemmas
import Verif.Props.ManipHeap
import Verif.Props.ManipState
/-
C107: manipulation functors with a state, in memory.
-/
namespace VM.Props
open Spec Run Prog
variable {K σ : Type} [Num K] {o f : Nat → Bool} {I : σ → Heap K → Prop} {Lk : Prop} {A : Replies K σ}
  {F : Agent K σ}

/-- What the objects of a program are, and what they show. -/
def SameObjects (s s' : State K) (j : Nat) : Prop :=
  s'.objs j = s.objs j ∧ ∀ ks, s'.view ⟨j, ks⟩ = s.view ⟨j, ks⟩

/-- `rt_expr t(e.get()->recursive_manipulation(functor));` for any functor with a state that gives its results away, any
expression of any program.  The nodes of `e` are at certain addresses, and the functor is called on these: the outcome
is what C105 says about functors that know where they are called.
* If that is a value, `t` holds it; the other objects have not changed; the functor is in the state that its calls led to.
* If that is an exception, the same exception leaves; no object has changed; the state is that after the call that threw.
* Or there is no memory; no object has changed.
In each case, what the functor refers to is in order. -/
theorem C107_manipulate (hF : Honest I Lk A F) {p : Body K} (h : Legal .empty p) {s : State K}
    (hs : p.exec o (.begin f) = .ok () s) {i a : Nat} {src : Src} {e : Expr K} {t : σ}
    (ha : s.target src = .ok (.node a)) (he : s.view src = .ok e) (hi : s.objs i = none) (hI : I t s.heap) :
    ∃ pos : List Dir → Nat, pos [] = a ∧ (∀ q n, At e q n → load (pos q) s.heap = .ok n) ∧
      ((∃ z s' t', recursiveManipulation (A.on pos) (fun q => o (pos q)) e t = (.ok z, t') ∧
          manipInitS o F i src (s, t) = .ok () (s', t') ∧ s'.view ⟨i, []⟩ = .ok z ∧ s'.objs i = some .expr ∧
          (∀ j, j ≠ i → SameObjects s s' j) ∧ I t' s'.heap) ∨
        (∃ x s' t', recursiveManipulation (A.on pos) (fun q => o (pos q)) e t = (.throw x, t') ∧
          manipInitS o F i src (s, t) = .throw x (s', t') ∧ (∀ j, SameObjects s s' j) ∧ I t' s'.heap) ∨
        ∃ s' t', manipInitS o F i src (s, t) = .throw .badAlloc (s', t') ∧ (∃ b, f b = true) ∧
          (∀ j, SameObjects s s' j) ∧ I t' s'.heap) := by
  obtain ⟨τ, L, h1⟩ := at_run h hs
  have hi' : τ i = none := by rw [h1.2 i] at hi; simpa using hi
  have hl := look_of_view h1 he
  obtain ⟨F0, hO⟩ := own_target h1 hl ha
  refine ⟨addr s.heap.cells a, rfl, fun q n hq => ?_, ?_⟩
  · obtain ⟨G', hG⟩ := addr_own hq hO
    exact load_own hG
  rcases manipInitS_sim (o := o) hF h1 hi' hl ha hI rfl with
    ⟨z, s', M, g1, g2, g3, g4, -⟩ | ⟨x, s', M, g1, g2, g3, g4⟩ | ⟨s', t', M, g2, g3, g4, g5⟩
  · refine .inl ⟨z, s', _, g1, g2, ?_, ?_, fun j hj => ⟨?_, fun ks => ?_⟩, g4⟩
    · rw [g3.view]; simp [Spec.look, Store.set, Obj.part, part, shown]
    · rw [g3.2 i]; simp [Store.set, kind]
    · rw [g3.2 j, h1.2 j]; simp [Store.set, hj]
    · rw [g3.view, h1.view]; simp [Spec.look, Store.set, hj]
  · exact .inr (.inl ⟨x, s', _, g1, g2, fun j => ⟨by rw [g3.2 j, h1.2 j], fun ks => by rw [g3.view, h1.view]⟩, g4⟩)
  · exact .inr (.inr ⟨s', t', g2, g5, fun j => ⟨by rw [g3.2 j, h1.2 j], fun ks => by rw [g3.view, h1.view]⟩, g4⟩)

/-- So if `t` is made, there were orderly calls on the nodes of `e` that lead from the state before to the state after,
and `t` holds `e` with the results of `operator()` in place of the nodes it was called on. -/
theorem C107_calls (hF : Honest I Lk A F) {p : Body K} (h : Legal .empty p) {s s' : State K}
    (hs : p.exec o (.begin f) = .ok () s) {i a : Nat} {src : Src} {e : Expr K} {t t' : σ}
    (ha : s.target src = .ok (.node a)) (he : s.view src = .ok e) (hi : s.objs i = none) (hI : I t s.heap)
    (hm : manipInitS o F i src (s, t) = .ok () (s', t')) :
    ∃ (pos : List Dir → Nat) (cs : List (FCall K)), (∀ q n, At e q n → load (pos q) s.heap = .ok n) ∧ Orderly e cs ∧
      Made (fun q => A.modifies (pos q)) (fun q => A.apply (pos q)) e cs t t' ∧ (∀ c ∈ cs, c.Returned) ∧
      ∃ z, s'.view ⟨i, []⟩ = .ok z ∧ Edited (fun q n => FCall.applied q (.ok n) ∈ cs) e z := by
  obtain ⟨pos, -, h2, h3⟩ := C107_manipulate hF h hs ha he hi hI
  rcases h3 with ⟨z, s1, t1, g1, g2, g3, -⟩ | ⟨x, s1, t1, -, g2, -⟩ | ⟨s1, t1, g2, -⟩
  · rw [hm] at g2
    cases g2
    obtain ⟨cs, k1, k2, k3⟩ := C105_calls (A.on pos) (fun q => o (pos q)) e t
    rw [g1] at k2 k3
    exact ⟨pos, cs, h2, k1, k2, k3.1, z, g3, k3.2.2⟩
  · rw [hm] at g2; cases g2
  · rw [hm] at g2; cases g2

/-- `t` owns its expression like every other object: any further code that uses its objects as they may be used runs
without undefined behaviour, with the effects possible if each object holds a value of its own. -/
theorem C107_afterwards (hF : Honest I Lk A F) {p q : Body K} (h : Legal .empty p) {s s' : State K}
    (hs : p.exec o (.begin f) = .ok () s) {i a : Nat} {src : Src} {e : Expr K} {t t' : σ}
    (ha : s.target src = .ok (.node a)) (he : s.view src = .ok e) (hi : s.objs i = none) (hI : I t s.heap)
    (hm : manipInitS o F i src (s, t) = .ok () (s', t'))
    (hq : ∀ τ z, Did .empty p false τ → (∀ j, τ j = none ↔ s.objs j = none) → (∀ r, s.view r = shown (Spec.look τ r)) →
      s'.view ⟨i, []⟩ = .ok z → Legal (τ.set i (some (.expr (some z)))) q) :
    ∃ b s'' τ τ' z, ((b = false ∧ q.exec o s' = .ok () s'') ∨ ∃ x, b = true ∧ q.exec o s' = .throw x s'') ∧
      s'.view ⟨i, []⟩ = .ok z ∧ Did .empty p false τ ∧ Did (τ.set i (some (.expr (some z)))) q b τ' ∧
      (∀ j, s''.objs j = none ↔ τ' j = none) ∧ ∀ r, s''.view r = shown (Spec.look τ' r) := by
  have h1 := body_sim (o := o) p (start_rep (fl := f)) h
  rw [hs] at h1
  cases h1 with
  | @ok _ L τ h1 h2 h3 =>
    have hi' : τ i = none := by rw [h1.2 i] at hi; simpa using hi
    rcases manipInitS_sim (o := o) hF h1 hi' (look_of_view h1 he) ha hI rfl with
      ⟨z, s1, M, g1, g2, g3, -⟩ | ⟨x, s1, M, -, g2, -⟩ | ⟨s1, t1, M, g2, -⟩
    · rw [hm] at g2
      cases g2
      have hv : s'.view ⟨i, []⟩ = .ok z := by rw [g3.view]; simp [Spec.look, Store.set, Obj.part, part, shown]
      have h4 := body_sim (o := o) q g3 (hq τ z h2 (fun j => by rw [h1.2 j]; simp) h1.view hv)
      revert h4
      generalize q.exec o s' = r
      rintro (⟨k1, k2, -⟩ | @⟨x, s'', M', τ', k1, k2, -⟩)
      · exact ⟨false, _, τ, _, z, .inl ⟨rfl, rfl⟩, hv, h2, k2, fun i => by rw [k1.2 i]; simp, k1.view⟩
      · exact ⟨true, _, τ, _, z, .inr ⟨x, rfl, rfl⟩, hv, h2, k2, fun i => by rw [k1.2 i]; simp, k1.view⟩
    · rw [hm] at g2; cases g2
    · rw [hm] at g2; cases g2

/-- If the functor keeps nothing that it allocates, and `t` is made, then the nodes of `t` are new, everything that was in
memory is as it was, and nothing else is allocated: nothing is leaked. -/
theorem C107_clean (hF : Honest I False A F) {p : Body K} (h : Legal .empty p) {s s' : State K}
    (hs : p.exec o (.begin f) = .ok () s) {i a : Nat} {src : Src} {e : Expr K} {t t' : σ}
    (ha : s.target src = .ok (.node a)) (he : s.view src = .ok e) (hi : s.objs i = none) (hI : I t s.heap)
    (hm : manipInitS o F i src (s, t) = .ok () (s', t')) :
    ∃ b z, s'.target ⟨i, []⟩ = .ok (.node b) ∧ s'.view ⟨i, []⟩ = .ok z ∧ Clean s.heap s'.heap b z := by
  obtain ⟨τ, L, h1⟩ := at_run h hs
  have hi' : τ i = none := by rw [h1.2 i] at hi; simpa using hi
  rcases manipInitS_sim (o := o) hF h1 hi' (look_of_view h1 he) ha hI rfl with
    ⟨z, s1, M, g1, g2, g3, -, g4, b, g5, g6⟩ | ⟨x, s1, M, -, g2, -⟩ | ⟨s1, t1, M, g2, -⟩
  · rw [hm] at g2
    cases g2
    exact ⟨b, z, g5, by rw [g3.view]; simp [Spec.look, Store.set, Obj.part, part, shown], g6 (g4.resolve_left id)⟩
  · rw [hm] at g2; cases g2
  · rw [hm] at g2; cases g2

/-! ### A functor that refers to an expression and counts -/

/-- A call that returns, and then the state changes. -/
def noting {S α : Type} (g : σ → σ) (m : Run (S × σ) α) : Run (S × σ) α := fun s => match m s with
  | .ok a (h, t) => .ok a (h, g t)
  | r => r

/-- A functor that replaces the variable `x_i` by a copy of an expression that it refers to, and counts how often; it
copies everything else.  Its state: where the expression is, and the number of replacements. -/
def replacer (i : Nat) : Agent K (Nat × Nat) where
  apply a := fun s => match load a s.1 with
    | .ok (.var j) => if j = i then noting (fun t => (t.1, t.2 + 1)) (aside (clone s.2.1)) s else aside (clone a) s
    | .ok _ => aside (clone a) s
    | _ => .ub
  modifies _ := pure false

/-- What it answers if the expression is `m`. -/
def replaced (i : Nat) (m : Expr K) : Replies K (Nat × Nat) where
  apply _ e t := match e with
    | .var j => if j = i then (.ok m, t.1, t.2 + 1) else (.ok (.var j), t)
    | e => (.ok e, t)
  modifies _ _ t := (.ok false, t)

/-- The expression is there. -/
def RefersTo (m : Expr K) (t : Nat × Nat) (h : Heap K) : Prop := ∃ G, Own h.cells t.1 m G

omit [Num K] in
theorem clone_obeys {I : σ → Heap K → Prop} (keeps : ∀ t h h' L, I t h → Adds h h' L → I t h') {h : Heap K} {a : Nat}
    {e : Expr K} {G : List Nat} {t : σ} {g : σ → σ} (hw : h.WF) (H : Own h.cells a e G) (hI : I t h)
    (hg : ∀ h, I t h → I (g t) h) : Obeys I False h (.ok e, g t) (noting g (aside (clone a)) (h, t)) := by
  have hm := clone_makes (U := False) (Lk := False) H _ _ (.refl hw)
  revert hm
  cases hr : VM.clone a h with
  | ok b h2 =>
    rintro (@⟨_, _, _, F', M, g1, g2, g3, g4⟩)
    cases g1
    rw [noting, aside_ok hr]
    exact .ok (out := (.ok e, g t)) rfl g2 g3 g4 (hg _ (keeps _ _ _ _ hI g3))
  | throw x h2 =>
    rintro (_ | ⟨g1, g2⟩)
    obtain ⟨rfl, g3⟩ := g1.resolve_left fun g => absurd rfl (g _)
    rw [noting, aside_throw hr]
    exact .memory g2 g3 (keeps _ _ _ _ hI g2)
  | ub => rintro (_ | _ | ⟨_, h⟩); cases h

omit [Num K] in
theorem noting_id {S α : Type} (m : Run (S × σ) α) : noting (fun t => t) m = m := by
  funext s
  simp only [noting]
  split <;> simp_all

omit [Num K] in
/-- It meets the contract. -/
theorem C107_replacer (i : Nat) (m : Expr K) : Honest (RefersTo m) False (replaced i m) (replacer i) where
  keeps t h h' L := fun ⟨G, hG⟩ E => ⟨G, hG.adds E⟩
  modifies h a e G t _ _ hI := ⟨.inl ⟨false, rfl, rfl⟩, hI⟩
  apply h a e G t hw H hI := by
    have keeps : ∀ (t : Nat × Nat) (h h' : Heap K) L, RefersTo m t h → Adds h h' L → RefersTo m t h' :=
      fun t h h' L ⟨G, hG⟩ E => ⟨G, hG.adds E⟩
    have copy : Obeys (RefersTo m) False h (.ok e, t) (aside (clone a) (h, t)) := by
      have := clone_obeys (g := fun t => t) keeps hw H hI (fun _ h => h)
      rwa [noting_id] at this
    simp only [replacer, replaced, load_own H]
    cases e with
    | var j =>
      simp only
      by_cases hj : j = i
      · rw [if_pos hj, if_pos hj]
        obtain ⟨Gm, hm⟩ := hI
        exact clone_obeys (g := fun t : Nat × Nat => (t.1, t.2 + 1)) keeps hw hm ⟨Gm, hm⟩ (fun _ h => h)
      · rw [if_neg hj, if_neg hj]; exact copy
    | const | fsym | un | bin | integ | vec => exact copy

/-- It may refer to the expression in any object of the program. -/
theorem C107_refers {p : Body K} (h : Legal .empty p) {s : State K} (hs : p.exec o (.begin f) = .ok () s) {b k : Nat}
    {r : Src} {m : Expr K} (hb : s.target r = .ok (.node b)) (hm : s.view r = .ok m) : RefersTo m (b, k) s.heap := by
  obtain ⟨τ, L, h1⟩ := at_run h hs
  exact own_target h1 (look_of_view h1 hm) hb

/-- What object `r` shows after `expr c(b.get()->recursive_manipulation(functor));` and how often the functor has
replaced `x_0`, by the expression in object 1; object 1 is `x_0 + x_0` and is what is manipulated. -/
def counted (f : Nat → Bool) (r : Nat) : Option (Res (Expr XRat) × Nat) :=
  match (twice (.var 0)).exec (fun _ => true) (.begin f) with
  | .ok _ s => match s.target (whole 1) with
    | .ok (.node b) => match manipInitS (fun _ => true) (replacer 0) 2 (whole 1) (s, (b, 0)) with
      | .ok _ (s', t) => some (s'.view (whole r), t.2)
      | .throw x (_, t) => some (.throw x, t.2)
      | .ub => none
    | _ => none
  | _ => none

/-- Replacing `x` by `x + x` in `x + x` gives `(x + x) + (x + x)` after two replacements, and the expression that was
manipulated and referred to is as before; without memory for the second copy, one replacement was counted. -/
example : Legal .empty (twice (.var 0) : Body XRat) ∧
    counted (fun _ => false) 2 = some (.ok (.bin .plus (.bin .plus (.var 0) (.var 0)) (.bin .plus (.var 0) (.var 0))), 2) ∧
    counted (fun _ => false) 1 = some (.ok (.bin .plus (.var 0) (.var 0)), 2) ∧
    counted (fun a => a == 8) 2 = some (.throw .badAlloc, 1) := by
  refine ⟨legal_seq (yields_var rfl) ⟨_, .init rfl (.bin rfl rfl)⟩, ?_, ?_, ?_⟩
  all_goals decide +kernel

end VM.Props
