import Verif.Spec.NewtonA
import Verif.Rt.NewtonALemmas
import Verif.Props.HeapRead
/-
C102: the Newton solver of the tutorial in memory.
-/
namespace VM.Props
open Spec
variable {K : Type} [Num K] {ox oh f : Nat → Bool} {o : Order K} {p q : Client K} {s : State K} {m : System Src}
  {q₁ q₂ : Equation K}

theorem solver_of {β : Type} {Lt : Prop} {g : System Ref → Act K β} {v : Res β} (h : Safe .empty p)
    (hs : Reaches ox p (.begin f) q s) (hm : ShowsSystem s m q₁ q₂)
    (hg : ∀ {x}, SystemIs s.heap x q₁ q₂ → Gives Lt s.heap v (g x)) :
    (¬ Lt → OnlyReads s v (solverCall g m s)) ∧
    (∀ w s', solverCall g m s = .ok w s' → v = .ok w ∧ SameMemory s.heap s'.heap ∧ s'.ptr = s.ptr ∧ s'.objs = s.objs) ∧
    (∀ s', (∃ w, solverCall g m s = .ok w s') ∨ (∃ x, solverCall g m s = .throw x s') → ∀ r, s'.view r = s.view r) ∧
    s.heap.fails = f := by
  obtain ⟨σ, L, ⟨⟨fp, H⟩, hk⟩, -⟩ := reaches_sim hs start_rep h
  have one : ∀ {r : Src} {e : Expr K}, s.view r = .ok e → ∃ x, s.ref r = .ok x ∧ RefIs s.heap x e := by
    intro r e he
    rw [view_eq H hk] at he
    cases hl : look σ r with
    | none => rw [hl] at he; cases he
    | some e' =>
      rw [hl] at he
      cases he
      obtain ⟨x, h1, h2, -⟩ := ref_some H hk hl
      exact ⟨x, h1, h2⟩
  obtain ⟨v1, v2, v3, v4⟩ := hm
  obtain ⟨x1, a1, b1⟩ := one v1
  obtain ⟨x2, a2, b2⟩ := one v2
  obtain ⟨x3, a3, b3⟩ := one v3
  obtain ⟨x4, a4, b4⟩ := one v4
  have hx : solverCall g m s = Prog.heap (g ⟨x1, x2, x3, x4⟩) s := by
    rw [solverCall, Run.bind_ok (Run.look_ok (f := fun s : State K => s.ref m.l₁) a1),
      Run.bind_ok (Run.look_ok (f := fun s : State K => s.ref m.r₁) a2),
      Run.bind_ok (Run.look_ok (f := fun s : State K => s.ref m.l₂) a3),
      Run.bind_ok (Run.look_ok (f := fun s : State K => s.ref m.r₂) a4)]
  rw [hx]
  obtain ⟨c1, c2, c3, -⟩ := onlyReads_heap H hk (hg (x := ⟨x1, x2, x3, x4⟩) ⟨b1, b2, b3, b4⟩)
  exact ⟨c1, c2, c3, H.fails⟩

/-- One step of the solver, at any point of any program, for equations of smooth functions, whichever requests for
memory have failed so far: it gives the point, or throws the exception, that the equations determine (the subject of
C65), and leaves exactly the memory that was allocated before; unless one of its own requests for memory fails, which
gives `std::bad_alloc` and changes nothing that was there. -/
theorem C102_step (h : Safe .empty p) (hs : Reaches ox p (.begin f) q s) (hm : ShowsSystem s m q₁ q₂) (h₁ : SmoothEq q₁)
    (h₂ : SmoothEq q₂) (g : List K) :
    OnlyReads s (newtonStep o q₁ q₂ g) (solverCall (fun x => newtonStepA o oh x g) m s) :=
  (solver_of h hs hm (Lt := False) fun H =>
    newtonStepA_gives H (not_stuck h₁.1 h₁.2) (not_stuck h₂.1 h₂.2)).1 id

theorem loop_more [NumLt K] {fuel k : Nat} {n : K} {g : List K} {r : Res (List K)}
    (h : newtonLoop o q₁ q₂ fuel n g = some r) : newtonLoop o q₁ q₂ (fuel + k) n g = some r := by
  induction fuel generalizing n g with
  | zero => cases h
  | succ fuel ih =>
    rw [Nat.add_right_comm, newtonLoop]
    rw [newtonLoop] at h
    split at h
    · rename_i hg
      rw [if_pos hg]
      cases hs : newtonStep o q₁ q₂ g with
      | ok x' =>
        simp only [hs] at h
        cases hn : newtonNorm o q₁ q₂ x' with
        | ok n' =>
          simp only [hn] at h ⊢
          exact ih h
        | throw e => simpa only [hn] using h
        | ub => simpa only [hn] using h
      | throw e => simpa only [hs] using h
      | ub => simpa only [hs] using h
    · rename_i hg
      rw [if_neg hg]
      exact h

/-- The whole solver: if it returns or throws `r` on expressions, it does so in memory, and leaves exactly the memory that
was allocated before; unless one of its own requests for memory fails. -/
theorem C102_solve [NumLt K] (h : Safe .empty p) (hs : Reaches ox p (.begin f) q s) (hm : ShowsSystem s m q₁ q₂)
    (h₁ : SmoothEq q₁) (h₂ : SmoothEq q₂) {guess : List K} {r : Res (List K)} (hr : NewtonReturns o q₁ q₂ guess r) :
    ∃ n, ∀ fuel, n ≤ fuel → OnlyReads s (r.map some) (solverCall (newtonA o oh fuel guess) m s) := by
  obtain ⟨n, hn⟩ := hr
  refine ⟨n, fun fuel hf => ?_⟩
  have := (solver_of h hs hm (Lt := False) fun H => newtonA_gives (o := o) (oh := oh) (g := guess) (fuel := fuel) H
    (not_stuck h₁.1 h₁.2) (not_stuck h₂.1 h₂.2)).1 id
  obtain ⟨k, rfl⟩ := Nat.exists_eq_add_of_le hf
  rwa [loop_more hn] at this

/-- Iterating does not use up memory: however many iterations have been made, giving up destroys all that the solver had
allocated, and if it has not returned yet nothing has been thrown but `std::bad_alloc`. -/
theorem C102_running [NumLt K] (h : Safe .empty p) (hs : Reaches ox p (.begin f) q s) (hm : ShowsSystem s m q₁ q₂)
    (h₁ : SmoothEq q₁) (h₂ : SmoothEq q₂) {guess : List K} {fuel : Nat}
    (hr : newtonLoop o q₁ q₂ fuel (Num.lit 1) guess = none) :
    OnlyReads s (.ok none) (solverCall (newtonA o oh fuel guess) m s) := by
  have := (solver_of h hs hm (Lt := False) fun H => newtonA_gives (o := o) (oh := oh) (g := guess) (fuel := fuel) H
    (not_stuck h₁.1 h₁.2) (not_stuck h₂.1 h₂.2)).1 id
  rwa [hr] at this

/-- With enough memory the solver returns in memory what it returns on expressions. -/
theorem C102_enough [NumLt K] (h : Safe .empty p) (hs : Reaches ox p (.begin fun _ => false) q s)
    (hm : ShowsSystem s m q₁ q₂) (h₁ : SmoothEq q₁) (h₂ : SmoothEq q₂) {guess x : List K}
    (hr : NewtonReturns o q₁ q₂ guess (.ok x)) :
    ∃ n, ∀ fuel, n ≤ fuel → ∃ s', solverCall (newtonA o oh fuel guess) m s = .ok (some x) s' ∧
      SameMemory s.heap s'.heap ∧ s'.ptr = s.ptr ∧ s'.objs = s.objs := by
  obtain ⟨n, hn⟩ := C102_solve (oh := oh) h hs hm h₁ h₂ hr
  refine ⟨n, fun fuel hf => ?_⟩
  have hff := (solver_of h hs hm (Lt := False) fun H => newtonA_gives (o := o) (oh := oh) (g := guess) (fuel := fuel) H
    (not_stuck h₁.1 h₁.2) (not_stuck h₂.1 h₂.2)).2.2.2
  have := hn fuel hf
  revert this
  cases solverCall (newtonA o oh fuel guess) m s with
  | ok v s' =>
    rintro ⟨⟨⟩, h2⟩
    exact ⟨s', rfl, h2⟩
  | throw y s' =>
    rintro ⟨⟨⟨⟩, -⟩ | ⟨-, ⟨a, -, -, ha⟩, -⟩, -⟩
    rw [hff] at ha
    cases ha
  | ub => rintro ⟨⟩

/-- For any equations, and whatever the outcome: every object shows what it showed. -/
theorem C102_unchanged [NumLt K] {s' : State K} (h : Safe .empty p) (hs : Reaches ox p (.begin f) q s)
    (hm : ShowsSystem s m q₁ q₂) {guess : List K} {fuel : Nat}
    (hv : (∃ v, solverCall (newtonA o oh fuel guess) m s = .ok v s') ∨
      ∃ x, solverCall (newtonA o oh fuel guess) m s = .throw x s') (r : Src) : s'.view r = s.view r :=
  (solver_of h hs hm (Lt := True) fun H => newtonA_gives H (fun _ => trivial) fun _ => trivial).2.2.1 s' hv r

/-- For any equations: a result is that of the solver on expressions, and leaves memory exactly as it was. -/
theorem C102_result [NumLt K] {s' : State K} (h : Safe .empty p) (hs : Reaches ox p (.begin f) q s)
    (hm : ShowsSystem s m q₁ q₂) {guess x : List K} {fuel : Nat}
    (hv : solverCall (newtonA o oh fuel guess) m s = .ok (some x) s') :
    NewtonReturns o q₁ q₂ guess (.ok x) ∧ SameMemory s.heap s'.heap ∧ s'.ptr = s.ptr ∧ s'.objs = s.objs := by
  obtain ⟨h1, h2⟩ := (solver_of h hs hm (Lt := True) fun H => newtonA_gives H (fun _ => trivial) fun _ => trivial).2.1 _ _ hv
  refine ⟨⟨fuel, ?_⟩, h2⟩
  revert h1
  cases newtonLoop o q₁ q₂ fuel (Num.lit 1) guess with
  | none => rintro ⟨⟩
  | some r => cases r <;> rintro ⟨⟩; rfl

/-! ### A program -/

instance : NumLt XRat where
  lt
    | some x, some y => decide (x < y)
    | _, _ => false
  tenth n := some (1 / 10 ^ n)

/-- `expr x = variable(0); expr y = variable(1); expr a = x + y; expr b = 3; expr c = x - y; expr d = 1;` -/
def lines : Client XRat :=
  .step (.init 0 (.leaf (.var 0))) (.step (.init 1 (.leaf (.var 1))) (.step (.init 2 (.bin .plus ⟨0, []⟩ ⟨1, []⟩))
    (.step (.init 3 (.leaf (.const (some 3)))) (.step (.init 4 (.bin .minus ⟨0, []⟩ ⟨1, []⟩))
      (.step (.init 5 (.leaf (.const (some 1)))) .done .done) .done) .done) .done) .done) .done

theorem lines_safe : Safe .empty lines := by
  refine safe_init rfl (.var _) (fun v h => by cases h; rfl) (by simp) ?_
  refine safe_init rfl (.var _) (fun v h => by cases h; rfl) (by simp) ?_
  refine safe_init (e := .bin .plus (.var 0) (.var 1)) rfl (.bin rfl rfl) (fun v h => ?_) (by simp) ?_
  · cases h with | bin h1 h2 => cases h1; cases h2; rfl
  refine safe_init rfl (.const _) (fun v h => by cases h; rfl) (by simp) ?_
  refine safe_init (e := .bin .minus (.var 0) (.var 1)) rfl (.bin rfl rfl) (fun v h => ?_) (by simp) ?_
  · cases h with | bin h1 h2 => cases h1; cases h2; rfl
  exact safe_init rfl (.const _) (fun v h => by cases h; rfl) (by simp) trivial

/-- `x + y = 3`, `x - y = 1` -/
def line₁ : Equation XRat := ⟨.bin .plus (.var 0) (.var 1), .const (some 3)⟩
def line₂ : Equation XRat := ⟨.bin .minus (.var 0) (.var 1), .const (some 1)⟩

/-- The hypotheses hold at the end of this program, where 10 nodes are allocated: the solver goes from `(0, 0)` to
`(2, 1)`. -/
example : ∃ s : State XRat, Safe .empty lines ∧ Reaches (fun _ => true) lines (.begin fun _ => false) .done s ∧
    ShowsSystem s ⟨⟨2, []⟩, ⟨3, []⟩, ⟨4, []⟩, ⟨5, []⟩⟩ line₁ line₂ ∧ SmoothEq line₁ ∧ SmoothEq line₂ ∧
    NewtonReturns leftFirst line₁ line₂ [some 0, some 0] (.ok [some 2, some 1]) ∧ allocated s = 10 ∧
    outcome (solverCall (newtonA leftFirst (fun _ => true) 3 [some 0, some 0]) ⟨⟨2, []⟩, ⟨3, []⟩, ⟨4, []⟩, ⟨5, []⟩⟩ s) =
      some (.ok (some [some 2, some 1]), 10) := by
  let s1 : State XRat := next (.begin fun _ => false) (exec (fun _ => true) (.init 0 (.leaf (.var 0)))
    (.begin fun _ => false))
  let s2 : State XRat := next s1 (exec (fun _ => true) (.init 1 (.leaf (.var 1))) s1)
  let s3 : State XRat := next s2 (exec (fun _ => true) (.init 2 (.bin .plus ⟨0, []⟩ ⟨1, []⟩)) s2)
  let s4 : State XRat := next s3 (exec (fun _ => true) (.init 3 (.leaf (.const (some 3)))) s3)
  let s5 : State XRat := next s4 (exec (fun _ => true) (.init 4 (.bin .minus ⟨0, []⟩ ⟨1, []⟩)) s4)
  let s6 : State XRat := next s5 (exec (fun _ => true) (.init 5 (.leaf (.const (some 1)))) s5)
  refine ⟨s6, lines_safe, .ok (next_ok ?_) (.ok (next_ok ?_) (.ok (next_ok ?_) (.ok (next_ok ?_) (.ok (next_ok ?_)
    (.ok (s' := s6) (next_ok ?_) .refl))))), ⟨?_, ?_, ?_, ?_⟩, ⟨.bin (.inl rfl) (.var _) (.var _), .const _⟩,
    ⟨.bin (.inr (.inl rfl)) (.var _) (.var _), .const _⟩, ⟨3, ?_⟩, ?_, ?_⟩
  all_goals decide +kernel

/-- If a request fails the solver throws; depending on the request, copies of operands may be lost. -/
example : outcome (solverCall (newtonA leftFirst (fun _ => true) 3 [some 0, some 0])
      ⟨⟨2, []⟩, ⟨3, []⟩, ⟨4, []⟩, ⟨5, []⟩⟩ (final lines (.begin fun a => a == 20))) = some (.throw .badAlloc, 10) ∧
    outcome (solverCall (newtonA leftFirst (fun _ => true) 3 [some 0, some 0])
      ⟨⟨2, []⟩, ⟨3, []⟩, ⟨4, []⟩, ⟨5, []⟩⟩ (final lines (.begin fun a => a == 21))) = some (.throw .badAlloc, 11) := by
  constructor <;> decide +kernel

/-- A singular system: the iteration ends with undefined numbers. -/
example : outcome (solverCall (newtonA leftFirst (fun _ => true) 3 [some 0, some 0])
    ⟨⟨2, []⟩, ⟨3, []⟩, ⟨2, []⟩, ⟨5, []⟩⟩ (final lines (.begin fun _ => false))) =
      some (.ok (some [none, none]), 10) := by decide +kernel

/-- After one test of the condition the iteration still goes on. -/
example : newtonLoop leftFirst line₁ line₂ 1 (Num.lit 1) [some 0, some 0] = none ∧
    outcome (solverCall (newtonA leftFirst (fun _ => true) 1 [some 0, some 0]) ⟨⟨2, []⟩, ⟨3, []⟩, ⟨4, []⟩, ⟨5, []⟩⟩
      (final lines (.begin fun _ => false))) = some (.ok none, 10) := by decide +kernel

/-- `expr x = variable(0); expr y = fabs(x);` -/
def modulus : Client XRat :=
  .step (.init 0 (.leaf (.var 0))) (.step (.init 1 (.un (.fn .fabs) ⟨0, []⟩)) .done .done) .done

/-- Smoothness is needed: for `x = |x|` the derivative throws when the derivative of the left hand side has been made,
which is lost: 3 nodes are allocated before, 4 afterwards, although there is enough memory. -/
theorem C102_modulus : allocated (final modulus (.begin fun _ => false)) = 3 ∧
    outcome (solverCall (newtonA leftFirst (fun _ => true) 3 [some 1, some 1]) ⟨⟨0, []⟩, ⟨1, []⟩, ⟨0, []⟩, ⟨1, []⟩⟩
      (final modulus (.begin fun _ => false))) = some (.throw .notDifferentiable, 4) := by decide +kernel

end VM.Props
