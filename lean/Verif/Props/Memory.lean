import Verif.Rt.HeapSim
import Verif.Props.Heap
import Verif.Rt.SimplifyLemmas
import Verif.NumRat
import Verif.Rt.Dec
/-
C67: programs that run out of memory.  `f` says which requests for memory fail with `std::bad_alloc`; it is
arbitrary in all theorems.  A program (`Client`) decides after each statement how to go on, so that it may catch the
exception and continue.
-/
namespace VM.Props
open Spec
variable {K : Type} [Num K] {o f : Nat → Bool}

theorem passes_simplified {x y : Expr K} (h : Passes x y) : simplified y = simplified x := by
  induction h with
  | refl => rfl
  | @pass x y z h1 h2 _ ih => rw [ih, simplified_eq x, h1, h2]; simp [Res.bind]

/-- A program that uses its objects as they may be used, whatever its statements did before (`Safe`), runs without
undefined behaviour whichever requests for memory fail, in particular without freeing anything twice and without
reading freed memory while an exception is thrown; afterwards every object shows a value of its own, one that the
statements may have given it (`Ran`: the statements that failed have had the effects `OutOf` allows). -/
theorem C67_safe {p : Client K} (h : Safe .empty p) :
    ∃ s τ, p.run o (.begin f) = .ok s ∧ Ran .empty p τ ∧ (∀ i, s.objs i = none ↔ τ i = none) ∧
      ∀ r, s.view r = shown (look τ r) := by
  obtain ⟨s, L, τ, h1, h2, h3⟩ := client_sim (o := o) (fl := f) start_rep h
  exact ⟨s, τ, h1, h2, fun i => by rw [h3.2 i]; simp, h3.view⟩

/-- At any point of any such program: a statement changes no object but its own, whether it ends normally, throws, or runs out
of memory. -/
theorem C67_others {p q₁ q₂ : Client K} {c : Stmt K} {s s' : State K} (h : Safe .empty p)
    (hs : Reaches o p (.begin f) (.step c q₁ q₂) s) (hs' : exec o c s = .ok () s' ∨ ∃ x, exec o c s = .throw x s')
    {r : Src} (hr : r.obj ≠ subject c) : s'.view r = s.view r := by
  obtain ⟨σ, τ, G, h2, hx, h3⟩ := client_step h hs
  rcases hs' with hs' | ⟨x, hs'⟩ <;> rw [hs'] at h3
  · cases h3 with
    | ok h4 => rw [h4.view, h2.view, exec_look hx hr]
  · cases h3 with
    | threw h4 => rw [h4.view, h2.view, exec_look hx hr]
    | noMemory h4 h5 => rw [h4.view, h2.view, outOf_look h5 hr]

/-- Statements that work on their object step by step. -/
def Stepwise : Stmt K → Prop
  | .inplace _ | .assignBin _ _ | .assignNum _ _ | .numUn _ _ => True
  | _ => False

/-- A construction, an assignment to an `rt_expr`, or a call of the library as a part of one of these, that throws,
out of memory or for any other reason, has no effect at all: every object, its own included, shows what it showed.
Missing: in place simplification, for which something weaker holds (`C67_inplace_partial`), and assignment to an
`rt_binary_expr` or of a number to an `rt_unary_expr`, for which it is false (`C67_half_assigned`,
`C67_half_assigned_unary`). -/
theorem C67_unchanged_partial {p q₁ q₂ : Client K} {c : Stmt K} {s s' : State K} {x : Exc}
    (h : Safe .empty p) (hs : Reaches o p (.begin f) (.step c q₁ q₂) s) (hc : ¬ Stepwise c)
    (hs' : exec o c s = .throw x s') :
    (∀ r, s'.view r = s.view r) ∧ ∀ i, s'.objs i = s.objs i := by
  obtain ⟨σ, τ, G, h2, hx, h3⟩ := client_step h hs
  rw [hs'] at h3
  obtain ⟨G', h4⟩ : ∃ G', Rep f s' σ G' := by
    cases h3 with
    | threw h4 h5 => rw [throwing_eq hx h5] at h4; exact ⟨_, h4⟩
    | noMemory h4 h5 => cases h5 <;> first | exact ⟨_, h4⟩ | exact absurd trivial hc
  exact ⟨fun r => by rw [h4.view, h2.view], fun i => by rw [h4.2 i, h2.2 i]⟩

/-- `inplace_simplify` that runs out of memory leaves an expression that simplifies to the same result: with enough
memory it can simply be called again. -/
theorem C67_inplace_partial {p q₁ q₂ : Client K} {i : Nat} {s s' : State K} {x : Exc} {e : Expr K}
    (h : Safe .empty p) (hs : Reaches o p (.begin f) (.step (.inplace i) q₁ q₂) s)
    (he : s.view ⟨i, []⟩ = .ok e) (hs' : exec o (.inplace i) s = .throw x s') :
    ∃ d, s'.view ⟨i, []⟩ = .ok d ∧ simplified d = simplified e := by
  obtain ⟨σ, τ, G, h2, hx, h3⟩ := client_step h hs
  rw [hs'] at h3
  cases h3 with
  | threw h4 h5 => exact absurd h5 (not_throwing (by simp))
  | noMemory h4 h5 =>
    cases h5 with
    | @inplace i u d h6 h7 =>
      refine ⟨d, by rw [h4.view]; simp [look, Store.set, Obj.part, part, shown], ?_⟩
      rw [h2.view] at he
      simp [look, h6, Obj.part, part, shown] at he
      rw [← he]
      exact passes_simplified h7

/-- Nothing but running out of memory adds exceptions: a statement that throws throws `std::bad_alloc`, and one of the
requests it has made itself has failed, or its right hand side throws by itself, given what the objects show. -/
theorem C67_which {p q₁ q₂ : Client K} {c : Stmt K} {s s' : State K} {x : Exc} (h : Safe .empty p)
    (hs : Reaches o p (.begin f) (.step c q₁ q₂) s) (hs' : exec o c s = .throw x s') :
    (x = .badAlloc ∧ ∃ a, s.heap.next ≤ a ∧ a < s'.heap.next ∧ f a = true) ∨
    ∃ σ : Store K, (∀ r, s.view r = shown (look σ r)) ∧ ∃ i rhs y, (c = .init i rhs ∨ c = .assign i rhs) ∧
      RhsVal σ rhs (.throw y) := by
  obtain ⟨σ, τ, G, h2, hx, h3⟩ := client_step h hs
  rw [hs'] at h3
  cases h3 with
  | threw h4 h5 => exact .inr ⟨σ, h2.view, h5⟩
  | noMemory _ _ h6 => exact .inl ⟨rfl, h6⟩

/-- The end of two objects. -/
def last : Client XRat := .step (.destroy 1) (.step (.destroy 0) .done .done) .done

/-- `expr a = 2; expr b; try { b = a * a; inplace_simplify(b); } catch (...) {}` and the end of both objects, in the
order of the language; nothing else happens if the first construction fails. -/
def trial : Client XRat :=
  .step (.init 0 (.leaf (.const (some 2)))) (.step (.decl 1) (.step (.assign 1 (.bin .mult ⟨0, []⟩ ⟨0, []⟩))
    (.step (.inplace 1) last last) last) .done) .done

theorem last_safe {σ : Store XRat} {v w : Obj XRat} (h0 : σ 0 = some v) (h1 : σ 1 = some w) : Safe σ last := by
  refine ⟨⟨_, .destroy h1⟩, fun τ => ⟨fun h => ?_, fun _ => trivial⟩⟩
  cases h with
  | normal h _ =>
    cases h
    exact ⟨⟨_, .destroy (o := v) (by simp [Store.set, h0])⟩, fun _ => ⟨fun _ => trivial, fun _ => trivial⟩⟩

theorem trial_safe : Safe .empty trial := by
  have two : simplified (K := XRat) (.bin .mult (.const (some 2)) (.const (some 2))) = .ok (.const (some 4)) := by
    decide +kernel
  refine ⟨⟨_, .init rfl (.const (some 2))⟩, fun τ => ⟨fun h => ?_, fun _ => trivial⟩⟩
  obtain rfl : τ = Store.empty.set 0 (some (.expr (some (.const (some 2))))) := by
    cases h with
    | normal h _ =>
      cases h with
      | init _ h => cases h; rfl
      | initThrow _ h => cases h
  refine ⟨⟨_, .decl rfl⟩, fun τ => ⟨fun h => ?_, fun _ => trivial⟩⟩
  obtain rfl : τ = (Store.empty.set 0 (some (.expr (some (.const (some 2)))))).set 1 (some (.expr none)) := by
    cases h with
    | normal h _ => cases h; rfl
  refine ⟨⟨_, .assign rfl (.bin rfl rfl)⟩, fun τ => ⟨fun h => ?_, fun h => ?_⟩⟩
  · obtain rfl : τ = ((Store.empty.set 0 (some (.expr (some (.const (some 2)))))).set 1 (some (.expr none))).set 1
        (some (.expr (some (.bin .mult (.const (some 2)) (.const (some 2)))))) := by
      cases h with
      | normal h _ =>
        cases h with
        | assign _ h =>
          cases h with
          | bin h1 h2 => cases h1; cases h2; rfl
        | assignThrow _ h => cases h
    refine ⟨⟨_, .inplace rfl two⟩, fun τ => ⟨fun h => ?_, fun h => ?_⟩⟩
    · cases h with
      | normal h _ => cases h; exact last_safe rfl rfl
    · cases h with
      | threw _ h => exact absurd h (not_throwing (by simp))
      | noMemory h => cases h; exact last_safe rfl rfl
  · cases h with
    | threw _ h =>
      obtain ⟨i, rhs, x, h | h, h'⟩ := h <;> cases h
      cases h'
    | noMemory h => cases h; exact last_safe rfl rfl

/-- The program ends with nothing allocated if there is memory enough, and if any one of the requests after the first
fails. -/
example : (∀ n : Fin 12, 0 < n.val → (trial.run (fun _ => true) (.begin fun a => a == n.val)).map
    (fun s => (s.objs 0, s.objs 1)) = .ok (none, none)) ∧ Safe .empty trial :=
  ⟨by decide +kernel, trial_safe⟩

/-- A request of the assignment fails. -/
example : ∃ (s s' : State XRat) (q₁ q₂ : Client XRat) (c : Stmt XRat),
    Reaches (fun _ => true) trial (.begin fun a => a == 2) (.step c q₁ q₂) s ∧ ¬ Stepwise c ∧
      exec (fun _ => true) c s = .throw .badAlloc s' :=
  ⟨_, _, _, _, _, .ok rfl (.ok rfl .refl), id, rfl⟩

/-- The outcome is `std::bad_alloc`. -/
def isBadAlloc {S A : Type} : Out S A → Bool
  | .throw .badAlloc _ => true
  | _ => false

/-- The state after a statement that ends normally, otherwise `s`. -/
def next {S : Type} (s : S) : Out S Unit → S
  | .ok _ t => t
  | _ => s

theorem next_ok {S : Type} {s : S} {r : Out S Unit} (h : (match r with | .ok _ _ => true | _ => false) = true) :
    r = .ok () (next s r) := by
  cases r <;> first | rfl | cases h

/-- A request of `inplace_simplify` fails. -/
example : ∃ (s : State XRat) (q₁ q₂ : Client XRat),
    Reaches (fun _ => true) trial (.begin fun a => a == 7) (.step (.inplace 1) q₁ q₂) s ∧
      isBadAlloc (exec (fun _ => true) (.inplace 1) s) = true ∧
      s.view ⟨1, []⟩ = .ok (.bin .mult (.const (some 2)) (.const (some 2))) := by
  let s := State.begin (K := XRat) fun a => a == 7
  let s := next s (exec (fun _ => true) (.init 0 (.leaf (.const (some 2)))) s)
  let s := next s (exec (fun _ => true) (.decl 1) s)
  let t := next s (exec (fun _ => true) (.assign 1 (.bin .mult ⟨0, []⟩ ⟨0, []⟩)) s)
  refine ⟨t, _, _, .ok (next_ok ?_) (.ok (next_ok ?_) (.ok (s' := t) (next_ok ?_) .refl)), ?_⟩
  all_goals decide +kernel

/-- The claim is false for assignment to an `rt_binary_expr`: with `b` the object `x + x` and `c` the object `y * y`,
the assignment `b = c` can throw and leave `b` as `y + x` or as `y * x`, which is neither what it was nor what it
should become; the operands and the operator are replaced one after the other (binary_expr.hpp 200-206). -/
theorem C67_half_assigned : ∀ b, ∃ f g : Nat → Bool,
    (run (K := XRat) (fun _ => b) (.begin f) [.init 0 (.leaf (.var 0)), .init 1 (.leaf (.var 1)),
      .initBin 2 .plus ⟨0, []⟩ ⟨0, []⟩, .initBin 3 .mult ⟨1, []⟩ ⟨1, []⟩, .assignBin 2 ⟨3, []⟩]).bind
      (fun s => s.view ⟨2, []⟩) = .ok (.bin .plus (.var 1) (.var 0)) ∧
    (run (K := XRat) (fun _ => b) (.begin g) [.init 0 (.leaf (.var 0)), .init 1 (.leaf (.var 1)),
      .initBin 2 .plus ⟨0, []⟩ ⟨0, []⟩, .initBin 3 .mult ⟨1, []⟩ ⟨1, []⟩, .assignBin 2 ⟨3, []⟩]).bind
      (fun s => s.view ⟨2, []⟩) = .ok (.bin .mult (.var 1) (.var 0)) := by
  intro b
  refine ⟨fun a => a == 7, fun a => a == 8, ?_⟩
  revert b
  decide +kernel

/-- Nor does it hold for `rt_unary_expr`: with `u` the object `sqrt(x)`, the assignment `u = 4` can throw and leave `u`
as `sqrt(4)`; the operand is replaced before the memory for the operator is there (unary_expr.hpp 117-122). -/
theorem C67_half_assigned_unary : ∀ b, ∃ f : Nat → Bool,
    (run (K := XRat) (fun _ => b) (.begin f) [.init 0 (.leaf (.var 0)), .initUn 1 (.fn .sqrt) ⟨0, []⟩,
      .numUn 1 (some 4)]).bind (fun s => s.view ⟨1, []⟩) = .ok (.un (.fn .sqrt) (.const (some 4))) := by
  intro b
  refine ⟨fun a => a == 4, ?_⟩
  revert b
  decide +kernel

/-- Memory is lost, however: when a request fails while `expr c = a * b` copies its second operand, the copy of the
first is never released (rt_rt.hpp 70-116 passes both to the constructor as plain pointers). -/
theorem C67_leaks : ∀ b, ∃ f : Nat → Bool, (run (K := XRat) (fun _ => b) (.begin f)
    [.init 0 (.leaf (.var 0)), .init 1 (.leaf (.var 1)), .init 2 (.bin .mult ⟨0, []⟩ ⟨1, []⟩),
     .destroy 0, .destroy 1]).map (fun s => (allocated s, s.objs 0, s.objs 1, s.objs 2)) =
    .ok (1, none, none, none) := by
  intro b
  refine ⟨fun a => a == 3, ?_⟩
  revert b
  decide +kernel

end VM.Props
