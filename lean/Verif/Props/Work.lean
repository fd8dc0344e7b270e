import Verif.Rt.Nested
import Verif.Props.Memory
/-
C70: how many requests for memory a statement makes.  `s.heap.next` is the number of requests made so far, whether
they were granted or not.
-/
namespace VM.Props
open Spec
variable {K : Type} [Num K] {o f : Nat → Bool}

/-- At any point of any program that uses its objects as they may be used: a statement that returns or throws has made
at most `enoughFor` requests, a number that depends only on the statement and on the size of the expressions it works
on, for every order of evaluation and whichever requests fail. -/
theorem C70_requests {p q₁ q₂ : Client K} {c : Stmt K} {s s' : State K} (h : Safe .empty p)
    (hs : Reaches o p (.begin f) (.step c q₁ q₂) s) (hs' : exec o c s = .ok () s' ∨ ∃ x, exec o c s = .throw x s') :
    s'.heap.next ≤ s.heap.next + enoughFor s c := by
  obtain ⟨σ, τ, G, h2, hx, -⟩ := client_step h hs
  have := exec_upto (o := o) h2 hx
  rcases hs' with hs' | ⟨x, hs'⟩ <;> rw [hs'] at this <;> exact this

/-- If the next `enoughFor` requests are granted, the statement does not run out of memory: it returns, or its right
hand side throws by itself. -/
theorem C70_enough {p q₁ q₂ : Client K} {c : Stmt K} {s : State K} (h : Safe .empty p)
    (hs : Reaches o p (.begin f) (.step c q₁ q₂) s)
    (hf : ∀ a, s.heap.next ≤ a → a < s.heap.next + enoughFor s c → f a = false) :
    (∃ s', exec o c s = .ok () s') ∨
    ∃ σ : Store K, (∀ r, s.view r = shown (look σ r)) ∧ ∃ i rhs y, (c = .init i rhs ∨ c = .assign i rhs) ∧
      RhsVal σ rhs (.throw y) := by
  obtain ⟨σ, τ, G, h2, hx, h3⟩ := client_step h hs
  have h4 := exec_upto (o := o) h2 hx
  revert h3 h4
  generalize exec o c s = r
  rintro (h5 | ⟨h5, h6⟩ | ⟨-, -, a, h5, h6, h7⟩) h4
  · exact .inl ⟨_, rfl⟩
  · exact .inr ⟨σ, h2.view, h6⟩
  · rw [hf a h5 (Nat.lt_of_lt_of_le h6 h4)] at h7
    cases h7

/-- Declaring and destroying objects makes no requests, so that a program can always clean up. -/
theorem C70_cleanup {p q₁ q₂ : Client K} {c : Stmt K} {s s' : State K} (h : Safe .empty p)
    (hs : Reaches o p (.begin f) (.step c q₁ q₂) s)
    (hc : (∃ i, c = .decl i) ∨ (∃ i, c = .declBin i) ∨ ∃ i, c = .destroy i)
    (hs' : exec o c s = .ok () s' ∨ ∃ x, exec o c s = .throw x s') : s'.heap.next ≤ s.heap.next := by
  have := C70_requests h hs hs'
  rcases hc with ⟨i, rfl⟩ | ⟨i, rfl⟩ | ⟨i, rfl⟩ <;> exact this

/-- Without gradients, differentiation takes a number of requests that is polynomial in the size. -/
theorem C70_diff_polynomial {p q₁ q₂ : Client K} {i : Nat} {x : DVar} {r : Src} {e : Expr K} {s s' : State K}
    (h : Safe .empty p) (hs : Reaches o p (.begin f) (.step (.init i (.diff x r)) q₁ q₂) s)
    (he : s.view r = .ok e) (hg : gradDepth e = 0)
    (hs' : exec o (.init i (.diff x r)) s = .ok () s' ∨ ∃ y, exec o (.init i (.diff x r)) s = .throw y s') :
    s'.heap.next ≤ s.heap.next + (2 * size e ^ 3 + 16 * size e ^ 6) := by
  have := C70_requests h hs hs'
  simpa [enoughFor, enough, depthAt, sizeAt, showing, he, hg] using this

theorem nested_step {p q₁ q₂ : Client K} {i j t n : Nat} {r : Src} {s s' : State K}
    (h01 : Num.eqb (Num.lit 0 : K) (Num.lit 1) = false) (h : Safe .empty p)
    (hs : Reaches o p (.begin f) (.step (.init i (.diff (.fsym j t) r)) q₁ q₂) s)
    (he : s.view r = .ok (nested (.fsym j t) n)) (hs' : exec o (.init i (.diff (.fsym j t) r)) s = .ok () s') :
    ∃ σ τ fp G F L, Inv f s.heap s.ptr (own σ) fp G ∧ Inv f s'.heap s'.ptr (own τ) (at' fp (.one i) F) (L ++ G) ∧
      own τ (.one i) ≠ none ∧ L.length + (n + 2) = 2 ^ (n + 1) ∧ Adds s.heap s'.heap (F ++ L) := by
  obtain ⟨σ, τ, G, ⟨⟨fp, H⟩, hk⟩, hx, -⟩ := client_step h hs
  have hi : σ i = none := by cases hx <;> assumption
  have hl : look σ r = some (nested (.fsym j t) n) := by
    rw [view_eq H hk] at he
    cases hl : look σ r <;> rw [hl] at he <;> cases he
    rfl
  obtain ⟨e, F, L, h1, h2, h3⟩ := init_nested h01 H hk hi hl hs'
  exact ⟨σ, _, fp, G, F, L, H, h1, by simp [own, Store.set, own1], h2, h3⟩

/-- The bound cannot do without the nesting of gradients: the derivative of `n` gradients, one inside the other, with
respect to the function symbol inside takes more than `2 ^ n` requests, although the expression has only `n + 1`
objects (the gradient differentiates its argument twice, detail/unary_operations.hpp 641-664). -/
theorem C70_gradients_exponential {p q₁ q₂ : Client K} {i j t n : Nat} {r : Src} {s s' : State K}
    (h01 : Num.eqb (Num.lit 0 : K) (Num.lit 1) = false) (h : Safe .empty p)
    (hs : Reaches o p (.begin f) (.step (.init i (.diff (.fsym j t) r)) q₁ q₂) s)
    (he : s.view r = .ok (nested (.fsym j t) n)) (hs' : exec o (.init i (.diff (.fsym j t) r)) s = .ok () s') :
    s.heap.next + 2 ^ n ≤ s'.heap.next ∧ size (nested (.fsym j t) n : Expr K) = n + 1 := by
  obtain ⟨σ, τ, fp, G, F, L, -, H', h0, h1, E⟩ := nested_step h01 h hs he hs'
  refine ⟨?_, by rw [size_nested, size]; omega⟩
  have hF : 1 ≤ F.length := by
    cases hτ : own τ (.one i) with
    | none => exact absurd hτ h0
    | some e =>
      obtain ⟨a, -, h2⟩ := H'.owns _ e hτ
      have := h2.root_mem
      rw [at_eq, if_pos rfl] at this
      exact List.length_pos_of_mem this
  have := E.length
  have hn : n < 2 ^ n := Nat.lt_two_pow_self
  rw [List.length_append] at this
  rw [Nat.pow_succ] at h1
  omega

/-- Nearly all of that memory is lost: afterwards there are `2 ^ (n + 1) - (n + 2)` nodes that no object refers to. -/
theorem C48_gradients_lose {p q₁ q₂ : Client K} {i j t n : Nat} {r : Src} {s s' : State K}
    (h01 : Num.eqb (Num.lit 0 : K) (Num.lit 1) = false) (h : Safe .empty p)
    (hs : Reaches o p (.begin f) (.step (.init i (.diff (.fsym j t) r)) q₁ q₂) s)
    (he : s.view r = .ok (nested (.fsym j t) n)) (hs' : exec o (.init i (.diff (.fsym j t) r)) s = .ok () s') :
    ∃ L : List Nat, L.Nodup ∧ L.length + (n + 2) = 2 ^ (n + 1) ∧ ∀ a ∈ L, s.heap.cells a = none ∧ Lost s' a := by
  obtain ⟨σ, τ, fp, G, F, L, H, H', h0, h1, E⟩ := nested_step h01 h hs he hs'
  refine ⟨L, (List.nodup_append.1 E.nodup).2.1, h1, fun a ha => ⟨?_, ?_, fun q hq => ?_⟩⟩
  · exact H.wf a (E.fresh a (by simp [ha]))
  · exact (E.mem a (E.fresh a (by simp [ha]))).2 (by simp [ha])
  · obtain ⟨w, hw⟩ := target_mem H' hq
    by_cases hwi : w = .one i
    · rw [hwi, at_eq, if_pos rfl] at hw
      exact (List.nodup_append.1 E.nodup).2.2 a hw a ha rfl
    · rw [at_eq, if_neg hwi] at hw
      have h2 := H.wf.lt (H.alloc hw)
      have h3 := E.fresh a (by simp [ha])
      omega

/-- In the program `trial` of C67: `2 * 2` has three objects, so that its simplification takes at most `2 * 3 ^ 3`
requests. -/
example {o f : Nat → Bool} {q₁ q₂ : Client XRat} {s s' : State XRat}
    (hs : Reaches o trial (.begin f) (.step (.inplace 1) q₁ q₂) s)
    (he : s.view ⟨1, []⟩ = .ok (.bin .mult (.const (some 2)) (.const (some 2))))
    (hs' : exec o (.inplace 1) s = .ok () s' ∨ ∃ x, exec o (.inplace 1) s = .throw x s') :
    s'.heap.next ≤ s.heap.next + 54 := by
  have := C70_requests trial_safe hs hs'
  simpa [enoughFor, sizeAt, showing, he, size] using this

/-- Fifty four requests are enough for it. -/
example {o f : Nat → Bool} {q₁ q₂ : Client XRat} {s : State XRat}
    (hs : Reaches o trial (.begin f) (.step (.inplace 1) q₁ q₂) s)
    (he : s.view ⟨1, []⟩ = .ok (.bin .mult (.const (some 2)) (.const (some 2))))
    (hf : ∀ a, s.heap.next ≤ a → a < s.heap.next + 54 → f a = false) : ∃ s', exec o (.inplace 1) s = .ok () s' := by
  rcases C70_enough trial_safe hs (by simpa [enoughFor, sizeAt, showing, he, size] using hf) with h | h
  · exact h
  · obtain ⟨_, -, _, _, _, h | h, -⟩ := h <;> cases h

/-- The state before a statement of a program, the state after it, and the bound. -/
def count (f : Nat → Bool) (p : List (Stmt XRat)) (c : Stmt XRat) : Res (Nat × Nat × Nat) :=
  (run (fun _ => true) (.begin f) p).bind fun s => match exec (fun _ => true) c s with
    | .ok _ s' => .ok (s.heap.next, s'.heap.next, enoughFor s c)
    | .throw _ s' => .ok (s.heap.next, s'.heap.next, enoughFor s c)
    | .ub => .ub

/-- `2 * 2` is simplified after seven requests with one more, whether that one fails or not. -/
example : ∀ n : Fin 2, count (fun a => a == n.val + 7)
    [.init 0 (.leaf (.const (some 2))), .decl 1, .assign 1 (.bin .mult ⟨0, []⟩ ⟨0, []⟩)] (.inplace 1) = .ok (7, 8, 54) := by
  decide +kernel

/-- `expr f = u; f = grad(f);` `n` times, then `expr g = diff(f, u);` -/
def grads : Nat → Client XRat
  | 0 => .step (.init 1 (.diff (.fsym 0 0) ⟨0, []⟩)) .done .done
  | n + 1 => .step (.assign 0 (.un .grad ⟨0, []⟩)) (grads n) .done

def deep (n : Nat) : Client XRat := .step (.init 0 (.leaf (.fsym 0 0))) (grads n) .done

/-- Two gradients: the program uses its objects as it may. -/
theorem deep_safe : Safe .empty (deep 2) := by
  have two : VM.diff (K := XRat) (.fsym 0 0) (nested (.fsym 0 0) 2) = .ok (nested (.const (some 1)) 2) := by
    decide +kernel
  refine ⟨⟨_, .init rfl (.fsym 0 0)⟩, fun τ => ⟨fun h => ?_, fun _ => trivial⟩⟩
  obtain rfl : τ = Store.empty.set 0 (some (.expr (some (.fsym 0 0)))) := by
    cases h with
    | normal h _ =>
      cases h with
      | init _ h => cases h; rfl
      | initThrow _ h => cases h
  refine ⟨⟨_, .assign rfl (.un rfl)⟩, fun τ => ⟨fun h => ?_, fun _ => trivial⟩⟩
  obtain rfl : τ = (Store.empty.set 0 (some (.expr (some (.fsym 0 0))))).set 0
      (some (.expr (some (.un .grad (.fsym 0 0))))) := by
    cases h with
    | normal h _ =>
      cases h with
      | assign _ h =>
        cases h with
        | un h => cases h; rfl
      | assignThrow _ h => cases h
  refine ⟨⟨_, .assign rfl (.un rfl)⟩, fun τ => ⟨fun h => ?_, fun _ => trivial⟩⟩
  obtain rfl : τ = ((Store.empty.set 0 (some (.expr (some (.fsym 0 0))))).set 0
      (some (.expr (some (.un .grad (.fsym 0 0)))))).set 0 (some (.expr (some (.un .grad (.un .grad (.fsym 0 0)))))) := by
    cases h with
    | normal h _ =>
      cases h with
      | assign _ h =>
        cases h with
        | un h => cases h; rfl
      | assignThrow _ h => cases h
  exact ⟨⟨_, .init rfl (.diff rfl two)⟩, fun _ => ⟨fun _ => trivial, fun _ => trivial⟩⟩

/-- The state after a statement that ends normally. -/
def go (c : Stmt XRat) (s : State XRat) : Option (State XRat) := match exec (fun _ => true) c s with
  | .ok _ s' => some s'
  | _ => none

theorem go_ok {c : Stmt XRat} {s s' : State XRat} (h : go c s = some s') : exec (fun _ => true) c s = .ok () s' := by
  rw [go] at h
  split at h
  · rename_i h1; cases h; exact h1
  · cases h

/-- Its last statement can be reached, and the first object shows two gradients then; four nodes are lost. -/
example : ∃ s s' : State XRat,
    Reaches (fun _ => true) (deep 2) .start (.step (.init 1 (.diff (.fsym 0 0) ⟨0, []⟩)) .done .done) s ∧
    s.view ⟨0, []⟩ = .ok (nested (.fsym 0 0) 2) ∧
    exec (fun _ => true) (.init 1 (.diff (.fsym 0 0) ⟨0, []⟩)) s = .ok () s' ∧
    ∃ L : List Nat, L.Nodup ∧ L.length = 4 ∧ ∀ a ∈ L, Lost s' a := by
  have h : ((((go (.init 0 (.leaf (.fsym 0 0))) .start).bind (go (.assign 0 (.un .grad ⟨0, []⟩)))).bind
      (go (.assign 0 (.un .grad ⟨0, []⟩)))).any fun s => decide (s.view ⟨0, []⟩ = .ok (nested (.fsym 0 0) 2)) &&
      (go (.init 1 (.diff (.fsym 0 0) ⟨0, []⟩)) s).isSome) = true := by decide +kernel
  simp only [Option.any_eq_true, Option.bind_eq_some_iff, Bool.and_eq_true, decide_eq_true_eq, Option.isSome_iff_exists] at h
  obtain ⟨s, ⟨s2, ⟨s1, h1, h2⟩, h3⟩, h4, s', h5⟩ := h
  have hr : Reaches (fun _ => true) (deep 2) .start (.step (.init 1 (.diff (.fsym 0 0) ⟨0, []⟩)) .done .done) s :=
    .ok (go_ok h1) (.ok (go_ok h2) (.ok (go_ok h3) .refl))
  refine ⟨s, s', hr, h4, go_ok h5, ?_⟩
  obtain ⟨L, g1, g2, g3⟩ := C48_gradients_lose (by decide +kernel) deep_safe hr h4 (go_ok h5)
  exact ⟨L, g1, by omega, fun a ha => (g3 a ha).2⟩

end VM.Props
