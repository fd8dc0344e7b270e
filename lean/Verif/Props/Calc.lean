import Verif.Rt.CalcLemmas
import Verif.Props.Heap
/-
Property C94 (programs compute the functions they say).
-/
namespace VM.Props
open Spec Filter Topology
variable {n : ℕ} {o : Nat → Bool}

/-- Dropping the condition on the statements. -/
theorem execAll_any {K : Type} [Num K] {P : Store K → Stmt K → Prop} {σ τ : Store K} {cs : List (Stmt K)}
    (h : ExecAll P σ cs τ) : ExecAll Any σ cs τ := by
  induction h with
  | nil => exact .nil
  | cons h1 _ _ ih => exact .cons h1 trivial ih

/-- C94.  Read the objects of a program as real functions of `n` variables, `+ - * /` and the mathematical functions as
operations on functions, `simplify` as doing nothing, `diff` as the partial derivative and `substitute` as composition.
The program runs, in memory, without failure, and then every object evaluates, at every point of the domain of its
function, to the value of the function. -/
theorem C94_values {prog : List (Stmt XReal)} {ψ : FunStore n} (h : CalcAll .empty prog ψ) :
    ∃ s, run o .start prog = .ok s ∧ (∀ i, s.objs i = none ↔ ψ i = none) ∧
      ∀ i f, ψ i = some (some f) → ∃ e, s.view ⟨i, []⟩ = .ok e ∧
        ∀ (o' : Order XReal) (p : Fin n → ℝ), p ∈ f.dom → eval o' (realPoint p) e = .ok (some (f.val p)) := by
  obtain ⟨τ, h1, h2⟩ := storeStands_empty.all h
  obtain ⟨s, h3, h4, h5⟩ := C23_values_partial (o := o) (execAll_any h1)
  refine ⟨s, h3, fun i => (h4 i).trans ?_, fun i f hf => ?_⟩
  · have := h2 i
    cases hi : ψ i with
    | none => rw [hi] at this; simp [this]
    | some v =>
      rw [hi] at this
      cases v with
      | none => simp [this]
      | some f => obtain ⟨e, he, -⟩ := this; simp [he]
  · obtain ⟨e, -, h6, h7⟩ := h2.get hf
    refine ⟨e, by rw [h5, h6]; rfl, fun o' p hp => ?_⟩
    obtain ⟨h8, h9⟩ := h7.reg p hp
    rw [h8.eval o', h9]

/-- C94.  The domain of every function so computed is open, and the function is infinitely often differentiable there
(so the partial derivatives in `C94_values` are derivatives, not the 0 that Lean gives where there is none). -/
theorem C94_smooth {prog : List (Stmt XReal)} {ψ : FunStore n} (h : CalcAll .empty prog ψ) (i : Nat) (f : RealFun n)
    (hf : ψ i = some (some f)) : IsOpen f.dom ∧ ContDiffOn ℝ ((⊤ : ℕ∞) : WithTop ℕ∞) f.val f.dom := by
  obtain ⟨τ, h1, h2⟩ := storeStands_empty.all h
  obtain ⟨e, -, -, h7⟩ := h2.get hf
  refine ⟨h7.dom_open, fun p hp => ContDiffAt.contDiffWithinAt ?_⟩
  exact (h7.reg p hp).1.contDiffAt.congr_of_eventuallyEq ((h7.near hp).mono fun q hq => hq.2.2.symm)

/-- C94.  At the end of the program every allocated node is a part of an object that is alive, and nothing is
allocated if there is none. -/
theorem C94_memory {prog : List (Stmt XReal)} {ψ : FunStore n} {s : State XReal} (h : CalcAll .empty prog ψ)
    (hs : run o .start prog = .ok s) :
    (∀ a, s.heap.cells a ≠ none → ∃ r, s.target r = .ok (.node a)) ∧
      ((∀ i, ψ i = none) → ∀ a, s.heap.cells a = none) := by
  obtain ⟨τ, h1, h2⟩ := storeStands_empty.all h
  refine ⟨fun a ha => C23_no_garbage_partial h1 hs ha, fun hd a => C23_all_freed_partial h1 hs (fun i => ?_) a⟩
  have := h2 i
  rwa [hd i] at this

/-! ### The hypotheses can be met -/

/-- `x = x0; y = x1; f = x * y; f = sin(f); f = diff(f, x0); c = 2; g = substitute(y, c, f); inplace_simplify(g);` and the
end of the life of `x`. -/
def exCalc : List (Stmt XReal) :=
  [.init 0 (.leaf (.var 0)), .init 1 (.leaf (.var 1)), .decl 2, .assign 2 (.bin .mult ⟨0, []⟩ ⟨1, []⟩),
    .assign 2 (.un (.fn .sin) ⟨2, []⟩), .assign 2 (.diff (.var 0) ⟨2, []⟩), .init 3 (.leaf (.const (some 2))),
    .init 4 (.subst ⟨1, []⟩ ⟨3, []⟩ ⟨2, []⟩), .inplace 4, .destroy 0]

/-- The program computes `cos(x0 * 2) * 2`. -/
example : ∃ (ψ : FunStore 2) (f : RealFun 2), CalcAll .empty exCalc ψ ∧ ψ 4 = some (some f) ∧ ψ 0 = none ∧
    ∀ p : Fin 2 → ℝ, p ∈ f.dom ∧ f.val p = Real.cos (p 0 * 2) * 2 := by
  refine ⟨_, _, .cons (.init rfl (.var 0)) (.cons (.init rfl (.var 1)) (.cons (.decl rfl)
    (.cons (.assign rfl (.mult rfl rfl)) (.cons (.assign rfl (.fn rfl rfl)) (.cons (.assign rfl (.diff (x := 0) rfl))
    (.cons (.init rfl (.const 2)) (.cons (.init rfl (.subst (x := 1) rfl rfl rfl rfl))
    (.cons (.inplace rfl) (.cons (.destroy rfl) .nil))))))))), rfl, rfl, fun p => ⟨by simp, ?_⟩⟩
  simp only [partialDeriv, Function.update_self]
  simp

end VM.Props
