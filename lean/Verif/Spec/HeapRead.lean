import Verif.Rt.HeapRead
/-
Memory before and after a call that only reads.
-/
namespace VM.Spec
variable {K : Type}

/-- The integrals of a sum all satisfy `Q` (bounds, variable, integrand). -/
def Integrals (Q : Expr K → Expr K → Nat → Expr K → Prop) : Expr K → Prop
  | .integ lo hi x k => Q lo hi x k
  | .bin .plus l r | .bin .minus l r => Integrals Q l ∧ Integrals Q r
  | _ => True

/-- A number can be substituted for the variable in the integrand. -/
def Insertable [Num K] (_ _ : Expr K) (x : Nat) (k : Expr K) : Prop :=
  ∀ c : K, ∃ t, substitute (.var x) (.const c) k = .ok t

/-- The same nodes are allocated, with the same contents. -/
def SameMemory (h h' : Heap K) : Prop := h'.cells = h.cells

/-- How a call that only reads ends in state `s`, if it gives `r` on expressions: with what `r` says and the memory as
it was, or, if one of its requests for memory failed, with `std::bad_alloc` and nothing in memory changed. -/
def OnlyReads {β : Type} (s : State K) (r : Res β) : Out (State K) β → Prop
  | .ok v s' => r = .ok v ∧ SameMemory s.heap s'.heap ∧ s'.ptr = s.ptr ∧ s'.objs = s.objs
  | .throw x s' => (r = .throw x ∧ SameMemory s.heap s'.heap ∨
      x = .badAlloc ∧ (∃ a, s.heap.next ≤ a ∧ a < s'.heap.next ∧ s.heap.fails a = true) ∧
        ∀ b, s.heap.cells b ≠ none → s'.heap.cells b = s.heap.cells b) ∧ s'.ptr = s.ptr ∧ s'.objs = s.objs
  | .ub => r = .ub

end VM.Spec
