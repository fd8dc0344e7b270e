import Verif.Rt.ManipHeap
import Verif.Rt.ManipState
/-
`recursive_manipulation` with functors that have a state, in memory.
-/
namespace VM
variable {K σ α : Type} [Num K]
open Act Run Prog

/-- A manipulation functor with a state in memory (functor_wrapper.hpp 36-47): both functions are arbitrary code that
gets the address of a node, works on the heap and on the state, and returns the address of a node or an answer. -/
structure Agent (K σ : Type) where
  /-- `operator()` -/
  apply : Nat → Run (Heap K × σ) Nat
  /-- `modifies` -/
  modifies : Nat → Run (Heap K × σ) Bool

/-- Code of the library: it does not know the state of the functor. -/
def aside {S : Type} (m : Run S α) : Run (S × σ) α := fun s => match m s.1 with
  | .ok a h => .ok a (h, s.2)
  | .throw x h => .throw x (h, s.2)
  | .ub => .ub

/-- `recursive_manipulation(fw)` on the node at an address: expression_interface.hpp 75, unary_expr.hpp 320-327 (the
operator object, with the bounds of an integral, is cloned before or after the argument is manipulated),
binary_expr.hpp 421-429; as `manipFN`, for functors with a state. -/
def manipSN (o : Nat → Bool) (F : Agent K σ) : Nat → Nat → Run (Heap K × σ) Nat
  | 0, _ => look fun _ => .ub
  | n + 1, a => do
    let c ← aside (cell a)
    match c.label, c.kids with
    | .un op, [k] =>
      if ← F.modifies a then F.apply a
      else
        let b ← manipSN o F n k
        aside (new (.un op) [b])
    | .integ x, [l, u, k] =>
      if ← F.modifies a then F.apply a
      else if o a then
        let b ← manipSN o F n k
        let l' ← aside (clone l)
        let u' ← aside (clone u)
        aside (new (.integ x) [l', u', b])
      else
        let l' ← aside (clone l)
        let u' ← aside (clone u)
        let b ← manipSN o F n k
        aside (new (.integ x) [l', u', b])
    | .bin op, [l, r] =>
      if ← F.modifies a then F.apply a
      else if o a then
        let b ← manipSN o F n l
        let c ← manipSN o F n r
        aside (new (.bin op) [b, c])
      else
        let c ← manipSN o F n r
        let b ← manipSN o F n l
        aside (new (.bin op) [b, c])
    | _, _ => F.apply a

/-- As `manipSN`; the operands of a node have smaller addresses. -/
def manipSA (o : Nat → Bool) (F : Agent K σ) (a : Nat) : Run (Heap K × σ) Nat := manipSN o F (a + 1) a

/-- Code that works on the heap and the state of a functor, in a program with objects. -/
def heapS (m : Run (Heap K × σ) α) : Run (State K × σ) α := fun s => match m (s.1.heap, s.2) with
  | .ok a (h, t) => .ok a ({ s.1 with heap := h }, t)
  | .throw x (h, t) => .throw x ({ s.1 with heap := h }, t)
  | .ub => .ub

/-- `rt_expr t(src.get()->recursive_manipulation(fw));`, expr.hpp 51, as `manipInit`. -/
def manipInitS (o : Nat → Bool) (F : Agent K σ) (i : Nat) (src : Src) : Run (State K × σ) Unit := do
  match ← aside (look fun s : State K => .ok (s.objs i)) with
  | some _ => look fun _ => .ub
  | none =>
    match ← aside (look fun s : State K => s.target src) with
    | .node a =>
      let b ← heapS (manipSA o F a)
      aside (setObj i (some .expr) : Prog K Unit)
      aside (reset (.one i) (some b) : Prog K Unit)
    | _ => look fun _ => .ub

end VM
