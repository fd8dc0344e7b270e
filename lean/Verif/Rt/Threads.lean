import Verif.Rt.HeapProg
/-
Threads.  A thread is a sequence of single accesses to memory, in which every access may depend on what the
accesses before have found.  Threads have one memory in common and run in any order, access by access.
The library itself starts no threads, takes no locks and has no static or `mutable` data; what a thread does is what
the program model of HeapProg.lean (runtime/expr.hpp 49-199, runtime/binary_expr.hpp 56-220 etc.) does.
-/
namespace VM
variable {K : Type}

/-- The heap after memory was given for `c`. -/
def Heap.give (h : Heap K) : Option (Cell K) → Heap K
  | none => { h with next := h.next + 1 }
  | some c => { h with cells := fun a => if a = h.next then some c else h.cells a, next := h.next + 1 }

/-- What a thread does. -/
inductive Code (K β : Type) where
  | done (b : β)
  /-- undefined behaviour -/
  | undefined
  /-- reads a node -/
  | read (a : Nat) (k : Cell K → Code K β)
  /-- requests memory for a node, or for something else; goes on with the address, or with `none` if there is no
  memory -/
  | new (c : Option (Cell K)) (k : Option Nat → Code K β)
  /-- releases a node -/
  | free (a : Nat) (k : Code K β)

namespace Code
variable {β : Type}

/-- The next access to memory, as in `Act.cell`, `Act.new`, `Act.request`, `Act.release`; `none`: undefined
behaviour. -/
def step : Code K β → Heap K → Option (Code K β × Heap K)
  | .done b, h => some (.done b, h)
  | .undefined, _ => none
  | .read a k, h => (h.cells a).map fun c => (k c, h)
  | .new c k, h =>
    if h.fails h.next then some (k none, { h with next := h.next + 1 })
    else some (k (some h.next), h.give c)
  | .free a k, h => (h.cells a).map fun _ => (k, { h with cells := fun b => if b = a then none else h.cells b })

/-- Runs a thread alone. -/
def run : Code K β → Heap K → Option (β × Heap K)
  | .done b, h => some (b, h)
  | .undefined, _ => none
  | .read a k, h => match h.cells a with
    | none => none
    | some c => (k c).run h
  | .new c k, h =>
    if h.fails h.next then (k none).run { h with next := h.next + 1 }
    else (k (some h.next)).run (h.give c)
  | .free a k, h => match h.cells a with
    | none => none
    | some _ => k.run { h with cells := fun b => if b = a then none else h.cells b }

end Code

/-- A thread and the name of the next piece of memory it requests.  Addresses are only names: the model does not
use them again, and the code never looks at their values.  Each thread has names of its own. -/
structure Thread (K β : Type) where
  code : Code K β
  next : Nat

/-- The address of the next access to memory, and whether it changes what is there. -/
def Thread.access {β : Type} (t : Thread K β) : Option (Nat × Bool) := match t.code with
  | .done _ => none
  | .undefined => none
  | .read a _ => some (a, false)
  | .new _ _ => some (t.next, true)
  | .free a _ => some (a, true)

/-- Threads with a common memory. -/
structure Machine (ι K β : Type) where
  cells : Nat → Option (Cell K)
  fails : Nat → Bool
  threads : ι → Thread K β

namespace Machine
variable {ι β : Type} [DecidableEq ι]

/-- Thread `t` makes its next access to memory. -/
def step (M : Machine ι K β) (t : ι) : Option (Machine ι K β) :=
  ((M.threads t).code.step ⟨M.cells, (M.threads t).next, M.fails⟩).map fun r =>
    ⟨r.2.cells, M.fails, fun u => if u = t then ⟨r.1, r.2.next⟩ else M.threads u⟩

/-- The threads run in the order given by the list. -/
def exec (M : Machine ι K β) : List ι → Option (Machine ι K β)
  | [] => some M
  | t :: ts => (M.step t).bind fun M' => M'.exec ts

end Machine

/-- The objects of a thread: its variables on the stack, and references to objects it shares with others. -/
structure Local where
  ptr : Ptr → Option Nat
  objs : Nat → Option Kind

/-- The program state, as a thread sees it. -/
def Local.state (l : Local) (h : Heap K) : State K := ⟨h, l.ptr, l.objs⟩

/-- The sequence of accesses `c` does what the program `p` does: alone, in whatever memory it starts. -/
def Runs [Num K] (o : Nat → Bool) (p : Client K) (l : Local) (c : Code K Local) : Prop :=
  ∀ h, c.run h = match p.run o (l.state h) with
    | .ok s => some (⟨s.ptr, s.objs⟩, s.heap)
    | _ => none

end VM
