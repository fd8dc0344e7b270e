import Verif.Rt.Expr
import Verif.Res
/-
Nodes of run-time expressions in memory: allocation, copy, destruction.  Addresses are never reused, so that every access to freed memory is seen.
-/
namespace VM
variable {K : Type}

/-- What a node is, without its operands.  The operator object of a node (`op_`) is part of the label; it
is always cloned together with the node.  The interval bounds of an integral operator
(runtime/interval.hpp, deep copies) are operands. -/
inductive Label (K : Type) where
  | const (c : K)
  | var (i : Nat)
  | fsym (i t : Nat)
  | un (op : UOp)
  | integ (x : Nat)
  | bin (op : BOp)
  | vec
  deriving DecidableEq, Repr

namespace Expr

def label : Expr K → Label K
  | .const c => .const c
  | .var i => .var i
  | .fsym i t => .fsym i t
  | .un op _ => .un op
  | .integ _ _ x _ => .integ x
  | .bin op _ _ => .bin op
  | .vec _ => .vec

def operands : Expr K → List (Expr K)
  | .un _ e => [e]
  | .integ lo hi _ e => [lo, hi, e]
  | .bin _ l r => [l, r]
  | .vec es => es
  | _ => []

/-- The expression with the given label and operands. -/
def build : Label K → List (Expr K) → Option (Expr K)
  | .const c, [] => some (.const c)
  | .var i, [] => some (.var i)
  | .fsym i t, [] => some (.fsym i t)
  | .un op, [e] => some (.un op e)
  | .integ x, [lo, hi, e] => some (.integ lo hi x e)
  | .bin op, [l, r] => some (.bin op l r)
  | .vec, es => some (.vec es)
  | _, _ => none

end Expr

/-- A node on the heap: label and owning pointers to the operands. -/
structure Cell (K : Type) where
  label : Label K
  kids : List Nat

/-- The heap; `next` is the next unused address.  `fails a` says that the request for memory that would be
answered with address `a` fails; whether and when that happens is not up to the library. -/
structure Heap (K : Type) where
  cells : Nat → Option (Cell K)
  next : Nat
  fails : Nat → Bool

/-- Outcome of a piece of code with the memory it leaves behind, also if it throws. -/
inductive Out (σ α : Type) where
  | ok (a : α) (s : σ)
  | throw (x : Exc) (s : σ)
  | ub

/-- Code that works on memory of type `σ`. -/
def Run (σ α : Type) : Type := σ → Out σ α

instance {σ : Type} : Monad (Run σ) where
  pure a := fun s => .ok a s
  bind m f := fun s => match m s with
    | .ok a s' => f a s'
    | .throw x s' => .throw x s'
    | .ub => .ub

/-- A computation that only looks at the memory. -/
def Run.look {σ α : Type} (f : σ → Res α) : Run σ α := fun s => match f s with
  | .ok a => .ok a s
  | .throw x => .throw x s
  | .ub => .ub

/-- Code that works on the heap. -/
abbrev Act (K : Type) : Type → Type := Run (Heap K)

namespace Act
variable {α β : Type}

/-- The node at an address; it must be there. -/
def cell (a : Nat) : Act K (Cell K) := Run.look fun h => match h.cells a with
  | some c => .ok c
  | none => .ub

/-- `new T(...)`; throws if there is no memory. -/
def new (l : Label K) (kids : List Nat) : Act K Nat := fun h =>
  if h.fails h.next then .throw .badAlloc { h with next := h.next + 1 }
  else .ok h.next { h with cells := fun a => if a = h.next then some ⟨l, kids⟩ else h.cells a, next := h.next + 1 }

/-- `new` of something that is not a node (the operator object of an expression object). -/
def request : Act K Unit := fun h =>
  if h.fails h.next then .throw .badAlloc { h with next := h.next + 1 }
  else .ok () { h with next := h.next + 1 }

/-- Releases the memory of one node; it must be there. -/
def release (a : Nat) : Act K Unit := fun h => match h.cells a with
  | none => .ub
  | some _ => .ok () { h with cells := fun b => if b = a then none else h.cells b }

/-- Runs `f` on a list of addresses from left to right. -/
def each (f : Nat → Act K α) : List Nat → Act K (List α)
  | [] => pure []
  | a :: as => do
    let x ← f a
    let xs ← each f as
    pure (x :: xs)

end Act
open Act Run

/-- `ptr->clone()`: constant.hpp 67, variable.hpp, function_symbol.hpp, unary_expr.hpp 244,
binary_expr.hpp 334, vector_expr.hpp 89-98 and the copy constructors of the operators (integral.hpp,
interval.hpp): clone the operands, then a new node.  Reading a freed node is undefined.
If there is no memory for a node, the operands cloned so far are left behind, as in C++ (the bounds of an
integral are members of an `rt_interval` and would be destroyed; here they are left behind, too).
Simplifications: operands are cloned from left to right (C++ leaves the order open); the zeros that
`rt_vector_expr(size_type)` creates and that are overwritten at once are left out; a node and its operator object
are requested together.
The first argument bounds the depth; `clone` passes a bound that is never reached. -/
def cloneN : Nat → Nat → Act K Nat
  | 0, _ => look fun _ => .ub
  | n + 1, a => do
    let c ← cell a
    let ks ← each (cloneN n) c.kids
    new c.label ks

def clone (a : Nat) : Act K Nat := cloneN (a + 1) a

/-- `delete ptr`: the virtual destructor (expression_interface.hpp 43) destroys the owning members
(binary_expr.hpp, unary_expr.hpp: `auto_ptr`; vector_expr.hpp: `rt_expr` entries), then the memory is
released.  Deleting what is not allocated is undefined.  Simplification: operands are destroyed from left
to right. -/
def deleteN : Nat → Nat → Act K Unit
  | 0, _ => look fun _ => .ub
  | n + 1, a => do
    let c ← cell a
    let _ ← each (deleteN n) c.kids
    release a

def delete (a : Nat) : Act K Unit := deleteN (a + 1) a

/-- Runs a reading computation on a list of addresses. -/
def readEach {α : Type} (f : Nat → Res α) : List Nat → Res (List α)
  | [] => .ok []
  | a :: as => (f a).bind fun e => (readEach f as).map (e :: ·)

/-- Reads the expression at an address (what evaluation, comparison, printing etc. see). -/
def loadN (h : Heap K) : Nat → Nat → Res (Expr K)
  | 0, _ => .ub
  | n + 1, a => match h.cells a with
    | none => .ub
    | some c => (readEach (loadN h n) c.kids).bind fun es => match Expr.build c.label es with
      | some e => .ok e
      | none => .ub

def load (a : Nat) (h : Heap K) : Res (Expr K) := loadN h (a + 1) a

end VM
