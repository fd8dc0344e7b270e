import Verif.Rt.Traverse
/-
The life of functor wrappers: `rt_traversal_wrapper` and `rt_manipulation_wrapper` keep the functor in a
`std::auto_ptr`.
-/
namespace VM
variable {F : Type}

/-- What a program does with wrappers (numbered by their names) and with the functors it makes (numbered in the order
they are made).  Both kinds of wrappers have the same members. -/
inductive WOp (F : Type) where
  /-- `p = new functor`. -/
  | new (f : F)
  /-- `rt_traversal_wrapper<> w(p);` -/
  | wrap (w p : Nat)
  /-- `rt_traversal_wrapper<> w(w');`, the implicit copy constructor.  Its parameter is a reference to a wrapper that is
  not `const`, because that of `std::auto_ptr` is. -/
  | copy (w w' : Nat)
  /-- `w = w';`, the implicit assignment operator, with a parameter like that of the copy constructor. -/
  | assign (w w' : Nat)
  /-- The end of the life of `w`. -/
  | destroy (w : Nat)
  /-- `w(e)` or `w.step_into(e)` or `w.modifies(e)`, as `e->recursive_traversal(w)` and `e->recursive_manipulation(w)` do:
  they get the wrapper by reference and make no copies (unary_expr.hpp 320-334, binary_expr.hpp 421-442). -/
  | call (w : Nat)

/-- The memory: functors by address, in the order they were made, `none` once deleted; how many there were; the wrappers:
`some none` is a wrapper whose `auto_ptr` is null. -/
structure WMem (F : Type) where
  functors : Nat → Option F
  made : Nat
  wrappers : Nat → Option (Option Nat)

def WMem.empty : WMem F := ⟨fun _ => none, 0, fun _ => none⟩

/-- `f` with another value at `i`. -/
def putAt {α : Type} (f : Nat → α) (i : Nat) (a : α) : Nat → α := fun j => if j = i then a else f j

/-- The destructor of `std::auto_ptr`, and the end of its `reset`: nothing for a null pointer, undefined for a functor
that is gone. -/
def WMem.delete (m : WMem F) : Option Nat → Res (WMem F)
  | none => .ok m
  | some a => match m.functors a with
    | some _ => .ok { m with functors := putAt m.functors a none }
    | none => .ub

/-- One step, functor_wrapper.hpp 49-65 and 90-107; the functor that is called.  `std::auto_ptr` as the standard has it:
copying and assigning take the pointer out of the source, assigning deletes what was there unless it is the same.
Programs that use a wrapper that does not exist, declare one twice, or use a pointer that was never made do not compile:
`none`. -/
def WMem.step (m : WMem F) : WOp F → Option (Res (WMem F × Option F))
  | .new f => some (.ok ({ m with functors := putAt m.functors m.made (some f), made := m.made + 1 }, none))
  | .wrap w p =>
    if m.wrappers w = none ∧ p < m.made then
      some (.ok ({ m with wrappers := putAt m.wrappers w (some (some p)) }, none))
    else none
  | .copy w w' => match m.wrappers w, m.wrappers w' with
    | none, some v => some (.ok ({ m with wrappers := putAt (putAt m.wrappers w' (some none)) w (some v) }, none))
    | _, _ => none
  | .assign w w' => match m.wrappers w, m.wrappers w' with
    | some u, some v =>
      if w = w' then some (.ok (m, none))
      else some ((if u = v then .ok m else m.delete u).map fun m =>
        ({ m with wrappers := putAt (putAt m.wrappers w' (some none)) w (some v) }, none))
    | _, _ => none
  | .destroy w => match m.wrappers w with
    | some u => some ((m.delete u).map fun m => ({ m with wrappers := putAt m.wrappers w none }, none))
    | none => none
  | .call w => match m.wrappers w with
    | some (some a) => match m.functors a with
      | some f => some (.ok (m, some f))
      | none => some .ub
    | some none => some .ub
    | none => none

/-- A program: the memory at the end and the functors called, in order. -/
def WMem.run (m : WMem F) : List (WOp F) → Option (Res (WMem F × List F))
  | [] => some (.ok (m, []))
  | op :: ops => match m.step op with
    | none => none
    | some .ub => some .ub
    | some (.throw x) => some (.throw x)
    | some (.ok (m', c)) => (m'.run ops).map fun r => r.map fun q => (q.1, c.toList ++ q.2)

/-! ### Typed callbacks -/

variable {K σ : Type}

/-- The classes of nodes: `rt_constant`, `rt_variable`, `rt_function_symbol`, `rt_unary_expr`, `rt_binary_expr`,
`rt_vector_expr`.  None derives from another. -/
inductive NodeClass where
  | constant | variable | symbol | unary | binary | vector
  deriving DecidableEq, Repr

/-- The class of an object. -/
def Expr.nodeClass : Expr K → NodeClass
  | .const _ => .constant
  | .var _ => .variable
  | .fsym .. => .symbol
  | .un .. => .unary
  | .integ .. => .unary
  | .bin .. => .binary
  | .vec _ => .vector

/-- `callback_if_castable<T>::apply(e, functor)`, functor_wrapper.hpp 115-132: the callback is the overload of the functor's
`operator()` for `T const &`; the second part tells whether it was called. -/
def callbackIf (T : NodeClass) (callback : Expr K → σ → Res σ) (e : Expr K) (s : σ) : Res (σ × Bool) :=
  if e.nodeClass = T then (callback e s).map fun s => (s, true) else .ok (s, false)

/-- The `operator()` of a functor that tries classes one after the other, examples/tutorials/traversal.cpp 36-56;
`other` is what it does if none fits. -/
def dispatch (other : Expr K → σ → Res σ) : List (NodeClass × (Expr K → σ → Res σ)) → Expr K → σ → Res σ
  | [], e, s => other e s
  | (T, cb) :: rest, e, s => (callbackIf T cb e s).bind fun q => if q.2 then .ok q.1 else dispatch other rest e q.1

end VM
