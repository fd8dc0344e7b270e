import Verif.Rt.Threads
import Verif.Spec.Heap
/-
Which thread may use which objects.
-/
namespace VM.Spec
variable {K ι : Type}

/-- Thread `t` may use object `i`: it is its own or shared.  `who i` is the thread that owns object `i`, and `none`
if the object is shared. -/
def Allowed (who : Nat → Option ι) (t : ι) (i : Nat) : Prop := who i = none ∨ who i = some t

instance [DecidableEq ι] (who : Nat → Option ι) (t : ι) (i : Nat) : Decidable (Allowed who t i) :=
  inferInstanceAs (Decidable (who i = none ∨ who i = some t))

/-- The objects thread `t` may use. -/
def Store.part [DecidableEq ι] (σ : Store K) (who : Nat → Option ι) (t : ι) : Store K := fun i =>
  if Allowed who t i then σ i else none

/-- All statements of the program work on objects in `P`; others it may only read. -/
def OnlyOn (P : Nat → Prop) : Client K → Prop
  | .done => True
  | .step c p q => P (subject c) ∧ OnlyOn P p ∧ OnlyOn P q

/-- The object an owning pointer belongs to. -/
def objOf : Ptr → Option Nat
  | .one i => some i
  | .two i => some i
  | .tmp => none

/-- The pointers and the kinds of the objects thread `t` may use. -/
def sharedWith [DecidableEq ι] (s : State K) (who : Nat → Option ι) (t : ι) : Local where
  ptr p := match objOf p with
    | some i => if Allowed who t i then s.ptr p else none
    | none => none
  objs i := if Allowed who t i then s.objs i else none

open Classical in
/-- The memory thread `t` can reach through these objects; its own requests get the names from `n` on. -/
noncomputable def reached (s : State K) (who : Nat → Option ι) (t : ι) (n : Nat) : Heap K where
  cells a := if ∃ r, Allowed who t r.obj ∧ s.target r = .ok (.node a) then s.heap.cells a else none
  next := n
  fails := s.heap.fails

/-- Each thread has names of its own for the memory it requests: those from `lo t` up to `hi t` are enough if it
runs alone, are not in use, and are not those of another thread. -/
structure Names [DecidableEq ι] [Num K] (s : State K) (who : Nat → Option ι) (ord : ι → Nat → Bool) (P : ι → Client K)
    (lo hi : ι → Nat) : Prop where
  unused : ∀ t, s.heap.next ≤ lo t
  enough : ∀ t s', (P t).run (ord t) ((sharedWith s who t).state (reached s who t (lo t))) = .ok s' → s'.heap.next ≤ hi t
  disjoint : ∀ t u, t ≠ u → hi t ≤ lo u ∨ hi u ≤ lo t

/-- A data race: two threads are about to access the same memory, and one of them to change it. -/
def Race {β : Type} (M : Machine ι K β) : Prop :=
  ∃ t u a w, t ≠ u ∧ (M.threads t).access = some (a, true) ∧ (M.threads u).access = some (a, w)

/-- What the threads request next is not in use by any of them. -/
def Fresh {β : Type} (M : Machine ι K β) : Prop :=
  ∀ t c k, (M.threads t).code = .new c k → M.cells (M.threads t).next = none

/-- The machine at the moment when the threads start. -/
def started (s : State K) (lo : ι → Nat) (code : ι → Code K Local) : Machine ι K Local :=
  ⟨s.heap.cells, s.heap.fails, fun t => ⟨code t, lo t⟩⟩

end VM.Spec
