import Verif.Rt.HeapProg
/-
Equations and intervals as objects of a program: two expression objects each.
-/
namespace VM
variable {K : Type}
open Act Run Prog

/-- `rt_equation` (runtime/equation.hpp 30-55) and `rt_interval` (runtime/interval.hpp 30-64). -/
inductive PairKind where
  | equation
  | interval
  deriving DecidableEq, Repr

/-- Pair number `p` has the members `lhs_` (`lower_`) and `rhs_` (`upper_`), which are the `rt_expr` objects `first p`
and `second p`; `lhs()`, `lower()` and `rhs()`, `upper()` (equation.hpp 44-47, interval.hpp 49-52) return references to
them. -/
def first (p : Nat) : Nat := 2 * p
def second (p : Nat) : Nat := 2 * p + 1

/-- The state of a program with equations and intervals. -/
structure PState (K : Type) where
  st : State K
  pairs : Nat → Option PairKind

def PState.begin (fails : Nat → Bool) : PState K := ⟨.begin fails, fun _ => none⟩

/-- Statements. -/
inductive PStmt (K : Type) where
  /-- a statement that works on an expression object that is no member of a pair -/
  | single (c : Stmt K)
  /-- `rt_equation e;` equation.hpp 36; `rt_interval i;` interval.hpp 36-37 -/
  | decl (k : PairKind) (p : Nat)
  /-- `rt_equation e(l, r);` equation.hpp 38-39; `rt_interval i(l, r);` interval.hpp 39-41 -/
  | make (k : PairKind) (p : Nat) (l r : Src)
  /-- `rt_equation e(f);` (generated by the compiler); `rt_interval i(j);` interval.hpp 43-44 -/
  | copy (k : PairKind) (p q : Nat)
  /-- `e = f;` (generated by the compiler); `i = j;` interval.hpp 55-59 -/
  | assign (k : PairKind) (p q : Nat)
  /-- end of the life of a pair -/
  | destroy (p : Nat)

/-- The initializer `lhs_(pointer)` of a member, expr.hpp 51: the member owns the expression. -/
def hold [Num K] (o : Nat → Bool) (i : Nat) (rhs : Rhs K) : Prog K Unit := do
  let a ← create o rhs
  setObj i (some .expr)
  reset (.one i) (some a)

/-- Constructs the second member when the first is there: if that throws, the first is destroyed. -/
def after [Num K] (o : Nat → Bool) (i : Nat) (m : Prog K Unit) : Prog K Unit := fun s => match m s with
  | .throw x s' => match exec o (.destroy i) s' with
    | .ok _ s'' => .throw x s''
    | _ => .ub
  | r => r

/-- What a statement does with the members.
* equation.hpp 36, interval.hpp 36-37
* equation.hpp 38-39, interval.hpp 39-41: `clone()` through the pointer, which must not be NULL
* the copy constructor the compiler generates for `rt_equation` copies the members by expr.hpp 114-118, where NULL is
  taken care of; interval.hpp 43-44
* the assignment the compiler generates for `rt_equation` assigns the members by expr.hpp 129-133; interval.hpp 55-59
  assigns both and then *ends without a `return`*, which is undefined behaviour for a function with a result -/
def members [Num K] (o : Nat → Bool) : PStmt K → Prog K Unit
  | .single c => exec o c
  | .decl .equation p => do
    exec o (.decl (first p))
    exec o (.decl (second p))
  | .decl .interval p => do
    hold o (first p) (.leaf (.const (Num.lit 0)))
    after o (first p) (hold o (second p) (.leaf (.const (Num.lit 1))))
  | .make _ p l r => do
    hold o (first p) (.copy l)
    after o (first p) (hold o (second p) (.copy r))
  | .copy .equation p q => do
    exec o (.init (first p) (.copy ⟨first q, []⟩))
    after o (first p) (exec o (.init (second p) (.copy ⟨second q, []⟩)))
  | .copy .interval p q => do
    hold o (first p) (.copy ⟨first q, []⟩)
    after o (first p) (hold o (second p) (.copy ⟨second q, []⟩))
  | .assign .equation p q => do
    exec o (.assign (first p) (.copy ⟨first q, []⟩))
    exec o (.assign (second p) (.copy ⟨second q, []⟩))
  | .assign .interval p q => do
    exec o (.assign (first p) (.copy ⟨first q, []⟩))
    exec o (.assign (second p) (.copy ⟨second q, []⟩))
    look fun _ => .ub
  | .destroy p => do
    exec o (.destroy (second p))
    exec o (.destroy (first p))

/-- The object an expression statement works on. -/
def Stmt.target : Stmt K → Nat
  | .decl i | .init i _ | .assign i _ | .inplace i | .declBin i | .initBin i _ _ _ | .assignBin i _ |
    .assignNum i _ | .declUn i | .initUn i _ _ | .wrapUn i _ | .copyUn i _ | .numUn i _ | .destroy i => i

/-- Number `i` is free for an object of its own or belongs to one. -/
def PState.outside (s : PState K) (i : Nat) : Bool := (s.pairs (i / 2)).isNone

/-- The statement is one of the language: the members of a pair are private, a name is declared once, the pairs a
statement uses exist and are of the right class. -/
def PState.admits (s : PState K) : PStmt K → Bool
  | .single c => s.outside c.target
  | .decl _ p | .make _ p _ _ => (s.pairs p).isNone && (s.st.objs (first p)).isNone && (s.st.objs (second p)).isNone
  | .copy k p q => (s.pairs p).isNone && (s.st.objs (first p)).isNone && (s.st.objs (second p)).isNone &&
      s.pairs q == some k
  | .assign k p q => s.pairs p == some k && s.pairs q == some k
  | .destroy p => (s.pairs p).isSome

/-- The pairs that are alive after a statement that ended normally. -/
def PStmt.live (π : Nat → Option PairKind) : PStmt K → Nat → Option PairKind
  | .decl k p | .make k p _ _ | .copy k p _ => fun q => if q = p then some k else π q
  | .destroy p => fun q => if q = p then none else π q
  | .single _ | .assign _ _ _ => π

/-- One statement; what is not possible in C++ is `ub`, too. -/
def PStmt.exec [Num K] (o : Nat → Bool) (c : PStmt K) (s : PState K) : Out (PState K) Unit :=
  if s.admits c then
    match members o c s.st with
    | .ok _ t => .ok () ⟨t, c.live s.pairs⟩
    | .throw x t => .throw x ⟨t, s.pairs⟩
    | .ub => .ub
  else .ub

/-- Programs that decide after each statement how to go on. -/
inductive PClient (K : Type) where
  | done
  | step (c : PStmt K) (ok threw : PClient K)

def PClient.run [Num K] (o : Nat → Bool) : PClient K → PState K → Res (PState K)
  | .done, s => .ok s
  | .step c p q, s => match c.exec o s with
    | .ok _ s' => p.run o s'
    | .throw _ s' => q.run o s'
    | .ub => .ub

end VM
