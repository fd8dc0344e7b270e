import Verif.Rt.Eval
/-
Objects of the classes `ct_vector_1`, `ct_vector_2`, `ct_vector_3` with entries of type `double`, in programs which
declare numbers and vectors and evaluate expressions at the vectors.

Objects of type `double` have addresses.  Addresses are never reused here: reading an object after the end of its
lifetime is undefined behaviour whether or not the storage was reused.
-/
namespace VM.Ct
variable {K : Type} [Num K]

/-- An argument of `make_vector` or of a vector's constructor: a variable of type `double`, or an rvalue (a literal,
`2.0 * x`, a variable of type `int`, ...), for which a temporary of type `double` is made. -/
inductive VArg (K : Type)
  | name (x : Nat)
  | temp (v : K)
  deriving DecidableEq, Repr

/-- The members of the vector classes: references in ct_vector.hpp 38-63 (line 62) and 83-112 (110-111), copies in
132-171 (168-170).  `none` in a copy: copied from an object that was not alive. -/
inductive VObj (K : Type)
  | one (a : Nat)
  | two (a b : Nat)
  | three (x y z : Option K)

/-- The state of a program. -/
structure VStore (K : Type) where
  /-- the live objects of type `double` -/
  cells : Nat → Option K
  /-- addresses from here on have not been used -/
  next : Nat
  /-- the addresses of the variables in scope -/
  vars : Nat → Option Nat
  /-- the vectors in scope -/
  vecs : Nat → Option (VObj K)

/-- The start of a program. -/
def VStore.empty : VStore K := ⟨fun _ => none, 0, fun _ => none, fun _ => none⟩

/-- The function with one value changed. -/
def setAt {α : Type} (f : Nat → Option α) (n : Nat) (v : Option α) : Nat → Option α := fun m => if m = n then v else f m

/-- The objects the reference parameters of a call are bound to, from left to right (the order has no effect). -/
def VStore.bindArgs (s : VStore K) : List (VArg K) → Option (List Nat × VStore K)
  | [] => some ([], s)
  | .name x :: as => (s.vars x).bind fun p => (s.bindArgs as).map fun r => (p :: r.1, r.2)
  | .temp v :: as =>
    (VStore.bindArgs { s with cells := setAt s.cells s.next (some v), next := s.next + 1 } as).map
      fun r => (s.next :: r.1, r.2)

/-- The constructors, ct_vector.hpp 43, 91, 142, directly or by `make_vector`, 188-207 (returning the vector by value
copies the references or the numbers).  There are vectors with one, two and three entries. -/
def newVec (cells : Nat → Option K) : List Nat → Option (VObj K)
  | [a] => some (.one a)
  | [a, b] => some (.two a b)
  | [a, b, c] => some (.three (cells a) (cells b) (cells c))
  | _ => none

/-- The end of a full expression: the temporaries made since `n` are destroyed. -/
def VStore.endFull (s : VStore K) (n : Nat) : VStore K :=
  { s with cells := fun p => if n ≤ p then none else s.cells p }

/-- The entries `v[ct_index<0>()]`, ..., ct_vector.hpp 46, 94-96, 147-151. -/
def VObj.entries (cells : Nat → Option K) : VObj K → List (Option K)
  | .one a => [cells a]
  | .two a b => [cells a, cells b]
  | .three x y z => [x, y, z]

/-- All entries, if all can be read. -/
def allSome : List (Option K) → Option (List K)
  | [] => some []
  | none :: _ => none
  | some x :: l => (allSome l).map (x :: ·)

/-- `e(v)`, runtime/expr.hpp 229-254: all entries are copied to a `std::vector`, at which the expression is
evaluated. -/
def callVec (o : Order K) (cells : Nat → Option K) (v : VObj K) (e : Expr K) : Res K :=
  match allSome (v.entries cells) with
  | some p => eval o p e
  | none => .ub

/-- The statements. -/
inductive VStmt (K : Type)
  /-- `double x = v;` -/
  | decl (x : Nat) (v : K)
  /-- `x = v;` -/
  | assign (x : Nat) (v : K)
  /-- the scope of the number `x` ends -/
  | leave (x : Nat)
  /-- `ct_vector_k<double, ...> n(args);` or `... n = make_vector(args);` -/
  | make (n : Nat) (args : List (VArg K))
  /-- `ct_vector_k<double, ...> n(m);` -/
  | copy (n m : Nat)
  /-- the scope of the vector `n` ends -/
  | drop (n : Nat)
  /-- `e(n)` -/
  | call (n : Nat) (e : Expr K)
  /-- `e(make_vector(args))` -/
  | callNow (args : List (VArg K)) (e : Expr K)

/-- One statement: the new state and what it prints.  `none`: does not compile (a name is not in scope, or declared
twice, or the number of entries is wrong).  The copy constructors copy the members (implicit, and ct_vector.hpp 144). -/
def VStore.exec (o : Order K) (s : VStore K) : VStmt K → Option (VStore K × List (Res K))
  | .decl x v =>
    match s.vars x with
    | some _ => none
    | none => some ({ s with cells := setAt s.cells s.next (some v), next := s.next + 1,
                             vars := setAt s.vars x (some s.next) }, [])
  | .assign x v => (s.vars x).map fun p => ({ s with cells := setAt s.cells p (some v) }, [])
  | .leave x => (s.vars x).map fun p =>
      ({ s with cells := setAt s.cells p none, vars := setAt s.vars x none }, [])
  | .make n args =>
    match s.vecs n with
    | some _ => none
    | none => (s.bindArgs args).bind fun r => (newVec r.2.cells r.1).map fun v =>
        ({ r.2.endFull s.next with vecs := setAt s.vecs n (some v) }, [])
  | .copy n m =>
    match s.vecs n with
    | some _ => none
    | none => (s.vecs m).map fun v => ({ s with vecs := setAt s.vecs n (some v) }, [])
  | .drop n => (s.vecs n).map fun _ => ({ s with vecs := setAt s.vecs n none }, [])
  | .call n e => (s.vecs n).map fun v => (s, [callVec o s.cells v e])
  | .callNow args e => (s.bindArgs args).bind fun r => (newVec r.2.cells r.1).map fun v =>
      (r.2.endFull s.next, [callVec o r.2.cells v e])

/-- A program: all it prints. -/
def VStore.run (o : Order K) (s : VStore K) : List (VStmt K) → Option (List (Res K))
  | [] => some []
  | c :: cs => (s.exec o c).bind fun r => (r.1.run o cs).map (r.2 ++ ·)

end VM.Ct
