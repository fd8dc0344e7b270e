import Verif.Rt.Pair
/-
Vector expressions as objects of a program: any number of expression objects each.
-/
namespace VM
variable {K : Type}
open Act Run Prog

/-- Numbers of objects.  Vector number `v` (`rt_vector_expr`, derived from `std::vector<rt_expr>`, vector_expr.hpp
36-48) has the entries `v[0]`, `v[1]`, ..., which are the `rt_expr` objects `entry v 0`, `entry v 1`, ...; the
expression objects of the program that are no entries have the odd numbers. -/
def entry (v i : Nat) : Nat := 2 ^ (v + 1) * (2 * i + 1)
def plain (k : Nat) : Nat := 2 * k + 1

/-- The number of an object that exists within a statement only. -/
def within : Nat := 0

/-- The factors two of a number, and what is left: `n = 2 ^ a * (2 * b + 1)` for `n ≠ 0`. -/
def twos : Nat → Nat → Nat × Nat
  | 0, n => (0, n / 2)
  | f + 1, n => if n % 2 = 0 then ((twos f (n / 2)).1 + 1, (twos f (n / 2)).2) else (0, n / 2)

/-- The state of a program with vectors: the sizes of those that are alive. -/
structure VState (K : Type) where
  st : State K
  vecs : Nat → Option Nat

def VState.begin (fails : Nat → Bool) : VState K := ⟨.begin fails, fun _ => none⟩

/-- Statements. -/
inductive VStmt (K : Type) where
  /-- a statement that works on one expression object: an object of its own, or an entry (`v[i] = e;`,
  `inplace_simplify(v[i]);`) -/
  | on (c : Stmt K)
  /-- `rt_vector_expr v(n);` vector_expr.hpp 53-58 -/
  | make (v n : Nat)
  /-- `rt_vector_expr v(w);` (generated by the compiler) -/
  | copy (v w : Nat)
  /-- `rt_vector_expr v = w + u;` vector_expr.hpp 61-70; `w - u` 73-82 -/
  | sum (minus : Bool) (v w u : Nat)
  /-- `rt_vector_expr v = w * e;` vector_expr.hpp 246-254; `e * w` 256-264; `w / e` 281-289; `e / w` 291-299 -/
  | scale (div left : Bool) (v w : Nat) (e : Src)
  /-- `rt_expr e = v * w;` vector_expr.hpp 267-277 -/
  | dot (k v w : Nat)
  /-- `v = w;` (generated by the compiler), for vectors of the same size -/
  | assign (v w : Nat)
  /-- end of the life of a vector -/
  | destroy (v : Nat)

/-- `for (i = i0; i < i0 + n; ++i) body(i);` -/
def loop (body : Nat → Prog K Unit) : Nat → Nat → Prog K Unit
  | _, 0 => pure ()
  | i, n + 1 => do
    body i
    loop body (i + 1) n

variable [Num K]

/-- The entries are destroyed.  Simplification: the order is left open by the standard; here from the last one. -/
def destroyAll (o : Nat → Bool) (v : Nat) : Nat → Prog K Unit
  | 0 => pure ()
  | n + 1 => do
    exec o (.destroy (entry v n))
    destroyAll o v n

/-- A function with a local vector of size `n`: if something throws, the vector is destroyed. -/
def guarded (o : Nat → Bool) (v n : Nat) (m : Prog K Unit) : Prog K Unit := fun s => match m s with
  | .throw x s' => match destroyAll o v n s' with
    | .ok _ s'' => .throw x s''
    | _ => .ub
  | r => r

/-- Copies of the entries of `w`, constructed one after the other; if one of the copies throws, those before are
destroyed (`std::vector(std::vector const &)`). -/
def copyAll (o : Nat → Bool) (v w : Nat) : Nat → Nat → Prog K Unit
  | _, 0 => pure ()
  | i, n + 1 => do
    exec o (.init (entry v i) (.copy ⟨entry w i, []⟩))
    after o (entry v i) (copyAll o v w (i + 1) n)

/-- The memory for the entries; none for a vector of size zero. -/
def buffer (n : Nat) : Prog K Unit := if n = 0 then pure () else heap request

/-- `rt_vector_expr v(n);` vector_expr.hpp 53-58: entries without expression, to which zero is assigned. -/
def newVec (o : Nat → Bool) (v n : Nat) : Prog K Unit := do
  buffer n
  loop (fun i => exec o (.decl (entry v i))) 0 n
  guarded o v n (loop (fun i => exec o (.assign (entry v i) (.leaf (.const (Num.lit 0))))) 0 n)

/-- `rt_vector_expr result(n); for (...) result[i] = ...; return result;` without a copy of `result`. -/
def fillVec (o : Nat → Bool) (v n : Nat) (rhs : Nat → Rhs K) : Prog K Unit := do
  newVec o v n
  guarded o v n (loop (fun i => exec o (.assign (entry v i) (rhs i))) 0 n)

/-- `result = result + lhs[i] * rhs[i];` vector_expr.hpp 274 -/
def dotStep (o : Nat → Bool) (k v w i : Nat) : Prog K Unit := do
  exec o (.init within (.bin .mult ⟨entry v i, []⟩ ⟨entry w i, []⟩))
  after o within (exec o (.assign (plain k) (.bin .plus ⟨plain k, []⟩ ⟨within, []⟩)))
  exec o (.destroy within)

/-- `w[i] * e` etc. -/
def scaled (div left : Bool) (w : Nat) (e : Src) (i : Nat) : Rhs K :=
  let op := if div then .div else .mult
  if left then .bin op e ⟨entry w i, []⟩ else .bin op ⟨entry w i, []⟩ e

/-- What a statement does, for vectors with the sizes `size`.
* vector_expr.hpp 53-58
* the copy constructor of `std::vector`
* vector_expr.hpp 61-82: the `assert` demands equal sizes
* vector_expr.hpp 246-264, 281-299
* vector_expr.hpp 267-277: the `assert` demands equal sizes other than zero; `result` is the object `e`
* the assignment of `std::vector`, with as much room as is needed: entry by entry, nothing for `v = v` -/
def VStmt.code (o : Nat → Bool) (size : Nat → Nat) : VStmt K → Prog K Unit
  | .on c => exec o c
  | .make v n => newVec o v n
  | .copy v w => do
    buffer (size w)
    copyAll o v w 0 (size w)
  | .sum minus v w u =>
    if size w = size u then
      fillVec o v (size u) fun i => .bin (if minus then .minus else .plus) ⟨entry w i, []⟩ ⟨entry u i, []⟩
    else look fun _ => .ub
  | .scale div left v w e => fillVec o v (size w) (scaled div left w e)
  | .dot k v w =>
    if size v = size w ∧ 0 < size v then do
      exec o (.init (plain k) (.bin .mult ⟨entry v 0, []⟩ ⟨entry w 0, []⟩))
      after o (plain k) (loop (dotStep o k v w) 1 (size w - 1))
    else look fun _ => .ub
  | .assign v w =>
    if v = w then pure ()
    else if size v = size w then loop (fun i => exec o (.assign (entry v i) (.copy ⟨entry w i, []⟩))) 0 (size w)
    else look fun _ => .ub
  | .destroy v => destroyAll o v (size v)

omit [Num K] in
/-- The statement works on an object of its own, or on an entry as on any `rt_expr`; entries cannot be declared or
destroyed. -/
def Stmt.direct (c : Stmt K) : Bool :=
  if c.target % 2 = 1 then true
  else match c with
    | .assign i _ | .inplace i => i != within
    | _ => false

omit [Num K] in
/-- The statement is one of the language: a name is declared once, the vectors a statement uses exist. -/
def VState.admits (s : VState K) : VStmt K → Bool
  | .on c => c.direct
  | .make v _ => (s.vecs v).isNone
  | .copy v w | .scale _ _ v w _ => (s.vecs v).isNone && (s.vecs w).isSome
  | .sum _ v w u => (s.vecs v).isNone && (s.vecs w).isSome && (s.vecs u).isSome
  | .dot k v w => (s.st.objs (plain k)).isNone && (s.vecs v).isSome && (s.vecs w).isSome
  | .assign v w => (s.vecs v).isSome && (s.vecs w).isSome
  | .destroy v => (s.vecs v).isSome

omit [Num K] in
def VState.size (s : VState K) (v : Nat) : Nat := (s.vecs v).getD 0

omit [Num K] in
/-- The vectors that are alive after a statement that ended normally. -/
def VState.live (s : VState K) : VStmt K → Nat → Option Nat
  | .make v n => fun u => if u = v then some n else s.vecs u
  | .copy v w | .sum _ v w _ | .scale _ _ v w _ => fun u => if u = v then some (s.size w) else s.vecs u
  | .destroy v => fun u => if u = v then none else s.vecs u
  | .on _ | .dot _ _ _ | .assign _ _ => s.vecs

/-- One statement; what is not possible in C++ is `ub`, too. -/
def VStmt.exec (o : Nat → Bool) (c : VStmt K) (s : VState K) : Out (VState K) Unit :=
  if s.admits c then
    match c.code o s.size s.st with
    | .ok _ t => .ok () ⟨t, s.live c⟩
    | .throw x t => .throw x ⟨t, s.vecs⟩
    | .ub => .ub
  else .ub

omit [Num K] in
/-- Programs that decide after each statement how to go on. -/
inductive VClient (K : Type) where
  | done
  | step (c : VStmt K) (ok threw : VClient K)

def VClient.run (o : Nat → Bool) : VClient K → VState K → Res (VState K)
  | .done, s => .ok s
  | .step c p q, s => match c.exec o s with
    | .ok _ s' => p.run o s'
    | .throw _ s' => q.run o s'
    | .ub => .ub

end VM
