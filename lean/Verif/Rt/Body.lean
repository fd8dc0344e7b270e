import Verif.Rt.Pair
import Verif.Rt.Coords
/-
Functions with local objects, as the library and its users write them.
-/
namespace VM
variable {K : Type}
open Act Run Prog

/-- The code of a function that works with expression objects.
* `one`: a statement
* `scope i make rest`: `make` constructs object `i`, a local object or a temporary; it is destroyed after `rest`, also
  if `rest` throws
* `keep i make rest`: `make` constructs the object `i` that the function returns; it is destroyed if `rest` throws
  (copies on return are elided, as compilers do)
* `seq`: one after the other
* `attempt a p q`: `try { a; p } catch (...) { q }`, where exceptions of `p` are not caught -/
inductive Body (K : Type) where
  | one (c : Stmt K)
  | scope (i : Nat) (make rest : Body K)
  | keep (i : Nat) (make rest : Body K)
  | seq (a b : Body K)
  | attempt (a p q : Body K)

variable [Num K]

/-- Runs it. -/
def Body.exec (o : Nat → Bool) : Body K → Prog K Unit
  | .one c => VM.exec o c
  | .scope i make rest => do
    make.exec o
    after o i (rest.exec o)
    VM.exec o (.destroy i)
  | .keep i make rest => do
    make.exec o
    after o i (rest.exec o)
  | .seq a b => do
    a.exec o
    b.exec o
  | .attempt a p q => fun s => match a.exec o s with
    | .ok _ s' => p.exec o s'
    | .throw _ s' => q.exec o s'
    | .ub => .ub

omit [Num K] in
/-- Several local objects, each constructed by one statement. -/
def scopes : List (Stmt K) → Body K → Body K
  | [], b => b
  | c :: cs, b => .scope c.target (.one c) (scopes cs b)

/-- A reference to object `i` as a whole. -/
abbrev whole (i : Nat) : Src := ⟨i, []⟩

omit [Num K] in
/-- `rt_expr r(substitute(grad(w), repl, e));` with the replacement built by `cs`, the last of which constructs object
`t`: the temporaries `grad(w)` (object `g`, detail/unary_operations.hpp 668-671) and those of `cs` are destroyed at the
end of the statement.  Simplification: the operands are evaluated from left to right. -/
def replacing (g : Nat) (op : UOp) (w : Nat) (cs : List (Stmt K)) (t : Nat) (e : Src) (r : Nat) : Body K :=
  scopes (.initUn g op (whole w) :: cs) (.one (.init r (.subst (whole g) (whole t) e)))

omit [Num K] in
/-- `diff(w, x)` of a function symbol, diff.hpp 122-131, as a temporary `t`. -/
def partialOf (t w x : Nat) : Stmt K := .init t (.un (.pd x) (whole w))

omit [Num K] in
/-- `apply_coordinate_system(cartesian<1>(), e)`, apply_coordinate_system.hpp 38-55: the local objects `u`, `v`,
`new_ex`, ..., `new_ex3` have the numbers `b`, `b+1`, ..., temporaries those from `b+6` on, the result `new_ex4` is
object `r`.
Simplification: the function symbols `u`, `v` are local `rt_expr` objects (in C++ they are on the stack and need no
memory); the variable `x` is its number. -/
def coordsBody1 (b : Nat) (e : Src) (r : Nat) : Body K :=
  scopes [.init b (.leaf symU), .init (b+1) (.leaf symV), .init (b+2) (.copy e)] <|
  .scope (b+3) (replacing (b+6) .grad b [partialOf (b+7) b 0] (b+7) (whole (b+2)) (b+3)) <|
  .scope (b+4) (replacing (b+6) .grad (b+1) [partialOf (b+7) (b+1) 0] (b+7) (whole (b+3)) (b+4)) <|
  .scope (b+5) (replacing (b+6) .divg b [partialOf (b+7) b 0] (b+7) (whole (b+4)) (b+5)) <|
  replacing (b+6) .divg (b+1) [partialOf (b+7) (b+1) 0] (b+7) (whole (b+5)) r

omit [Num K] in
/-- `rt_vector_expr grad_w(2); grad_w[0] = diff(w, x); grad_w[1] = diff(w, y);` as local object `g`, with
temporaries from `t` on.  Simplification: the vector is an `rt_expr` with a vector in it (in C++ it is on the stack),
that is built when its entries are known (in C++ they are zero first). -/
def gradient2 (g w t : Nat) : Body K :=
  scopes [partialOf t w 0, partialOf (t+1) w 1] (.one (.init g (.vec [whole t, whole (t+1)])))

omit [Num K] in
/-- `diff(w, x) + diff(w, y)`: temporaries `t`, `t+1`, `t+2`. -/
def divergence2 (w t : Nat) : List (Stmt K) :=
  [partialOf t w 0, partialOf (t+1) w 1, .init (t+2) (.bin .plus (whole t) (whole (t+1)))]

omit [Num K] in
/-- `apply_coordinate_system(cartesian<2>(), e)`, apply_coordinate_system.hpp 87-112. -/
def coordsBody2 (b : Nat) (e : Src) (r : Nat) : Body K :=
  scopes [.init b (.leaf symU), .init (b+1) (.leaf symV)] <|
  .scope (b+2) (gradient2 (b+2) b (b+7)) <|
  .scope (b+3) (gradient2 (b+3) (b+1) (b+7)) <|
  .scope (b+4) (replacing (b+7) .grad b [] (b+2) e (b+4)) <|
  .scope (b+5) (replacing (b+7) .grad (b+1) [] (b+3) (whole (b+4)) (b+5)) <|
  .scope (b+6) (replacing (b+7) .divg b (divergence2 b (b+8)) (b+10) (whole (b+5)) (b+6)) <|
  replacing (b+7) .divg (b+1) (divergence2 (b+1) (b+8)) (b+10) (whole (b+6)) r

omit [Num K] in
/-- The same with three entries. -/
def gradient3 (g w t : Nat) : Body K :=
  scopes [partialOf t w 0, partialOf (t+1) w 1, partialOf (t+2) w 2]
    (.one (.init g (.vec [whole t, whole (t+1), whole (t+2)])))

omit [Num K] in
/-- `diff(w, x) + diff(w, y) + diff(w, z)`: temporaries `t` to `t+4`. -/
def divergence3 (w t : Nat) : List (Stmt K) :=
  [partialOf t w 0, partialOf (t+1) w 1, .init (t+2) (.bin .plus (whole t) (whole (t+1))), partialOf (t+3) w 2,
    .init (t+4) (.bin .plus (whole (t+2)) (whole (t+3)))]

omit [Num K] in
/-- `apply_coordinate_system(cartesian<3>(), e)`, apply_coordinate_system.hpp 143-171. -/
def coordsBody3 (b : Nat) (e : Src) (r : Nat) : Body K :=
  scopes [.init b (.leaf symU), .init (b+1) (.leaf symV)] <|
  .scope (b+2) (gradient3 (b+2) b (b+7)) <|
  .scope (b+3) (gradient3 (b+3) (b+1) (b+7)) <|
  .scope (b+4) (replacing (b+7) .grad b [] (b+2) e (b+4)) <|
  .scope (b+5) (replacing (b+7) .grad (b+1) [] (b+3) (whole (b+4)) (b+5)) <|
  .scope (b+6) (replacing (b+7) .divg b (divergence3 b (b+8)) (b+12) (whole (b+5)) (b+6)) <|
  replacing (b+7) .divg (b+1) (divergence3 (b+1) (b+8)) (b+12) (whole (b+6)) r

omit [Num K] in
/-- The overloads for `rt_expr`. -/
def coordsBody : Dim → Nat → Src → Nat → Body K
  | .one => coordsBody1
  | .two => coordsBody2
  | .three => coordsBody3

end VM
