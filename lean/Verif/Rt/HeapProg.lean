import Verif.Rt.HeapAlg
import Verif.Ct.Convert
/-
Programs with expression objects: construction, assignment, destruction, calls of library functions.
-/
namespace VM
variable {K : Type}
open Act Run

/-- The owning pointers (`auto_ptr` members): `one i` is `rt_expr_` of object `i` if that is an
`rt_expr`, `lhs_` if it is an `rt_binary_expr`, and `expr_` if it is an `rt_unary_expr`; `two i` is `rhs_` of an
`rt_binary_expr`; `tmp` is the pointer in the
temporary `rt_expr` that an operator or a function returns. -/
inductive Ptr where
  | one (i : Nat)
  | two (i : Nat)
  | tmp
  deriving DecidableEq, Repr

/-- The kind of an object of the user's program: `rt_expr`, or `rt_binary_expr` or `rt_unary_expr` with its operator
(`none`: default constructed).  `rt_unary_expr` objects whose operator is an integral are not modelled. -/
inductive Kind where
  | expr
  | bin (op : Option BOp)
  | un (op : Option UOp)
  deriving DecidableEq, Repr

/-- The program state: heap, owning pointers (`none`: NULL), objects by number. -/
structure State (K : Type) where
  heap : Heap K
  ptr : Ptr → Option Nat
  objs : Nat → Option Kind

/-- Code that works on the program state. -/
abbrev Prog (K : Type) : Type → Type := Run (State K)

namespace Prog
variable {α : Type}

/-- Code that works on the heap, as part of the program. -/
def heap (m : Act K α) : Prog K α := fun s => match m s.heap with
  | .ok a h => .ok a { s with heap := h }
  | .throw x h => .throw x { s with heap := h }
  | .ub => .ub

def setPtr (p : Ptr) (a : Option Nat) : Prog K Unit := fun s =>
  .ok () { s with ptr := fun q => if q = p then a else s.ptr q }

def setObj (i : Nat) (k : Option Kind) : Prog K Unit := fun s =>
  .ok () { s with objs := fun j => if j = i then k else s.objs j }

/-- `auto_ptr::operator=` / `reset`: deletes what was owned, owns `a`. -/
def reset (p : Ptr) (a : Option Nat) : Prog K Unit := do
  match ← look fun s => .ok (s.ptr p) with
  | none => pure ()
  | some old => heap (delete old)
  setPtr p a

/-- Runs `m` while the pointer `p` is a member of a temporary: if `m` throws, the temporary is destroyed. -/
def unwinding (p : Ptr) (m : Prog K α) : Prog K α := fun s => match m s with
  | .throw x s' => match reset p none s' with
    | .ok _ s'' => .throw x s''
    | _ => .ub
  | r => r

end Prog
open Prog

/-- A reference the program can pass: object number and a path of operand numbers into its expression
(`get()`, `lhs()`, `rhs()`, entries of vectors, bounds of integrals). -/
structure Src where
  obj : Nat
  path : List Nat
  deriving DecidableEq, Repr

/-- Follows a path of operand numbers from a node. -/
def follow (h : Heap K) : Nat → List Nat → Res Nat
  | a, [] => .ok a
  | a, k :: ks => match h.cells a with
    | none => .ub
    | some c => match c.kids[k]? with
      | none => .ub
      | some b => follow h b ks

/-- What a reference refers to: NULL (an `rt_expr` without expression), a node on the heap, or an
`rt_binary_expr` or `rt_unary_expr` object as a whole. -/
inductive Target where
  | null
  | node (a : Nat)
  | binObj (i : Nat)
  | unObj (i : Nat)
  deriving DecidableEq, Repr

def State.target (s : State K) (r : Src) : Res Target :=
  match s.objs r.obj with
  | none => .ub
  | some .expr => match s.ptr (.one r.obj), r.path with
    | none, [] => .ok .null
    | none, _ :: _ => .ub
    | some a, ks => (follow s.heap a ks).map .node
  | some (.bin _) => match r.path with
    | [] => .ok (.binObj r.obj)
    | 0 :: ks => match s.ptr (.one r.obj) with
      | none => .ub
      | some a => (follow s.heap a ks).map .node
    | 1 :: ks => match s.ptr (.two r.obj) with
      | none => .ub
      | some a => (follow s.heap a ks).map .node
    | _ :: _ => .ub
  | some (.un _) => match r.path with
    | [] => .ok (.unObj r.obj)
    | 0 :: ks => match s.ptr (.one r.obj) with
      | none => .ub
      | some a => (follow s.heap a ks).map .node
    | _ :: _ => .ub

/-- An expression a function gets as an argument: a node on the heap, or an `rt_binary_expr` or `rt_unary_expr`
object of the program with its operator and its operands. -/
inductive Ref where
  | node (a : Nat)
  | whole (op : BOp) (l r : Nat)
  | single (op : UOp) (k : Nat)
  deriving DecidableEq, Repr

/-- The expression a reference refers to; a NULL pointer must not be dereferenced. -/
def State.ref (s : State K) (r : Src) : Res Ref :=
  (s.target r).bind fun t => match t with
    | .null => .ub
    | .node a => .ok (.node a)
    | .binObj i => match s.objs i, s.ptr (.one i), s.ptr (.two i) with
      | some (.bin (some op)), some l, some r' => .ok (.whole op l r')
      | _, _, _ => .ub
    | .unObj i => match s.objs i, s.ptr (.one i) with
      | some (.un (some op)), some k => .ok (.single op k)
      | _, _ => .ub

namespace Ref
variable [Num K]

/-- `ref.clone()` / `ref.get()->clone()` -/
def clone : Ref → Act K Nat
  | .node a => VM.clone a
  | .whole op l r => newBin true op (VM.clone l) (VM.clone r)
  | .single op k => newUn op (VM.clone k)

/-- Reads the expression. -/
def read : Ref → Act K (Expr K)
  | .node a => ask .ok a
  | .whole op l r => do
    let x ← ask .ok l
    let y ← ask .ok r
    pure (.bin op x y)
  | .single op k => do
    let x ← ask .ok k
    pure (.un op x)

/-- `diff(diff_var)` -/
def diff (o : Nat → Bool) (x : DVar) : Ref → Act K Nat
  | .node a => diffA o x a
  | .whole op l r => diffBinA (o l) op l r (diffA o x l) (diffA o x r)
  | .single op k => diffUnA (o k) x op k (diffA o x k)

/-- `substitute(search, repl)` -/
def subst (o : Nat → Bool) (s t : Ref) : Ref → Act K Nat
  | .node a => substA o s.read t.clone a
  | .whole op l r => substBinA o s.read t.clone op l r
  | .single op k => substUnA o s.read t.clone op k

/-- `substitute(search[], repl[])`; only called on an `rt_expr`. -/
def substMany (o : Nat → Bool) (ss ts : List Ref) : Ref → Act K Nat
  | .node a => substManyA o (ss.map read) (ts.map clone) a
  | .whole _ _ _ => look fun _ => .ub
  | .single _ _ => look fun _ => .ub

/-- `recursive_manipulation`; only called on an `rt_expr`. -/
def manip (o : Nat → Bool) (lo hi x : Nat) : Ref → Act K Nat
  | .node a => manipA o lo hi x a
  | .whole _ _ _ => look fun _ => .ub
  | .single _ _ => look fun _ => .ub

/-- The entries of a vector, copied one by one; if one of the copies fails, those made before are destroyed with
the vector. -/
def cloneAll : List Ref → Act K (List Nat)
  | [] => pure []
  | r :: rs => do
    let a ← r.clone
    let as ← owning [a] (cloneAll rs)
    pure (a :: as)

end Ref

/-- A function that holds an integral operator of its own while it runs (with copies of the bounds), integral.hpp
104-142 and substitute.hpp 347-362. -/
def withBounds [Num K] (lo hi : Act K Nat) (k : Nat → Nat → Act K Nat) : Act K Nat := do
  let l ← lo
  let u ← owning [l] hi
  let b ← owning [u, l] (k l u)
  delete l
  delete u
  pure b

/-- The nodes built from a compile-time expression: the constructors of `rt_binary_expr`, binary_expr.hpp 64-137, and
what they call, as in `Ct.binFrom`.  Operands that are done are released if what follows fails.  Simplification: the
memory of a node is requested after that of its operands.  Function symbols do not compile. -/
def fromCt [Num K] : Ct.CtExpr → Act K Nat
  | .const n => newConst (Num.lit n)
  | .var i => new (.var i) []
  | .fsym _ => look fun _ => .ub
  | .bin l op r => do
    let a ← fromCt l
    let b ← owning [a] (fromCt r)
    owning [a, b] (new (.bin op.toRt) [a, b])

/-- The expression a reference shows. -/
def State.view (s : State K) (r : Src) : Res (Expr K) :=
  (s.ref r).bind fun t => match t with
    | .node a => load a s.heap
    | .whole op l r' => (load l s.heap).bind fun x => (load r' s.heap).map fun y => .bin op x y
    | .single op k => (load k s.heap).map fun x => .un op x

/-- Right hand sides. -/
inductive Rhs (K : Type) where
  /-- a number, a variable, a function symbol -/
  | leaf (e : Expr K)
  /-- the compile-time expression `l op r` -/
  | conv (l : Ct.CtExpr) (op : Ct.COp) (r : Ct.CtExpr)
  /-- another object or a part of one -/
  | copy (r : Src)
  /-- `l + r` etc. -/
  | bin (op : BOp) (l r : Src)
  /-- `sin(e)`, `grad(e)` etc. -/
  | un (op : UOp) (r : Src)
  /-- `integral(interval(lo, hi), e, x)` -/
  | integ (lo hi : Src) (x : Nat) (r : Src)
  /-- a vector, filled entry by entry -/
  | vec (rs : List Src)
  /-- `simplify(e)` -/
  | simplify (r : Src)
  /-- `diff(e, x)` -/
  | diff (x : DVar) (r : Src)
  /-- `substitute(search, repl, e)` -/
  | subst (s t r : Src)
  /-- `substitute(std::vector search, std::vector repl, e)` -/
  | substMany (ss ts : List Src) (r : Src)
  /-- `substitute(symbolic interval, (interval(lo, hi), x), e)` -/
  | interval (lo hi : Src) (x : Nat) (r : Src)

/-- The arguments of a call, in order. -/
def State.refs (s : State K) : List Src → Res (List Ref)
  | [] => .ok []
  | r :: rs => (s.ref r).bind fun x => (s.refs rs).map (x :: ·)

/-- What a right hand side does on the heap, once its arguments are known.
* `new rt_constant(...)` etc., expr.hpp 75-111
* `new rt_binary_expr(ct_expression)`, expr.hpp 64-68, 136-141
* `clone()`
* `rt_expr(new rt_binary_expr(lhs.clone(), new op, rhs.clone()))`, rt_rt.hpp 70-116
* `rt_unary_expr(e.clone(), new op)`, detail/unary_operations.hpp
* integral.hpp 104-142
* a local `rt_vector_expr` whose entries are copied, which is then copied (expr.hpp 99-102)
* simplify.hpp 939-963: `rt_expr ret(e); inplace_simplify(ret); return ret;`
* diff.hpp 39-74, 160-186: `rt_expr temp(e.diff(&var)); inplace_simplify(temp); return temp;`
* substitute.hpp 165-258: `rt_expr temp(e.substitute(...)); inplace_simplify(temp); return temp;`
* substitute.hpp 264-286: asserts that there are as many searched expressions as replacements; then the same (the
  memory of the two arrays of pointers is not modelled)
* substitute.hpp 347-362
Simplification: copies of `ret`, `temp` on return are elided (as compilers do). -/
def Rhs.act [Num K] (o : Nat → Bool) : Rhs K → List Ref → Act K Nat
  | .leaf (.const c), [] => newConst c
  | .leaf (.var i), [] => new (.var i) []
  | .leaf (.fsym i t), [] => new (.fsym i t) []
  | .conv l op r, [] => fromCt (.bin l op r)
  | .copy _, [x] => x.clone
  | .bin op _ _, [x, y] => newBin true op x.clone y.clone
  | .un op _, [x] => newUn op x.clone
  | .integ _ _ i _, [lo, hi, x] => withBounds lo.clone hi.clone fun l u => newInteg true l u i x.clone
  | .vec _, xs => viaTemp do
    let ks ← Ref.cloneAll xs
    owning ks (new .vec ks)
  | .simplify _, [x] => x.clone >>= simplifiedA o
  | .diff i _, [x] => x.diff o i >>= simplifiedA o
  | .subst _ _ _, [s, t, x] => Ref.subst o s t x >>= simplifiedA o
  | .substMany ss ts _, xs => match xs.drop (ss.length + ts.length) with
    | [x] => if ss.length = ts.length then
        Ref.substMany o (xs.take ss.length) ((xs.drop ss.length).take ts.length) x >>= simplifiedA o
      else look fun _ => .ub
    | _ => look fun _ => .ub
  | .interval _ _ i _, [lo, hi, x] => withBounds lo.clone hi.clone fun l u => x.manip o l u i
  | _, _ => look fun _ => .ub

/-- The arguments of a right hand side. -/
def Rhs.args : Rhs K → List Src
  | .leaf _ | .conv _ _ _ => []
  | .copy r | .un _ r | .simplify r | .diff _ r => [r]
  | .bin _ l r => [l, r]
  | .integ lo hi _ r | .interval lo hi _ r => [lo, hi, r]
  | .vec rs => rs
  | .subst s t r => [s, t, r]
  | .substMany ss ts r => ss ++ (ts ++ [r])

/-- The expression object a right hand side creates. -/
def create [Num K] (o : Nat → Bool) (rhs : Rhs K) : Prog K Nat := do
  let xs ← look fun s => s.refs rhs.args
  heap (rhs.act o xs)

/-- Statements of the program. -/
inductive Stmt (K : Type) where
  /-- `rt_expr e;` expr.hpp 49 -/
  | decl (i : Nat)
  /-- `rt_expr e(rhs);` expr.hpp 51-118 -/
  | init (i : Nat) (rhs : Rhs K)
  /-- `e = rhs;` expr.hpp 123-199 -/
  | assign (i : Nat) (rhs : Rhs K)
  /-- `inplace_simplify(e);` simplify.hpp 907-911 -/
  | inplace (i : Nat)
  /-- `rt_binary_expr b;` binary_expr.hpp 56 -/
  | declBin (i : Nat)
  /-- `rt_binary_expr b(l.clone(), new op, r.clone());` binary_expr.hpp 58-62 -/
  | initBin (i : Nat) (op : BOp) (l r : Src)
  /-- `b = other;` with a reference to an `rt_binary_expr`, binary_expr.hpp 200-206 -/
  | assignBin (i : Nat) (r : Src)
  /-- `b = number;` binary_expr.hpp 223-229; also 189-197, 208-221 -/
  | assignNum (i : Nat) (c : K)
  /-- `rt_unary_expr u;` unary_expr.hpp 54 -/
  | declUn (i : Nat)
  /-- `rt_unary_expr u(e.clone(), new op);` unary_expr.hpp 56-58 -/
  | initUn (i : Nat) (op : UOp) (r : Src)
  /-- `rt_unary_expr u(e.clone());`, `rt_unary_expr u(x);` with a variable or a constant, unary_expr.hpp 60-61,
  71-80 -/
  | wrapUn (i : Nat) (r : Src)
  /-- `rt_unary_expr u(other);` with a reference to an `rt_unary_expr`, unary_expr.hpp 83-84 -/
  | copyUn (i : Nat) (r : Src)
  /-- `u = number;` unary_expr.hpp 117-122; also 102-115 -/
  | numUn (i : Nat) (c : K)
  /-- end of the life of an object -/
  | destroy (i : Nat)

/-- The operands and the operator of the `rt_binary_expr` a reference refers to, read when they are
needed: `other.lhs()`, `other.op()`, `other.rhs()`. -/
def State.binParts (s : State K) (t : Target) : Res (BOp × Nat × Nat) :=
  match t with
  | .null => .ub
  | .node a => match s.heap.cells a with
    | some ⟨.bin op, [l, r]⟩ => .ok (op, l, r)
    | _ => .ub
  | .binObj i => match s.objs i, s.ptr (.one i), s.ptr (.two i) with
    | some (.bin (some op)), some l, some r => .ok (op, l, r)
    | _, _, _ => .ub
  | .unObj _ => .ub

/-- The operator and the operand of the `rt_unary_expr` a reference refers to.  Integrals are left out. -/
def State.unParts (s : State K) (t : Target) : Res (UOp × Nat) :=
  match t with
  | .node a => match s.heap.cells a with
    | some ⟨.un op, [k]⟩ => .ok (op, k)
    | _ => .ub
  | .unObj i => match s.objs i, s.ptr (.one i) with
    | some (.un (some op)), some k => .ok (op, k)
    | _, _ => .ub
  | _ => .ub

/-- `NULL` source of a copy construction, expr.hpp 114-118. -/
def State.isNull (s : State K) : Rhs K → Bool
  | .copy r => match s.target r with
    | .ok .null => true
    | _ => false
  | _ => false

/-- `while (e.get()->can_simplify()) e = e.get()->simplify();` on object `i` of the program, cut off after `n`
passes.  If something throws, the object keeps what the passes before have made of it. -/
def inplaceLoop [Num K] (o : Nat → Bool) (i : Nat) : Nat → Prog K Unit
  | 0 => look fun _ => .ub
  | n + 1 => do
    match ← look fun s => .ok (s.ptr (.one i)) with
    | none => look fun _ => .ub
    | some a =>
      if ← heap (ask canSimplify a) then
        let a' ← heap (simplifyA o a)
        reset (.one i) (some a')
        inplaceLoop o i n
      else pure ()

/-- One statement.  Misuse that does not compile or is not possible in C++ (an object that does not
exist, declared twice, of the other class) is `ub`, too. -/
def exec [Num K] (o : Nat → Bool) : Stmt K → Prog K Unit
  | .decl i => do
    match ← look fun s => .ok (s.objs i) with
    | none => setObj i (some .expr)
    | some _ => look fun _ => .ub
  | .init i rhs => do
    match ← look fun s => .ok (s.objs i) with
    | none =>
      if ← look fun s => .ok (s.isNull rhs) then setObj i (some .expr)
      else
        let a ← create o rhs
        setObj i (some .expr)
        reset (.one i) (some a)
    | some _ => look fun _ => .ub
  | .assign i rhs => do
    match ← look fun s => .ok (s.objs i) with
    | some .expr => match rhs with
      | .leaf _ | .conv _ _ _ | .copy _ =>
        let a ← create o rhs
        reset (.one i) (some a)
      | _ => -- a temporary, copied, destroyed at the end of the statement
        let a ← create o rhs
        reset .tmp (some a)
        let b ← unwinding .tmp (heap (clone a))
        reset (.one i) (some b)
        reset .tmp none
    | _ => look fun _ => .ub
  | .inplace i => do
    match ← look fun s => .ok (s.objs i, s.ptr (.one i)) with
    | (some .expr, some a) =>
      let n ← heap (ask (fun e => .ok (weight e)) a)
      inplaceLoop o i (n + 1)
    | _ => look fun _ => .ub
  | .declBin i => do
    match ← look fun s => .ok (s.objs i) with
    | none => setObj i (some (.bin none))
    | some _ => look fun _ => .ub
  | .initBin i op l r => do
    match ← look fun s => .ok (s.objs i) with
    | none =>
      let x ← look fun s => s.ref l
      let y ← look fun s => s.ref r
      let a ← heap x.clone
      let b ← heap y.clone
      setObj i (some (.bin (some op)))
      reset (.one i) (some a)
      reset (.two i) (some b)
    | some _ => look fun _ => .ub
  | .assignBin i r => do
    match ← look fun s => .ok (s.objs i) with
    | some (.bin _) =>
      let t ← look fun s => s.target r
      let b ← look fun s => s.binParts t
      let x ← heap (clone b.2.1)
      reset (.one i) (some x)
      let b1 ← look fun s => s.binParts t
      heap request
      setObj i (some (.bin (some b1.1)))
      let b2 ← look fun s => s.binParts t
      let y ← heap (clone b2.2.2)
      reset (.two i) (some y)
    | _ => look fun _ => .ub
  | .assignNum i c => do
    match ← look fun s => .ok (s.objs i) with
    | some (.bin _) =>
      let a ← heap (newConst c)
      reset (.one i) (some a)
      heap request
      setObj i (some (.bin (some .uid)))
      let b ← heap (newConst c)
      reset (.two i) (some b)
    | _ => look fun _ => .ub
  | .declUn i => do
    match ← look fun s => .ok (s.objs i) with
    | none => setObj i (some (.un none))
    | some _ => look fun _ => .ub
  | .initUn i op r => do
    match ← look fun s => .ok (s.objs i) with
    | none =>
      let x ← look fun s => s.ref r
      let a ← heap x.clone
      heap request
      setObj i (some (.un (some op)))
      reset (.one i) (some a)
    | some _ => look fun _ => .ub
  | .wrapUn i r => do
    match ← look fun s => .ok (s.objs i) with
    | none =>
      let x ← look fun s => s.ref r
      let a ← heap x.clone
      heap (owning [a] request)
      setObj i (some (.un (some (.fn .id))))
      reset (.one i) (some a)
    | some _ => look fun _ => .ub
  | .copyUn i r => do
    match ← look fun s => .ok (s.objs i) with
    | none =>
      let t ← look fun s => s.target r
      let b ← look fun s => s.unParts t
      let a ← heap (clone b.2)
      heap (owning [a] request)
      setObj i (some (.un (some b.1)))
      reset (.one i) (some a)
    | some _ => look fun _ => .ub
  | .numUn i c => do
    match ← look fun s => .ok (s.objs i) with
    | some (.un _) =>
      let a ← heap (newConst c)
      reset (.one i) (some a)
      heap request
      setObj i (some (.un (some (.fn .id))))
    | _ => look fun _ => .ub
  | .destroy i => do
    match ← look fun s => .ok (s.objs i) with
    | none => look fun _ => .ub
    | some _ =>
      reset (.two i) none
      reset (.one i) none
      setObj i none

/-- The state before the program starts, on a machine on which the requests `fails` for memory fail. -/
def State.begin (fails : Nat → Bool) : State K := ⟨⟨fun _ => none, 0, fails⟩, fun _ => none, fun _ => none⟩

/-- The state before the program starts, on a machine with enough memory. -/
def State.start : State K := .begin fun _ => false

/-- Runs a program.  After a statement that throws, the program goes on behind a `catch`, with the memory as the
exception left it. -/
def run [Num K] (o : Nat → Bool) (s : State K) : List (Stmt K) → Res (State K)
  | [] => .ok s
  | c :: cs => match exec o c s with
    | .ok _ s' => run o s' cs
    | .throw _ s' => run o s' cs
    | .ub => .ub

/-- A program that decides, after each statement, how to go on: as in `ok` if it ended normally, as in `threw` if
it threw (`try { ... } catch (...) { ... }`). -/
inductive Client (K : Type) where
  | done
  | step (c : Stmt K) (ok threw : Client K)

/-- Runs such a program. -/
def Client.run [Num K] (o : Nat → Bool) : Client K → State K → Res (State K)
  | .done, s => .ok s
  | .step c p q, s => match exec o c s with
    | .ok _ s' => p.run o s'
    | .throw _ s' => q.run o s'
    | .ub => .ub

end VM
