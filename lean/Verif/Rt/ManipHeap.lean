import Verif.Rt.Body
/-
`recursive_manipulation` with functors of the user, in memory.
-/
namespace VM
variable {K : Type} [Num K]
open Act Run Prog

/-- `recursive_manipulation(fw)` on the node at an address: expression_interface.hpp 75 (`return fw(this)`: constants,
variables, function symbols, vectors), unary_expr.hpp 320-327, binary_expr.hpp 421-429; the wrapper passes the calls on
to the functor (functor_wrapper.hpp 51-65).  `modifies` and `act` are the functor: its `modifies` only reads, its
`operator()` is arbitrary code that returns the address of a node. -/
def manipFN (o : Nat → Bool) (modifies : Expr K → Bool) (act : Nat → Act K Nat) : Nat → Nat → Act K Nat
  | 0, _ => look fun _ => .ub
  | n + 1, a => do
    let c ← cell a
    match c.label, c.kids with
    | .un op, [k] =>
      if ← ask (fun e => .ok (modifies e)) a then act a
      else newUn op (manipFN o modifies act n k)
    | .integ x, [l, u, k] =>
      if ← ask (fun e => .ok (modifies e)) a then act a
      else newInteg (o a) l u x (manipFN o modifies act n k)
    | .bin op, [l, r] =>
      if ← ask (fun e => .ok (modifies e)) a then act a
      else newBin (o a) op (manipFN o modifies act n l) (manipFN o modifies act n r)
    | _, _ => act a

/-- As `manipFN`; the operands of a node have smaller addresses. -/
def manipFA (o : Nat → Bool) (modifies : Expr K → Bool) (act : Nat → Act K Nat) (a : Nat) : Act K Nat :=
  manipFN o modifies act (a + 1) a

/-- `rt_expr t(src.get()->recursive_manipulation(fw));`: the constructor of expr.hpp 51 takes over the pointer. -/
def manipInit (o : Nat → Bool) (modifies : Expr K → Bool) (act : Nat → Act K Nat) (i : Nat) (src : Src) :
    Prog K Unit := do
  match ← look fun s => .ok (s.objs i) with
  | some _ => look fun _ => .ub
  | none =>
    match ← look fun s => s.target src with
    | .node a =>
      let b ← heap (manipFA o modifies act a)
      setObj i (some .expr)
      reset (.one i) (some b)
    | _ => look fun _ => .ub

/-- What an `operator()` builds: copies of parts of the node it was called on, new constants, variables and function
symbols, new unary and binary expressions. -/
inductive Recipe (K : Type) where
  | part (path : List Nat)
  | const (c : K)
  | var (i : Nat)
  | fsym (i t : Nat)
  | un (op : UOp) (x : Recipe K)
  | bin (op : BOp) (x y : Recipe K)

/-- The code that builds it, called on the node at `a`; `clone` for the parts, `new` for everything else. -/
def Recipe.build (o : Nat → Bool) (a : Nat) : Recipe K → Act K Nat
  | .part ks => do
    let b ← look fun h => follow h a ks
    clone b
  | .const c => new (.const c) []
  | .var i => new (.var i) []
  | .fsym i t => new (.fsym i t) []
  | .un op x => newUn op (x.build o a)
  | .bin op x y => newBin (o a) op (x.build o a) (y.build o a)

/-- An `operator()` that looks at the node it is called on and either builds something or throws. -/
def cook (o : Nat → Bool) (plan : Expr K → Except Exc (Recipe K)) (a : Nat) : Act K Nat := do
  match ← ask (fun e => .ok (plan e)) a with
  | .ok r => r.build o a
  | .error x => look fun _ => .throw x

end VM
