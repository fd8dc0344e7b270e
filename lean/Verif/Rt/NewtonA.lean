import Verif.Rt.HeapRead
import Verif.Rt.Newton
/-
What the Newton solver of the tutorial does in memory, examples/tutorials/newton_solve.cpp 34-103.

The functions `f1`, `f2` and the four derivatives are local `rt_expr` objects.  Simplified: as in `Rt/Newton.lean`; the
memory of `std::vector` is left out; an evaluation only reads memory.
-/
namespace VM
variable {K : Type} [Num K]
open Act Run

/-- The four expressions of a system: `equations[0].lhs()`, `equations[0].rhs()` and those of `equations[1]`. -/
structure System (α : Type) where
  l₁ : α
  r₁ : α
  l₂ : α
  r₂ : α

/-- `equations[i].lhs() - equations[i].rhs()`, newton_solve.cpp 46-47, 90-91; rt_rt.hpp 86-92: the copies of the operands. -/
def residualA (l r : Ref) : Act K Nat := newBin true .minus l.clone r.clone

/-- `diff(f, x)`, newton_solve.cpp 56-59; diff.hpp 67-74. -/
def derivA (oh : Nat → Bool) (x f : Nat) : Act K Nat := diffA oh (.var x) f >>= simplifiedA oh

/-- `newton_solve_impl`, newton_solve.cpp 34-73: each local object is destroyed at the end of the call, and if something
throws. -/
def newtonStepA (o : Order K) (oh : Nat → Bool) (q : System Ref) (g : List K) : Act K (List K) :=
  withTemp (residualA q.l₁ q.r₁) fun f₁ =>
  withTemp (residualA q.l₂ q.r₂) fun f₂ =>
  ask (eval o g) f₁ >>= fun r₁ =>
  ask (eval o g) f₂ >>= fun r₂ =>
  withTemp (derivA oh 0 f₁) fun d₁x =>
  withTemp (derivA oh 1 f₁) fun d₁y =>
  withTemp (derivA oh 0 f₂) fun d₂x =>
  withTemp (derivA oh 1 f₂) fun d₂y =>
  ask (eval o g) d₁x >>= fun a =>
  ask (eval o g) d₂y >>= fun d =>
  ask (eval o g) d₂x >>= fun c =>
  ask (eval o g) d₁y >>= fun b =>
  let det := Num.sub (Num.mul a d) (Num.mul c b)
  let ux := Num.div (Num.sub (Num.mul r₁ d) (Num.mul b r₂)) det
  let uy := Num.div (Num.sub (Num.mul a r₂) (Num.mul r₁ c)) det
  look (fun _ => coordAt g 0) >>= fun x =>
  look (fun _ => coordAt g 1) >>= fun y =>
  pure [Num.sub x ux, Num.sub y uy]

/-- `::sqrt(f1(x_k)*f1(x_k) + f2(x_k)*f2(x_k))`, newton_solve.cpp 97. -/
def newtonNormA (o : Order K) (f₁ f₂ : Nat) (x : List K) : Act K K :=
  ask (eval o x) f₁ >>= fun r₁ =>
  ask (eval o x) f₂ >>= fun r₂ =>
  pure (Num.fn .sqrt (Num.add (Num.mul r₁ r₁) (Num.mul r₂ r₂)))

/-- The loop of `newton_solve`, newton_solve.cpp 94-99, for at most `fuel` tests of its condition; `none`: still
running. -/
def newtonLoopA [NumLt K] (o : Order K) (oh : Nat → Bool) (q : System Ref) (f₁ f₂ : Nat) :
    Nat → K → List K → Act K (Option (List K))
  | 0, _, _ => pure none
  | fuel + 1, norm, x =>
    if goesOn norm then
      newtonStepA o oh q x >>= fun x' =>
      newtonNormA o f₁ f₂ x' >>= fun norm' => newtonLoopA o oh q f₁ f₂ fuel norm' x'
    else pure (some x)

/-- `newton_solve(equations, guess)`, newton_solve.cpp 75-103, given up (all local objects are destroyed) after `fuel`
tests. -/
def newtonA [NumLt K] (o : Order K) (oh : Nat → Bool) (fuel : Nat) (guess : List K) (q : System Ref) :
    Act K (Option (List K)) :=
  withTemp (residualA q.l₁ q.r₁) fun f₁ =>
  withTemp (residualA q.l₂ q.r₂) fun f₂ =>
  newtonLoopA o oh q f₁ f₂ fuel (Num.lit 1) guess

/-- A call of a program with the expressions of a system. -/
def solverCall {β : Type} (f : System Ref → Act K β) (q : System Src) : Prog K β := do
  let l₁ ← look fun s => s.ref q.l₁
  let r₁ ← look fun s => s.ref q.r₁
  let l₂ ← look fun s => s.ref q.l₂
  let r₂ ← look fun s => s.ref q.r₂
  Prog.heap (f ⟨l₁, r₁, l₂, r₂⟩)

end VM
