import Verif.Rt.Threads
import Verif.Rt.NewtonA
import Verif.Rt.Print
/-
Threads that also ask for results: the programs of HeapProg.lean, with calls whose results they use.
-/
namespace VM
variable {K : Type}

/-- A call that only reads expressions of the program, with its arguments. -/
inductive Query (K : Type) where
  /-- `e(v)`, runtime/expr.hpp 223-237 -/
  | value (o : Order K) (v : List K) (r : Src)
  /-- `e.deep_str()`, as in `os << e`, runtime/expr.hpp 271-288, runtime/binary_expr.hpp 337-347, 456-464 -/
  | text (fmt : K → Txt) (r : Src)
  /-- `rt_latex_translator::operator()`, manipulation/latex.hpp 141-148 -/
  | latex (fmt : K → Txt) (t : Translator) (flag : Bool) (r : Src)
  /-- `rt_numerical_quadrature::operator()` with the one-point rule, runtime/numerical_quadrature.hpp 131-206 -/
  | integral (o : Order K) (r : Src)
  /-- `newton_solve`, examples/tutorials/newton_solve.cpp 75-103, given up after `fuel` tests of its condition -/
  | solve (o : Order K) (fuel : Nat) (guess : List K) (q : System Src)

/-- What such a call returns. -/
inductive Answer (K : Type) where
  | number (c : K)
  | text (t : Txt)
  | point (x : Option (List K))

/-- The call. -/
def Query.call [Num K] [NumLt K] (oh : Nat → Bool) : Query K → Prog K (Answer K)
  | .value o v r => readCall (fun x => do
      let e ← x.read
      let c ← Run.look fun _ => eval o v e
      pure (.number c)) r
  | .text fmt r => readCall (fun x => do
      let e ← x.read
      pure (.text (deepStr fmt e))) r
  | .latex fmt t flag r => readCall (fun x => do
      let s ← latexRef fmt t flag x
      pure (.text s)) r
  | .integral o r => readCall (fun x => do
      let c ← quadRef o (gaussA o oh) x
      pure (.number c)) r
  | .solve o fuel guess q => solverCall (fun x => do
      let p ← newtonA o oh fuel guess x
      pure (.point p)) q

/-- A program: statements, each with what comes next if it does not throw and if it throws, and calls, with what comes
next for each result.  Exceptions are caught. -/
inductive Job (K : Type) where
  | done
  | step (c : Stmt K) (ok threw : Job K)
  | query (q : Query K) (next : Except Exc (Answer K) → Job K)

/-- Runs such a program, and lists the results of the calls. -/
def Job.run [Num K] [NumLt K] (o : Nat → Bool) : Job K → State K → Res (List (Except Exc (Answer K)) × State K)
  | .done, s => .ok ([], s)
  | .step c p q, s => match exec o c s with
    | .ok _ s' => p.run o s'
    | .throw _ s' => q.run o s'
    | .ub => .ub
  | .query q k, s => match q.call o s with
    | .ok v s' => ((k (.ok v)).run o s').map fun x => (.ok v :: x.1, x.2)
    | .throw x s' => ((k (.error x)).run o s').map fun y => (.error x :: y.1, y.2)
    | .ub => .ub

/-- The results of a thread, and its objects. -/
abbrev JobResult (K : Type) := List (Except Exc (Answer K)) × Local

/-- The sequence of accesses `c` does what the program `p` does: alone, in whatever memory it starts. -/
def RunsJob [Num K] [NumLt K] (o : Nat → Bool) (p : Job K) (l : Local) (c : Code K (JobResult K)) : Prop :=
  ∀ h, c.run h = match p.run o (l.state h) with
    | .ok (as, s) => some ((as, ⟨s.ptr, s.objs⟩), s.heap)
    | _ => none

end VM
