import Verif.Props.Eval
import Verif.Props.Simplify
import Verif.Props.Equal
import Verif.Props.Subst
import Verif.Props.Diff
import Verif.Props.SubstInteg
import Verif.Props.Traverse
import Verif.Props.Quadrature
import Verif.Props.Coords
import Verif.Props.Vector
import Verif.Props.Latex
import Verif.Props.Heap
import Verif.Props.CtSimplify
import Verif.Props.CtManip
import Verif.Props.CtOps
import Verif.Props.CtConvert
import Verif.Props.Print
import Verif.Props.CtNormal
import Verif.Props.CtEvalFn
import Verif.Props.Written
import Verif.Props.VectorObj
import Verif.Props.Sides
import Verif.Props.CtPrint
import Verif.Props.Size
import Verif.Props.Iterated
import Verif.Props.Chain
import Verif.Props.Overload
import Verif.Props.Rename
import Verif.Props.Throw
import Verif.Props.VecDiff
import Verif.Props.Call
import Verif.Props.QuadObj
import Verif.Props.Weak
import Verif.Props.Form
import Verif.Props.Newton
import Verif.Props.QuadError
import Verif.Props.Memory
import Verif.Props.Rounded
import Verif.Props.RoundedQuad
import Verif.Props.Work
import Verif.Props.NewtonRounded
import Verif.Props.Threads
import Verif.Props.Assembly
import Verif.Props.LatexObj
import Verif.Props.HeapRead
import Verif.Props.Ieee
import Verif.Props.Pair
import Verif.Props.Reuse
import Verif.Props.VecObj
import Verif.Props.Timed
import Verif.Props.BottomUp
import Verif.Props.Compose
import Verif.Props.Exact
import Verif.Props.Taylor
import Verif.Props.Body
import Verif.Props.ManipHeap
import Verif.Props.Mentions
import Verif.Props.Inverse
import Verif.Props.Wrapper
import Verif.Props.Worlds
import Verif.Props.CoordsAgain
import Verif.Props.Calc
import Verif.Props.Nested
import Verif.Props.Coefs
import Verif.Props.QuadThrow
import Verif.Props.CtIterated
import Verif.Props.Scalar
import Verif.Props.TypedOps
import Verif.Props.Shallow
import Verif.Props.NewtonA
import Verif.Props.Jobs
import Verif.Props.CtSmall
import Verif.Props.ManipState
import Verif.Props.Degree
import Verif.Props.ManipAgent
import Verif.Props.Walk
import Verif.Props.Tidy
import Verif.Props.CtDegree
import Verif.Props.CtZeroDiv
import Verif.Props.CtDepth
import Verif.Props.CtAddends
import Verif.Props.LatexWell
import Verif.Props.Height
import Verif.Props.CtNodes
import Verif.Props.Nesting
import Verif.Props.Pairs
import Verif.Props.Length
import Verif.Props.Writable
import Verif.Props.Folded
import Lean.Util.CollectAxioms
import Lean.Elab.Command
/-
Fails to build if a theorem of the namespace `VM.Props` depends on any axiom other than the three standard
ones, or if the namespace contains fewer theorems than expected (an import was lost).
-/
open Lean Elab Command

run_cmd do
  let env ← getEnv
  let mut n : Nat := 0
  for (name, info) in env.constants.map₁.toList do
    if (`VM.Props).isPrefixOf name && !name.isInternal then
      if let .thmInfo _ := info then
        n := n + 1
        for a in ← collectAxioms name do
          unless [``propext, ``Classical.choice, ``Quot.sound].contains a do
            throwError "{name} depends on {a}"
  if n < 170 then throwError "only {n} theorems found"
