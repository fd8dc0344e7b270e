import Verif.Res
import Verif.Num
import Verif.Rt.Expr
import Verif.Rt.Eval
import Verif.Spec.Syntax
import Verif.Rt.EvalLemmas
import Verif.NumRat
import Verif.Props.Eval
import Verif.Rt.Simplify
import Verif.Rt.SimplifyLemmas
import Verif.Rt.SimplifySound
import Verif.Props.Simplify
import Verif.Spec.Val
import Verif.Rt.ValLemmas
import Verif.Rt.Equal
import Verif.Rt.EqualLemmas
import Verif.Rt.Subst
import Verif.Spec.Subst
import Verif.Rt.SubstLemmas
import Verif.Props.Equal
import Verif.Props.Subst
import Verif.NumReal
import Verif.Rt.Diff
import Verif.Spec.Diff
import Verif.Rt.DiffLemmas
import Verif.Props.Diff
import Verif.Rt.SubstIntegLemmas
import Verif.Spec.RealInt
import Verif.Props.SubstInteg
import Verif.Spec.Traverse
import Verif.Rt.Traverse
import Verif.Rt.TraverseLemmas
import Verif.Props.Traverse
import Verif.Spec.Quadrature
import Verif.Rt.Quadrature
import Verif.Rt.QuadratureLemmas
import Verif.Props.Quadrature
import Verif.Rt.Coords
import Verif.Rt.CoordsLemmas
import Verif.Spec.Coords
import Verif.Props.Coords
import Verif.Rt.Vector
import Verif.Rt.VectorLemmas
import Verif.Props.Vector
import Verif.Rt.Latex
import Verif.Spec.Latex
import Verif.Rt.LatexLemmas
import Verif.Props.Latex
import Verif.Rt.Heap
import Verif.Spec.Heap
import Verif.Rt.HeapAlg
import Verif.Rt.HeapLemmas
import Verif.Rt.HeapMakes
import Verif.Rt.HeapProg
import Verif.Rt.Dec
import Verif.Rt.HeapSim
import Verif.Props.Heap
import Verif.Ct.Expr
import Verif.Ct.Simplify
import Verif.Ct.SimplifyLemmas
import Verif.Ct.SimplifySound
import Verif.Ct.Select
import Verif.Ct.RatLemmas
import Verif.Ct.Eval
import Verif.Ct.EvalLemmas
import Verif.Spec.Ct
import Verif.Props.CtSimplify
import Verif.Spec.CtManip
import Verif.Ct.Expand
import Verif.Ct.Manip
import Verif.Ct.ExpandLemmas
import Verif.Ct.ManipLemmas
import Verif.Ct.OccurLemmas
import Verif.Ct.IntegrateLemmas
import Verif.Props.CtManip
import Verif.Ct.Ops
import Verif.Spec.CtOps
import Verif.Ct.OpsLemmas
import Verif.Props.CtOps
import Verif.Ct.Convert
import Verif.Spec.CtConvert
import Verif.Ct.ConvertLemmas
import Verif.Props.CtConvert
import Verif.Rt.Print
import Verif.Spec.Print
import Verif.Rt.PrintLemmas
import Verif.Props.Print
import Verif.Spec.CtNormal
import Verif.Ct.NormalLemmas
import Verif.Props.CtNormal
import Verif.Ct.EvalFn
import Verif.Ct.EvalFnLemmas
import Verif.Props.CtEvalFn
import Verif.Ct.Written
import Verif.Spec.Written
import Verif.Ct.WrittenLemmas
import Verif.Props.Written
import Verif.Ct.VectorObj
import Verif.Spec.VectorObj
import Verif.Ct.VectorObjLemmas
import Verif.Props.VectorObj
import Verif.Ct.Sides
import Verif.Spec.Sides
import Verif.Ct.SidesLemmas
import Verif.Props.Sides
import Verif.Ct.Print
import Verif.Spec.CtPrint
import Verif.Ct.PrintLemmas
import Verif.Props.CtPrint
import Verif.Spec.Size
import Verif.Rt.SizeLemmas
import Verif.Props.Size
import Verif.Spec.Iterated
import Verif.Rt.RegularLemmas
import Verif.Rt.IteratedLemmas
import Verif.Props.Iterated
import Verif.Rt.ChainLemmas
import Verif.Props.Chain
import Verif.Ct.Overload
import Verif.Spec.Overload
import Verif.Ct.OverloadLemmas
import Verif.Props.Overload
import Verif.Spec.Rename
import Verif.Rt.RenameLemmas
import Verif.Props.Rename
import Verif.Rt.Throw
import Verif.Spec.Throw
import Verif.Rt.ThrowLemmas
import Verif.Props.Throw
import Verif.Rt.VecDiffLemmas
import Verif.Props.VecDiff
import Verif.Rt.Call
import Verif.Props.Call
import Verif.Rt.QuadObj
import Verif.Spec.QuadObj
import Verif.Rt.QuadObjLemmas
import Verif.Props.QuadObj
import Verif.Spec.Weak
import Verif.Rt.WeakLemmas
import Verif.Props.Weak
import Verif.Ct.Form
import Verif.Spec.Form
import Verif.Ct.FormLemmas
import Verif.Props.Form
import Verif.Rt.Newton
import Verif.Spec.Newton
import Verif.Rt.NewtonLemmas
import Verif.Props.Newton
import Verif.Spec.QuadError
import Verif.Rt.QuadErrorLemmas
import Verif.Props.QuadError
import Verif.Props.Memory
import Verif.NumFl
import Verif.Spec.Rounded
import Verif.Rt.RoundedLemmas
import Verif.Rt.RoundedDiff
import Verif.Rt.RoundedPoly
import Verif.Rt.Chop
import Verif.Props.Rounded
import Verif.Rt.RoundedQuad
import Verif.Props.RoundedQuad
import Verif.Spec.Work
import Verif.Rt.WorkLemmas
import Verif.Rt.WorkProg
import Verif.Rt.Nested
import Verif.Props.Work
import Verif.Rt.NewtonRounded
import Verif.Props.NewtonRounded
import Verif.Rt.Threads
import Verif.Rt.ThreadsLemmas
import Verif.Rt.ThreadsCode
import Verif.Spec.Threads
import Verif.Rt.ThreadsSim
import Verif.Props.Threads
import Verif.Spec.Assembly
import Verif.Props.Assembly
import Verif.Rt.LatexObj
import Verif.Spec.LatexObj
import Verif.Rt.LatexObjLemmas
import Verif.Rt.LatexObjTexts
import Verif.Props.LatexObj
import Verif.Rt.HeapRead
import Verif.Spec.HeapRead
import Verif.Rt.HeapReadLemmas
import Verif.Props.HeapRead
import Verif.NumIeee
import Verif.Spec.Ieee
import Verif.Rt.IeeeLemmas
import Verif.Rt.IeeeValueLemmas
import Verif.Props.Ieee
import Verif.Rt.Pair
import Verif.Spec.Pair
import Verif.Rt.PairLemmas
import Verif.Props.Pair
import Verif.Rt.Reuse
import Verif.Spec.Reuse
import Verif.Rt.ReuseLemmas
import Verif.Props.Reuse
import Verif.Rt.VecObj
import Verif.Spec.VecObj
import Verif.Rt.VecObjLemmas
import Verif.Props.VecObj
import Verif.Rt.Timed
import Verif.Spec.Timed
import Verif.Rt.TimedLemmas
import Verif.Props.Timed
import Verif.Spec.BottomUp
import Verif.Rt.BottomUpLemmas
import Verif.Rt.SweepLemmas
import Verif.Props.BottomUp
import Verif.Rt.ComposeLemmas
import Verif.Props.Compose
import Verif.Spec.Exact
import Verif.Rt.ExactLemmas
import Verif.Props.Exact
import Verif.Rt.TaylorLemmas
import Verif.Props.Taylor
import Verif.Rt.Body
import Verif.Spec.Body
import Verif.Rt.BodyLemmas
import Verif.Rt.BodyCoords
import Verif.Props.Body
import Verif.Rt.ManipHeap
import Verif.Spec.Manip
import Verif.Rt.ManipLemmas
import Verif.Rt.ManipShare
import Verif.Props.ManipHeap
import Verif.Spec.Mentions
import Verif.Rt.MentionsLemmas
import Verif.Props.Mentions
import Verif.Props.Inverse
import Verif.Rt.Wrapper
import Verif.Spec.Wrapper
import Verif.Rt.WrapperLemmas
import Verif.Props.Wrapper
import Verif.Props.Worlds
import Verif.Props.CoordsAgain
import Verif.Spec.Calc
import Verif.Rt.CalcLemmas
import Verif.Props.Calc
import Verif.Spec.Nested
import Verif.Ct.NestedLemmas
import Verif.Props.Nested
import Verif.Spec.Coefs
import Verif.Props.Coefs
import Verif.Rt.QuadThrow
import Verif.Spec.QuadThrow
import Verif.Rt.QuadThrowLemmas
import Verif.Props.QuadThrow
import Verif.Spec.CtIterated
import Verif.Props.CtIterated
import Verif.Rt.Scalar
import Verif.Spec.Scalar
import Verif.Rt.ScalarLemmas
import Verif.Props.Scalar
import Verif.Ct.TypedOps
import Verif.Spec.TypedOps
import Verif.Ct.TypedOpsLemmas
import Verif.Props.TypedOps
import Verif.Rt.Shallow
import Verif.Spec.Shallow
import Verif.Props.Shallow
import Verif.Rt.NewtonA
import Verif.Rt.NewtonALemmas
import Verif.Spec.NewtonA
import Verif.Props.NewtonA
import Verif.Rt.Jobs
import Verif.Rt.JobsCode
import Verif.Rt.JobsSim
import Verif.Rt.JobsThreads
import Verif.Spec.Jobs
import Verif.Props.Jobs
import Verif.Spec.CtSmall
import Verif.Ct.SmallLemmas
import Verif.Props.CtSmall
import Verif.Rt.ManipState
import Verif.Spec.ManipState
import Verif.Rt.ManipStateLemmas
import Verif.Props.ManipState
import Verif.Spec.Degree
import Verif.Rt.DegreeLemmas
import Verif.Props.Degree
import Verif.Rt.ManipAgent
import Verif.Spec.ManipAgent
import Verif.Rt.ManipAgentLemmas
import Verif.Props.ManipAgent
import Verif.Rt.Walk
import Verif.Spec.Walk
import Verif.Rt.WalkLemmas
import Verif.Props.Walk
import Verif.Spec.Tidy
import Verif.Props.Tidy
import Verif.Spec.CtDegree
import Verif.Ct.DegreeLemmas
import Verif.Props.CtDegree
import Verif.Spec.CtZeroDiv
import Verif.Ct.ZeroDivLemmas
import Verif.Props.CtZeroDiv
import Verif.Ct.Depth
import Verif.Spec.CtDepth
import Verif.Ct.DepthLemmas
import Verif.Props.CtDepth
import Verif.Spec.CtAddends
import Verif.Ct.AddendsLemmas
import Verif.Props.CtAddends
import Verif.Spec.LatexWell
import Verif.Rt.LatexWellLemmas
import Verif.Rt.LatexProcWell
import Verif.Props.LatexWell
import Verif.Spec.Height
import Verif.Rt.HeightLemmas
import Verif.Props.Height
import Verif.Ct.NodesLemmas
import Verif.Props.CtNodes
import Verif.Rt.TimedMore
import Verif.Rt.TimedMoreLemmas
import Verif.Rt.NestLemmas
import Verif.Props.Nesting
import Verif.Rt.PairsLemmas
import Verif.Props.Pairs
import Verif.Spec.Covers
import Verif.Rt.CoversLemmas
import Verif.Rt.ZeroLemmas
import Verif.Spec.Labels
import Verif.Rt.LengthLemmas
import Verif.Props.Length
import Verif.Spec.Scoped
import Verif.Rt.ScopedLemmas
import Verif.Spec.Blank
import Verif.Rt.BlankLemmas
import Verif.Spec.Writable
import Verif.Ct.WritableLemmas
import Verif.Props.Writable
import Verif.Spec.Folded
import Verif.Ct.FoldedLemmas
import Verif.Props.Folded
import Verif.Conformance
import Verif.Audit
