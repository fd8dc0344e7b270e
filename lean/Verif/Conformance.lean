import Verif.Ct.Ops
import Verif.Ct.Written
import Verif.Ct.EvalFn
import Verif.Ct.Manip
import Verif.NumRat
import Verif.Ct.Overload
import Verif.Ct.Sides
import Verif.Rt.Call
import Verif.Rt.Dec
import Verif.Rt.Print
import Verif.Rt.Quadrature
import Verif.Rt.Vector
import Verif.Rt.Wrapper
import Verif.Rt.Traverse
import Verif.Props.Latex
import Mathlib.Data.Rat.Defs
/-
Tests of the model, not proofs: the statements of five test programs and of the tutorials of the library, run in the
model.  They
show that what the library's own tests compile also compiles in the model, and gives the values the tests
expect.  No theorem depends on this file.
-/
namespace VM.Conformance
open Ct

/-- The expression an operator of the library builds from two compile-time expressions. -/
def build (op : COp) (a b : MixExpr ℚ) : Option CtExpr :=
  ((match op with
    | .plus => opAdd false a b | .minus => opSub false a b | .mult => opMul a b | .div => opDiv a b).bind
    fun | .ct e => some e | .rt .. => none).bind MixExpr.toCt

/-- The operand as the operators take it. -/
def operand : CtExpr → MixExpr ℚ
  | .const n => .const n
  | .var i => .var i
  | .fsym t => .fsym t
  | .bin l o r => .bin (operand l) o (operand r)

/-- The expression two compile-time expressions give, with a mark if they do not compile. -/
def op (o : COp) (a b : CtExpr) : CtExpr := (build o (operand a) (operand b)).getD (.fsym 99)

local infixl:65 " ⊹ " => op COp.plus
local infixl:65 " ⊖ " => op COp.minus
local infixl:70 " ⊗ " => op COp.mult
local infixl:70 " ⊘ " => op COp.div

/-- The number a result is. -/
def number : CtExpr → Option ℚ
  | .const n => some n
  | .bin (.const a) .div (.const b) => some ((a : ℚ) / b)
  | _ => none

/-- The value of an expression, computed apart from the model. -/
def value (v : List Int) : CtExpr → ℚ
  | .const n => n
  | .var i => (v[i]?.getD 0 : Int)
  | .fsym _ => 0
  | .bin l .plus r => value v l + value v r
  | .bin l .minus r => value v l - value v r
  | .bin l .mult r => value v l * value v r
  | .bin l .div r => value v l / value v r

def x : CtExpr := .var 0
def y : CtExpr := .var 1
def z : CtExpr := .var 2
def c0 : CtExpr := ♯0
def c1 : CtExpr := ♯1
def c2 : CtExpr := ♯2
def c5 : CtExpr := ♯5
def c7 : CtExpr := ♯7

/-! tests/src/compiletime_evaluation.cpp: the right operands (lines 54-60) and the left ones. -/

def rights : List CtExpr := [x, c5, c7, x ⊹ y, z ⊗ y, c5 ⊘ x, c7 ⊖ z]
def lefts : List CtExpr := rights ++
  [(x ⊹ c5) ⊘ c7 ⊖ (y ⊘ z ⊹ x ⊗ c5), (x ⊹ c5) ⊘ c7 ⊖ (y ⊘ (z ⊹ c7) ⊹ x ⊗ c5)]

/-- One check of lines 31-42: the expression compiles, can be evaluated at compile time, and is the right
number at (4, 6, 8). -/
def good (o : COp) (a b : CtExpr) : Bool :=
  match build o (operand a) (operand b) with
  | none => false
  | some e => ctEvaluable e &&
    decide ((ctEval narrow [4, 6, 8] e).bind number = some (value [4, 6, 8] e))

#guard lefts.all fun t => rights.all fun u => [COp.plus, .minus, .mult, .div].all fun o =>
  good o t u && good o u t

/-! tests/src/compiletime_test.cpp: the operators (lines 31-38) on the operands of lines 96-162 that are not
run-time expressions (those only reach the generic operator), with the value at (4, 6, 8). -/

/-- The value of an expression with run-time constants, computed apart from the model. -/
def valueM (v : List Int) : MixExpr ℚ → ℚ
  | .const n => n
  | .rc c => c
  | .var i => (v[i]?.getD 0 : Int)
  | .fsym _ => 0
  | .bin l .plus r => valueM v l + valueM v r
  | .bin l .minus r => valueM v l - valueM v r
  | .bin l .mult r => valueM v l * valueM v r
  | .bin l .div r => valueM v l / valueM v r

def applyOp (o : COp) (a b : MixExpr ℚ) : Option (Built ℚ) :=
  match o with
  | .plus => opAdd false a b
  | .minus => opSub false a b
  | .mult => opMul a b
  | .div => opDiv a b

def valueB (v : List Int) : Built ℚ → ℚ
  | .ct e => valueM v e
  | .rt l o r => valueM v (.bin l o r)

def operands : List (MixExpr ℚ) :=
  [operand x, operand (x ⊹ y), .rc 4, .rc 6, operand ♯8, operand (♯8 ⊹ y)]

#guard operands.all fun t => operands.all fun u => [COp.plus, .minus, .mult, .div].all fun o =>
  (applyOp o t u).map (valueB [4, 6, 8]) = some (valueM [4, 6, 8] (.bin t o u))

/-! tests/src/compiletime_manipulation.cpp -/

def at125 (e : CtExpr) : Option ℚ := (ctEval narrow [1, 2, 5] e).bind number
def bubble : CtExpr := (c1 ⊖ x ⊖ y) ⊗ x ⊗ y

-- 52, 56-59, 67-70
#guard at125 bubble = some (-4)
#guard at125 (ctSubst x z bubble) = some (-60)
#guard (ctDiff 0 bubble).bind at125 = some (-6)

-- 77-80
#guard ((ctDiff 0 ((c1 ⊖ x ⊖ y ⊘ x) ⊗ x ⊗ y ⊘ (c2 ⊖ y ⊘ (x ⊹ y)) ⊗ (x ⊹ y) ⊘ (z ⊹ x))).bind
  fun d => at125 (d ⊖ c1 ⊘ (c2 ⊹ c2))) = some (-1)

-- 84-92
def cube : CtExpr := (c1 ⊖ x) ⊗ (c1 ⊖ y) ⊗ (c1 ⊖ z)
#guard at125 cube = some 0
#guard at125 (expand cube) = some 0

-- 96-103
#guard [x, y, z].all fun v => (coefficient v cube).isSome && (dropTerms narrow v cube).isSome
#guard dropTerms narrow x cube = some ((c1 ⊖ z) ⊖ (y ⊖ z ⊗ y))

-- 107-121
#guard ctIntegrate narrow c0 c1 (x ⊗ y) x = some (y ⊘ c2)
#guard ctIntegrate narrow c0 c1 (x ⊗ y) y = some (x ⊘ c2)
#guard [x, y].all fun v => (ctIntegrate narrow c0 c1 ((c1 ⊖ x) ⊗ (c1 ⊖ y) ⊗ x ⊗ y) v).isSome

-- 125-178
def triangle (e : CtExpr) : Option ℚ :=
  ((ctIntegrate narrow c0 (c1 ⊖ x) e y).bind fun e => ctIntegrate narrow c0 c1 e x).bind number

#guard ([c1, x, y, c1 ⊖ x ⊖ y, x ⊗ x, y ⊗ y, (c1 ⊖ x ⊖ y) ⊗ (c1 ⊖ x ⊖ y), x ⊗ y, x ⊗ (c1 ⊖ x ⊖ y),
  y ⊗ (c1 ⊖ x ⊖ y)].map triangle) =
  [some (1/2), some (1/6), some (1/6), some (1/6), some (1/12), some (1/12), some (1/12), some (1/24),
    some (1/24), some (1/24)]

/-! tests/src/diff_test.cpp -/

abbrev E := Expr XRat
def X : E := .var 0
def Y : E := .var 1
def Z : E := .var 2
def lit (n : Int) : E := .const (some n)

/-- The expression a call returns, if it compiles and returns. -/
def result : Option (Res (Out XRat)) → Option E
  | some (.ok (.obj a)) => a.toExpr
  | _ => none

-- 46-56
#guard [x ⊹ y, x ⊗ y ⊹ ♯8, x ⊘ y ⊖ ♯8].all fun e => [x, y, z].all fun v =>
  (result (callDiff (.ct e) (.ct v))).isSome

-- 59-69: `viennamath::expr` objects
def e1 : E := .bin .plus X Y
def e2 : E := .bin .plus (.bin .mult X Y) (lit 8)
def e3 : E := .bin .minus (.bin .div X Y) (lit 8)
#guard [e1, e2, e3].all fun e => [x, y, z].all fun v => (result (callDiff (.expr e) (.ct v))).isSome
#guard result (callDiff (.expr e1) (.ct x)) = some (lit 1)
#guard result (callDiff (.expr e2) (.ct x)) = some Y
#guard result (callDiff (.expr e2) (.ct z)) = some (lit 0)
#guard result (callDiff (.expr e3) (.ct y)) =
  some (.bin .div (.bin .mult (lit (-1)) X) (.bin .mult Y Y))

-- 72-91
#guard [Fn.exp, .sin, .cos, .tan, .sqrt, .log, .log10].all fun f => [X, e1].all fun e =>
  (result (callDiff (.un (.fn f) e) (.ct x))).isSome
#guard result (callDiff (.un (.fn .exp) X) (.ct x)) = some (.un (.fn .exp) X)

-- 96-110
def f : Arg XRat := .fsym 0 0
def g : Arg XRat := .fsym 1 0
def F : E := .fsym 0 0
def G : E := .fsym 1 0
#guard result (callDiff f f) = some (lit 1)
#guard result (callDiff g f) = some (lit 0)
#guard result (callDiff (.bin .plus F G) g) = some (lit 1)
#guard result (callDiff (.bin .minus F G) g) = some (lit (-1))
#guard result (callDiff (.bin .mult F G) f) = some G
#guard (result (callDiff (.bin .div F G) f)).isSome
#guard result (callDiff (.bin .mult (.bin .mult (lit 4) F) G) f) = some (.bin .mult (lit 4) G)
#guard (result (callDiff (.un .grad F) f)).isSome
#guard result (callDiff (.un .grad G) f) = some (lit 0)
#guard (result (callDiff (.bin .mult F (.un .grad F)) f)).isSome
#guard (result (callDiff (.bin .mult G (.un .grad F)) f)).isSome

/-! tests/src/equation_test.cpp: all calls compile. -/

example (l r : MixExpr ℝ) (hl : l.isCompiletime = true) (hr : r.isCompiletime = true) :
    (makeEquation (.mix l) (.mix r)).isSome := by simp [makeEquation, hl, hr]
example : (makeEquation (.mix (.var 0)) (.num (some 3))).isSome := rfl
example : (makeEquation (.rt .unary (.un (.fn .exp) (.var 0))) (.num (some 3))).isSome := rfl
example : (makeEquation (.mix (.rc 4)) (.num (some 3))).isSome := rfl
example : (makeEquation (.mix (.bin (.bin (.var 0) .mult (.var 0)) .plus (.var 1))) (.num (some 3))).isSome := rfl
example (e : Expr XReal) : (makeEquation (.rt .binary e) (.num (some 5))).isSome := rfl
example (e : Expr XReal) :
    (makeEquation (.rt .binary e) (.mix (.bin (.bin (.var 0) .mult (.var 0)) .plus (.var 1)))).isSome := rfl

/-! examples/tutorials/basic.cpp 52-84: `make_vector(c4, c6, c8)` has a number and constants as entries. -/

def got : Option (Ran XRat) → Option (Res XRat)
  | some (.res r) => some r
  | _ => none

def p123 : At XRat := .std [some 1, some 2, some 3]
def v468 : At XRat := .ct [.num (some 4), .num (some 6), .int 8]
#guard got (callObj false leftFirst (.const (some 4)) p123) = some (.ok (some 4))
#guard got (callObj false leftFirst (.const (some 4)) (.ctConst 8)) = some (.ok (some 4))
#guard (List.range 3).map (fun i => got (callObj false leftFirst (.var i) p123)) =
  [some (.ok (some 1)), some (.ok (some 2)), some (.ok (some 3))]
#guard got (callObj false leftFirst (.var 0) (.rtConst (some 4))) = some (.ok (some 4))
#guard got (callObj false leftFirst (.var 0) (.ctConst 8)) = some (.ok (some 8))
#guard (List.range 3).map (fun i => got (callObj false leftFirst (.var i) v468)) =
  [some (.ok (some 4)), some (.ok (some 6)), some (.ok (some 8))]

/-! examples/tutorials/substitute.cpp 46-54 -/

def s1 : E := .bin .minus (.bin .plus X Y) Z
def s2 : E := .bin .minus (.bin .plus (lit 1) X) Z
def s3 : E := .bin .mult (.bin .mult X Y) Z
#guard result (callSubst (.rtVar 0) (.bin .minus (lit 1) Y) (.expr s1)) =
  some (.bin .minus (.bin .plus (.bin .minus (lit 1) Y) Y) Z)
#guard result (callSubst (.rtVar 1) (.bin .minus (lit 1) X) (.expr s1)) =
  some (.bin .minus (.bin .plus X (.bin .minus (lit 1) X)) Z)
#guard result (callSubst (.rtVar 0) (.rtVar 2) (.expr s2)) = some (.bin .minus (.bin .plus (lit 1) Z) Z)
#guard result (callSubst (.rtVar 2) (.rtVar 0) (.expr s2)) = some (.bin .minus (.bin .plus (lit 1) X) X)
#guard result (callSubstList [X, Y, Z] [lit 1, lit 2, lit 3] (.expr s3)) = some (lit 6)

/-! examples/tutorials/model_benchmark.cpp 100-108: the constants are folded. -/

def model : E := .bin .mult (.bin .mult (.bin .mult Y (lit 8)) X)
  (.un (.fn .exp) (.bin .div (lit 6) (.bin .mult (lit 2) Y)))
#guard (result (callSubst (.rtVar 1) (.num (some 300)) (.expr model))).isSome

/-! examples/tutorials/integration.cpp 62-94 -/

def e4 : E := .bin .plus X (lit 8)
#guard quadOf leftFirst (gaussQuad1 leftFirst) (.integ (lit 0) (lit 1) 0 e4) = .ok (some (17/2))
#guard quadOver (gaussQuad1 leftFirst) (lit 0) (lit 1) 0 e4 = .ok (some (17/2))
#guard quadOf leftFirst (gaussQuad1 leftFirst)
  (.bin .minus (.integ (lit 0) (lit 1) 0 e4) (.integ (lit 0) (lit 1) 0 e4)) = .ok (some 0)
#guard result (callSubstInterval 0 (lit 0) (lit 1) 0 (.expr (.un (.symInt 0) e4))) =
  some (.integ (lit 0) (lit 1) 0 e4)

/-! examples/tutorials/vector_expr.cpp 50-92 -/

def vec1 : List E := [X, lit 6, lit 0]
def vec2 : List E := [X, lit 8, lit 6]
#guard (vecNew 3 : Res (List E)) = .ok [lit 0, lit 0, lit 0]
#guard vecAdd vec1 vec2 = .ok [.bin .plus X X, .bin .plus (lit 6) (lit 8), .bin .plus (lit 0) (lit 6)]
#guard vecScaleL Z vec2 = .ok [.bin .mult Z X, .bin .mult Z (lit 8), .bin .mult Z (lit 6)]
#guard vecDivL (lit 6) vec2 = .ok [.bin .div (lit 6) X, .bin .div (lit 6) (lit 8), .bin .div (lit 6) (lit 6)]
#guard result (callSubst (.fsym 0 0) (.expr (.vec vec1)) (.expr (.bin .mult (.fsym 0 0) (.fsym 0 1)))) =
  some (.bin .mult (.vec vec1) (.fsym 0 1))
#guard (result (callSubst (.fsym 0 1) (.expr (.vec vec1)) (.expr (.bin .mult (.vec vec1) (.fsym 0 1))))).isSome

/-! examples/tutorials/traversal.cpp 27-98: what is printed, line by line. -/

def line (s : String) : E → List String → Res (List String) := fun _ l => .ok (l ++ [s])
def coutFunctor : Visitor XRat (List String) where
  visit := dispatch (line "non-dispatched type") [(.binary, line "binary_expr"), (.variable, line "variable"),
    (.constant, line "constant"), (.unary, line "unary_expr")]
  stepInto _ _ := true
#guard traverse coutFunctor (.bin .minus (.bin .minus (.bin .plus X Y) Z) (lit 4)) [] =
  .ok ["variable", "binary_expr", "variable", "binary_expr", "variable", "binary_expr", "constant"]
#guard traverse coutFunctor (.un (.fn .sin) X) [] = .ok ["unary_expr", "variable"]

/-! tests/src/runtime_test.cpp 203-214 -/

#guard result (callSubst (.rtVar 0) (.num (some 6)) (.expr (.bin .minus (.bin .minus X (lit 4)) Y))) =
  some (.bin .minus (lit 2) Y)
#guard (result (callSubst (.rtVar 0) (.num (some 6))
  (.expr (.bin .minus (.bin .minus (.un (.fn .exp) X) (lit 4)) Y)))).isSome

end VM.Conformance
