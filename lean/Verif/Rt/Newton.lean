import Verif.Rt.Coords
import Verif.NumReal
/-
The Newton solver for two equations in the tutorial, examples/tutorials/newton_solve.cpp 34-103.

Simplified: the system is a pair (the code uses `equations[0]` and `equations[1]` of a vector and does not
check its size); the calls inside one C++ expression are made in one fixed order, which matters only for
which of two exceptions is seen; the printing to `std::cout` is left out; `double` is any kind of numbers
that can be compared: exact real arithmetic with an undefined value, which compares false with everything, or
rounded arithmetic.
-/
namespace VM
open Classical

/-- Comparison of numbers, and the literals `1e-n`. -/
class NumLt (K : Type) where
  lt : K → K → Bool
  tenth : Nat → K

/-- The undefined value compares false with everything. -/
noncomputable instance : NumLt XReal where
  lt
    | some x, some y => decide (x < y)
    | _, _ => false
  tenth n := some (1 / 10 ^ n)

variable {K : Type} [Num K]

/-- `f1 = equations[0].lhs() - equations[0].rhs()`, newton_solve.cpp 46-47 and 90-91: the difference of two
`rt_expr`. -/
def residualExpr (q : Equation K) : Expr K := .bin .minus q.lhs q.rhs

/-- `guess[i]`, newton_solve.cpp 69-70: `std::vector::operator[]`, undefined behaviour beyond the end. -/
def coordAt (g : List K) (i : Nat) : Res K :=
  match g[i]? with
  | some v => .ok v
  | none => .ub

/-- `newton_solve_impl`, newton_solve.cpp 34-73. -/
def newtonStep (o : Order K) (q₁ q₂ : Equation K) (g : List K) : Res (List K) :=
  (eval o g (residualExpr q₁)).bind fun r₁ =>
  (eval o g (residualExpr q₂)).bind fun r₂ =>
  (diff (.var 0) (residualExpr q₁)).bind fun d₁x =>
  (diff (.var 1) (residualExpr q₁)).bind fun d₁y =>
  (diff (.var 0) (residualExpr q₂)).bind fun d₂x =>
  (diff (.var 1) (residualExpr q₂)).bind fun d₂y =>
  (eval o g d₁x).bind fun a =>
  (eval o g d₂y).bind fun d =>
  (eval o g d₂x).bind fun c =>
  (eval o g d₁y).bind fun b =>
  let det := Num.sub (Num.mul a d) (Num.mul c b)
  let ux := Num.div (Num.sub (Num.mul r₁ d) (Num.mul b r₂)) det
  let uy := Num.div (Num.sub (Num.mul a r₂) (Num.mul r₁ c)) det
  (coordAt g 0).bind fun x =>
  (coordAt g 1).bind fun y =>
  .ok [Num.sub x ux, Num.sub y uy]

/-- `norm_res > 1e-10 && norm_res < 1e10`, newton_solve.cpp 94; false if the norm is not a number. -/
def goesOn [NumLt K] (r : K) : Bool := NumLt.lt (NumLt.tenth 10) r && NumLt.lt r (Num.lit (10 ^ 10))

/-- `::sqrt(f1(x_k)*f1(x_k) + f2(x_k)*f2(x_k))`, newton_solve.cpp 97. -/
def newtonNorm (o : Order K) (q₁ q₂ : Equation K) (x : List K) : Res K :=
  (eval o x (residualExpr q₁)).bind fun r₁ =>
  (eval o x (residualExpr q₂)).bind fun r₂ =>
  .ok (Num.fn .sqrt (Num.add (Num.mul r₁ r₁) (Num.mul r₂ r₂)))

/-- The loop of `newton_solve`, newton_solve.cpp 94-99, for at most `fuel` tests of its condition; `none`:
still running. -/
def newtonLoop [NumLt K] (o : Order K) (q₁ q₂ : Equation K) :
    Nat → K → List K → Option (Res (List K))
  | 0, _, _ => none
  | fuel + 1, norm, x =>
    if goesOn norm then
      match newtonStep o q₁ q₂ x with
      | .ok x' =>
        match newtonNorm o q₁ q₂ x' with
        | .ok norm' => newtonLoop o q₁ q₂ fuel norm' x'
        | .throw e => some (.throw e)
        | .ub => some .ub
      | .throw e => some (.throw e)
      | .ub => some .ub
    else some (.ok x)

/-- `newton_solve(equations, guess)` returns or throws `r`, newton_solve.cpp 75-103: the loop starts with
`norm_res = 1`. -/
def NewtonReturns [NumLt K] (o : Order K) (q₁ q₂ : Equation K) (guess : List K) (r : Res (List K)) : Prop :=
  ∃ fuel, newtonLoop o q₁ q₂ fuel (Num.lit 1) guess = some r

end VM
