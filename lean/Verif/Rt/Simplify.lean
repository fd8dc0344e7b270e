import Verif.Rt.Eval
/-
Run-time simplification: one pass (`simplify()`), the test (`can_simplify()`), and the loop.
-/
namespace VM
variable {K : Type} [Num K]

/-- The order in which `unwrap` visits operands does not matter for constants
(`C05_is_constant`), so the simplifier's calls use this one. -/
def leftFirst : Order K := fun _ _ => true

/-- `op_->can_simplify()` of a unary operator: true for the mathematical functions
(unary_op_tags.hpp 43, 57, ...), false for the formal operators (185, 209, 240) and integrals
(runtime/integral.hpp 84, 178). -/
def UOp.canSimplify : UOp → Bool
  | .fn _ => true
  | _ => false

/-- The loop of the dot product, vector_expr.hpp 273-274, starting from `acc`. -/
def dotFrom (acc : Expr K) : List (Expr K) → List (Expr K) → Expr K
  | l :: ls, r :: rs => dotFrom (.bin .plus acc (.bin .mult l r)) ls rs
  | _, _ => acc

/-- Dot product of two vector expressions, vector_expr.hpp 267-277.  A size mismatch or empty
vectors fail the `assert` (and read out of range without it). -/
def dot : List (Expr K) → List (Expr K) → Res (Expr K)
  | l :: ls, r :: rs =>
    if ls.length = rs.length then .ok (dotFrom (.bin .mult l r) ls rs) else .ub
  | _, _ => .ub

/-- `simplify_impl(lhs, op, rhs)`, detail/binary_operations.hpp 50-76 (plus), 118-148 (minus),
197-233 (mult), 304-330 (div); `op_unary::simplify(lhs, rhs)` for the ill-formed node
(binary_expr.hpp 464-471).  `sl`, `sr` are `lhs->simplify()`, `rhs->simplify()`. -/
def simpBin (op : BOp) (l r : Expr K) (sl sr : Res (Expr K)) : Res (Expr K) :=
  match op with
  | .plus =>
    if isConst l then
      (unwrap leftFirst l).bind fun val =>
        if Num.eqb val (Num.lit 0) then sr else sr.map fun r' => .bin .plus (.const val) r'
    else if isConst r then
      (unwrap leftFirst r).bind fun val =>
        if Num.eqb val (Num.lit 0) then sl else sl.map fun l' => .bin .plus l' (.const val)
    else sl.bind fun l' => sr.map fun r' => .bin .plus l' r'
  | .minus =>
    if isConst l then
      (unwrap leftFirst l).bind fun val =>
        if Num.eqb val (Num.lit 0) then sr.map fun r' => .bin .mult (.const (Num.lit (-1))) r'
        else sr.map fun r' => .bin .minus (.const val) r'
    else if isConst r then
      (unwrap leftFirst r).bind fun val =>
        if Num.eqb val (Num.lit 0) then sl else sl.map fun l' => .bin .minus l' (.const val)
    else sl.bind fun l' => sr.map fun r' => .bin .minus l' r'
  | .mult =>
    if isConst l then
      (unwrap leftFirst l).bind fun val =>
        if Num.eqb val (Num.lit 0) then .ok (.const (Num.lit 0))
        else if Num.eqb val (Num.lit 1) then sr
        else sr.map fun r' => .bin .mult (.const val) r'
    else if isConst r then
      (unwrap leftFirst r).bind fun val =>
        if Num.eqb val (Num.lit 0) then .ok (.const (Num.lit 0))
        else if Num.eqb val (Num.lit 1) then sl
        else sl.map fun l' => .bin .mult l' (.const val)
    else
      match l, r with
      | .vec ls, .vec rs => dot ls rs
      | _, _ => sl.bind fun l' => sr.map fun r' => .bin .mult l' r'
  | .div =>
    if isConst l then
      (unwrap leftFirst l).bind fun val =>
        if Num.eqb val (Num.lit 0) then .ok (.const (Num.lit 0))
        else sr.map fun r' => .bin .div (.const val) r'
    else if isConst r then
      (unwrap leftFirst r).bind fun val =>
        if Num.eqb val (Num.lit 1) then sl else sl.map fun l' => .bin .div l' (.const val)
    else sl.bind fun l' => sr.map fun r' => .bin .div l' r'
  | .uid => .ok (.bin .uid l r)

/-- One pass of `simplify()`: default is a copy (expression_interface.hpp 68; used by constants,
variables, function symbols, and vectors, which define the unused name `optimize` instead,
vector_expr.hpp 192-210), unary_expr.hpp 214-228, binary_expr.hpp 312-319. -/
def simplify : Expr K → Res (Expr K)
  | .un op e =>
    if isConst e then
      (unwrap leftFirst e).bind fun c =>
        if op.canSimplify then (applyU op c).map .const else .ok (.un op (.const c))
    else (simplify e).map (.un op)
  | .integ lo hi x e =>
    if isConst e then (unwrap leftFirst e).map fun c => .integ lo hi x (.const c)
    else (simplify e).map (.integ lo hi x)
  | .bin op l r =>
    if isConst l && isConst r then (unwrap leftFirst (.bin op l r)).map .const
    else simpBin op l r (simplify l) (simplify r)
  | e => .ok e

/-- `if (e->is_constant()) { if (p(e->unwrap())) return true; } rest` -/
def constCheck (e : Expr K) (p : K → Bool) (rest : Res Bool) : Res Bool :=
  if isConst e then (unwrap leftFirst e).bind fun val => if p val then .ok true else rest
  else rest

/-- `can_simplify_impl(lhs, op, rhs)`, detail/binary_operations.hpp 80-99 (plus), 152-173 (minus),
237-275 (mult), 334-353 (div); default `false` for the ill-formed node (op_interface.hpp 70). -/
def canBin (op : BOp) (l r : Expr K) (cl cr : Res Bool) : Res Bool :=
  let either := cl.bind fun b => if b then .ok true else cr
  match op with
  | .plus =>
    constCheck l (fun val => Num.eqb val (Num.lit 0)) <|
    constCheck r (fun val => Num.eqb val (Num.lit 0)) either
  | .minus =>
    constCheck l (fun val => Num.eqb val (Num.lit 0)) <|
    constCheck r (fun val => Num.eqb val (Num.lit 0)) either
  | .mult =>
    constCheck l (fun val => Num.eqb val (Num.lit 0) || Num.eqb val (Num.lit 1)) <|
    constCheck r (fun val => Num.eqb val (Num.lit 0) || Num.eqb val (Num.lit 1)) <|
      match l, r with
      | .vec _, .vec _ => .ok true
      | _, _ => either
  | .div =>
    constCheck l (fun val => Num.eqb val (Num.lit 0)) <|
    constCheck r (fun val => Num.eqb val (Num.lit 1)) either
  | .uid => .ok false

/-- `can_simplify()`: default false, unary_expr.hpp 231-239, binary_expr.hpp 322-330. -/
def canSimplify : Expr K → Res Bool
  | .un _ e => canSimplify e
  | .integ _ _ _ e => canSimplify e
  | .bin op l r =>
    if isConst l && isConst r then .ok true else canBin op l r (canSimplify l) (canSimplify r)
  | _ => .ok false

/-- `while (e.get()->can_simplify()) e = e.get()->simplify();` (manipulation/simplify.hpp 907-911)
cut off after `n` passes: `none` means the loop is still running. -/
def simplifyLoop : Nat → Expr K → Option (Res (Expr K))
  | 0, _ => none
  | n + 1, e =>
    match canSimplify e with
    | .ok true =>
      match simplify e with
      | .ok e' => simplifyLoop n e'
      | .throw x => some (.throw x)
      | .ub => some .ub
    | .ok false => some (.ok e)
    | .throw x => some (.throw x)
    | .ub => some .ub

/-- The loop started on `e` ends with outcome `r`. -/
def Simplifies (e : Expr K) (r : Res (Expr K)) : Prop := ∃ n, simplifyLoop n e = some r

mutual
/-- A bound on the number of passes. -/
def weight : Expr K → Nat
  | .un _ e => weight e + 1
  | .integ _ _ _ e => weight e + 1
  | .bin .minus l r => weight l + weight r + 2
  | .bin _ l r => weight l + weight r + 1
  | .vec es => weightL es
  | _ => 0
/-- The same for the entries of a vector. -/
def weightL : List (Expr K) → Nat
  | [] => 0
  | e :: es => weight e + 1 + weightL es
end

/-- `inplace_simplify(e)` / `simplify(e)`, manipulation/simplify.hpp 907-911 and 939-963.  The loop is
run for enough passes; `Simplifies_simplified` shows that it has ended by then. -/
def simplified (e : Expr K) : Res (Expr K) :=
  match simplifyLoop (weight e + 1) e with
  | some r => r
  | none => .ub

end VM
