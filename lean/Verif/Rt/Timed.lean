import Verif.Rt.Diff
import Verif.Rt.Subst
/-
How many calls of member functions a call makes, and how deep they are nested.  The functions here are those of Eval,
Equal, Simplify, Diff and Subst once more, counting the calls of `eval`, `is_constant`, `unwrap`, `deep_equal`, `can_simplify`, `simplify`, `diff` and
`substitute` on nodes.  Calls of `clone()` and of destructors are not counted: each `clone()` makes a request for
memory, and these are counted in C70.
-/
namespace VM

/-- An outcome, the number of calls that were made, and the largest number of them that were under way at the same
time, one inside the other. -/
structure Timed (α : Type) where
  val : Res α
  calls : Nat
  depth : Nat

namespace Timed
variable {α β γ : Type}

/-- No call. -/
def ret (r : Res α) : Timed α := ⟨r, 0, 0⟩

/-- One more call, inside which the others are made. -/
def tick (m : Timed α) : Timed α := ⟨m.val, m.calls + 1, m.depth + 1⟩

/-- Sequencing: what comes after an exception does not happen. -/
def bind (m : Timed α) (f : α → Timed β) : Timed β :=
  match m.val with
  | .ok a => ⟨(f a).val, m.calls + (f a).calls, max m.depth (f a).depth⟩
  | .throw x => ⟨.throw x, m.calls, m.depth⟩
  | .ub => ⟨.ub, m.calls, m.depth⟩

def map (f : α → β) (m : Timed α) : Timed β := m.bind fun a => ret (.ok (f a))

/-- Two calls whose results are the arguments of a third, in either order. -/
def both (first : Bool) (a : Timed α) (b : Timed β) (f : α → β → Res γ) : Timed γ :=
  if first then a.bind fun x => b.bind fun y => ret (f x y) else b.bind fun y => a.bind fun x => ret (f x y)

end Timed
open Timed
variable {K : Type} [Num K]

/-- `eval(std::vector<double> const &)`, as in `eval`. -/
def evalT (o : Order K) (v : List K) : Expr K → Timed K
  | .un op e => tick ((evalT o v e).bind fun x => ret (applyU op x))
  | .integ _ _ _ e => tick ((evalT o v e).bind fun _ => ret (.throw .analyticIntegration))
  | .bin op l r => tick (both (o l r) (evalT o v l) (evalT o v r) (applyB op))
  | e => tick (ret (eval o v e))

/-- `is_constant()`, binary_expr.hpp 366: the right operand is only asked if the left one is constant. -/
def isConstT : Expr K → Timed Bool
  | .const _ => tick (ret (.ok true))
  | .bin _ l r => tick ((isConstT l).bind fun b => if b then isConstT r else ret (.ok false))
  | _ => tick (ret (.ok false))

/-- `unwrap()`, as in `unwrap`. -/
def unwrapT (o : Order K) : Expr K → Timed K
  | .un op e => tick ((unwrapT o e).bind fun x => ret (applyU op x))
  | .integ _ _ _ e => tick ((unwrapT o e).bind fun _ => ret (.throw .analyticIntegration))
  | .bin op l r => tick (both (o l r) (unwrapT o l) (unwrapT o r) (applyB op))
  | e => tick (ret (unwrap o e))

mutual
/-- `deep_equal(other)`, as in `deepEq`. -/
def deepEqT : Expr K → Expr K → Timed Bool
  | .un op e, .un op' e' => tick ((deepEqT e e').map fun b => b && UOp.equal op' op)
  | .integ _ _ _ e, .integ _ _ _ e' => tick (deepEqT e e')
  | .un _ e, .integ _ _ _ e' => tick ((deepEqT e e').map fun _ => false)
  | .integ _ _ _ e, .un _ e' => tick ((deepEqT e e').map fun _ => false)
  | .bin op l r, .bin op' l' r' => tick <|
    (deepEqT l l').bind fun b => if b && decide (op = op') then deepEqT r r' else ret (.ok false)
  | .vec es, .vec fs => tick (deepEqLT es fs)
  | e, f => tick (ret (deepEq e f))
/-- The loop over the entries, vector_expr.hpp 144-146. -/
def deepEqLT : List (Expr K) → List (Expr K) → Timed Bool
  | _, [] => ret (.ok true)
  | [], _ :: _ => ret .ub
  | e :: es, f :: fs => (deepEqT e f).bind fun b => if b then deepEqLT es fs else ret (.ok false)
end

/-- `lhs->is_constant() && rhs->is_constant()`, binary_expr.hpp 314, 324 -/
def bothConstT (l r : Expr K) : Timed Bool := (isConstT l).bind fun b => if b then isConstT r else ret (.ok false)

/-- `simplify_impl(lhs, op, rhs)`, as in `simpBin`; `sl`, `sr` are the calls `lhs->simplify()`, `rhs->simplify()`. -/
def simpBinT (op : BOp) (l r : Expr K) (sl sr : Timed (Expr K)) : Timed (Expr K) :=
  match op with
  | .plus => (isConstT l).bind fun b =>
    if b then
      (unwrapT leftFirst l).bind fun val =>
        if Num.eqb val (Num.lit 0) then sr else sr.map fun r' => .bin .plus (.const val) r'
    else (isConstT r).bind fun b =>
    if b then
      (unwrapT leftFirst r).bind fun val =>
        if Num.eqb val (Num.lit 0) then sl else sl.map fun l' => .bin .plus l' (.const val)
    else sl.bind fun l' => sr.map fun r' => .bin .plus l' r'
  | .minus => (isConstT l).bind fun b =>
    if b then
      (unwrapT leftFirst l).bind fun val =>
        if Num.eqb val (Num.lit 0) then sr.map fun r' => .bin .mult (.const (Num.lit (-1))) r'
        else sr.map fun r' => .bin .minus (.const val) r'
    else (isConstT r).bind fun b =>
    if b then
      (unwrapT leftFirst r).bind fun val =>
        if Num.eqb val (Num.lit 0) then sl else sl.map fun l' => .bin .minus l' (.const val)
    else sl.bind fun l' => sr.map fun r' => .bin .minus l' r'
  | .mult => (isConstT l).bind fun b =>
    if b then
      (unwrapT leftFirst l).bind fun val =>
        if Num.eqb val (Num.lit 0) then ret (.ok (.const (Num.lit 0)))
        else if Num.eqb val (Num.lit 1) then sr
        else sr.map fun r' => .bin .mult (.const val) r'
    else (isConstT r).bind fun b =>
    if b then
      (unwrapT leftFirst r).bind fun val =>
        if Num.eqb val (Num.lit 0) then ret (.ok (.const (Num.lit 0)))
        else if Num.eqb val (Num.lit 1) then sl
        else sl.map fun l' => .bin .mult l' (.const val)
    else
      match l, r with
      | .vec ls, .vec rs => ret (dot ls rs)
      | _, _ => sl.bind fun l' => sr.map fun r' => .bin .mult l' r'
  | .div => (isConstT l).bind fun b =>
    if b then
      (unwrapT leftFirst l).bind fun val =>
        if Num.eqb val (Num.lit 0) then ret (.ok (.const (Num.lit 0)))
        else sr.map fun r' => .bin .div (.const val) r'
    else (isConstT r).bind fun b =>
    if b then
      (unwrapT leftFirst r).bind fun val =>
        if Num.eqb val (Num.lit 1) then sl else sl.map fun l' => .bin .div l' (.const val)
    else sl.bind fun l' => sr.map fun r' => .bin .div l' r'
  | .uid => ret (.ok (.bin .uid l r))

/-- One pass of `simplify()`, as in `simplify`. -/
def simplifyT : Expr K → Timed (Expr K)
  | .un op e => tick <| (isConstT e).bind fun b =>
    if b then
      (unwrapT leftFirst e).bind fun c =>
        if op.canSimplify then ret ((applyU op c).map .const) else ret (.ok (.un op (.const c)))
    else (simplifyT e).map (.un op)
  | .integ lo hi x e => tick <| (isConstT e).bind fun b =>
    if b then (unwrapT leftFirst e).map fun c => .integ lo hi x (.const c)
    else (simplifyT e).map (.integ lo hi x)
  | .bin op l r => tick <| (bothConstT l r).bind fun b =>
    if b then (unwrapT leftFirst (.bin op l r)).map .const
    else simpBinT op l r (simplifyT l) (simplifyT r)
  | e => tick (ret (.ok e))

/-- As in `constCheck`. -/
def constCheckT (e : Expr K) (p : K → Bool) (rest : Timed Bool) : Timed Bool :=
  (isConstT e).bind fun b =>
    if b then (unwrapT leftFirst e).bind fun val => if p val then ret (.ok true) else rest else rest

/-- `can_simplify_impl(lhs, op, rhs)`, as in `canBin`. -/
def canBinT (op : BOp) (l r : Expr K) (cl cr : Timed Bool) : Timed Bool :=
  match op with
  | .plus =>
    constCheckT l (fun val => Num.eqb val (Num.lit 0)) <|
    constCheckT r (fun val => Num.eqb val (Num.lit 0)) <| cl.bind fun b => if b then ret (.ok true) else cr
  | .minus =>
    constCheckT l (fun val => Num.eqb val (Num.lit 0)) <|
    constCheckT r (fun val => Num.eqb val (Num.lit 0)) <| cl.bind fun b => if b then ret (.ok true) else cr
  | .mult =>
    constCheckT l (fun val => Num.eqb val (Num.lit 0) || Num.eqb val (Num.lit 1)) <|
    constCheckT r (fun val => Num.eqb val (Num.lit 0) || Num.eqb val (Num.lit 1)) <|
      match l, r with
      | .vec _, .vec _ => ret (.ok true)
      | _, _ => cl.bind fun b => if b then ret (.ok true) else cr
  | .div =>
    constCheckT l (fun val => Num.eqb val (Num.lit 0)) <|
    constCheckT r (fun val => Num.eqb val (Num.lit 1)) <| cl.bind fun b => if b then ret (.ok true) else cr
  | .uid => ret (.ok false)

/-- `can_simplify()`, as in `canSimplify`. -/
def canSimplifyT : Expr K → Timed Bool
  | .un _ e => tick (canSimplifyT e)
  | .integ _ _ _ e => tick (canSimplifyT e)
  | .bin op l r => tick <| (bothConstT l r).bind fun b =>
    if b then ret (.ok true) else canBinT op l r (canSimplifyT l) (canSimplifyT r)
  | _ => tick (ret (.ok false))

/-- The loop of `inplace_simplify`, manipulation/simplify.hpp 907-911, cut off (`ub`) after `n` passes. -/
def simplifyLoopT : Nat → Expr K → Timed (Expr K)
  | 0, _ => ret .ub
  | n + 1, e => (canSimplifyT e).bind fun b =>
    if b then (simplifyT e).bind (simplifyLoopT n) else ret (.ok e)

/-- `simplify(e)`, as in `simplified`; the loop has ended by then. -/
def simplifiedT (e : Expr K) : Timed (Expr K) := simplifyLoopT (weight e + 1) e

/-- `diff_impl(lhs, op, rhs, diff_var)`, as in `diffBin`. -/
def diffBinT (op : BOp) (l r : Expr K) (dl dr : Timed (Expr K)) : Timed (Expr K) :=
  match op with
  | .uid => ret (.throw .rhsForUnary)
  | op => dl.bind fun l' => dr.bind fun r' => ret (diffBin op l r (.ok l') (.ok r'))

mutual
/-- `diff(diff_var)` of the node classes, as in `diffE`; the gradient (detail/unary_operations.hpp 641-664)
differentiates its argument twice. -/
def diffET (x : DVar) : Expr K → Timed (Expr K)
  | .un (.fn .fabs) _ => tick (ret (.throw .notDifferentiable))
  | .un (.fn f) e => tick ((diffET x e).bind fun d => ret (diffFn f e (.ok d)))
  | .un .grad e =>
    match x with
    | .var _ => tick (ret (.throw .notDifferentiable))
    | .fsym _ _ => tick <| (diffET x e).bind fun d =>
        (deepEqT d (.const (Num.lit 0))).bind fun b =>
          if b then ret (.ok (.const (Num.lit 0))) else (diffET x e).map (.un .grad)
  | .bin op l r => tick (diffBinT op l r (diffET x l) (diffET x r))
  | .vec es => tick ((diffELT x es).map .vec)
  | e => tick (ret (diffE x e))
/-- The loop over the entries, vector_expr.hpp 217-218. -/
def diffELT (x : DVar) : List (Expr K) → Timed (List (Expr K))
  | [] => ret (.ok [])
  | e :: es => (diffET x e).bind fun d => (diffELT x es).map (d :: ·)
end

/-- `diff(e, x)`, as in `diff`. -/
def diffT (x : DVar) (e : Expr K) : Timed (Expr K) := (diffET x e).bind simplifiedT

mutual
/-- `substitute(e, repl)` of the node classes, as in `substE`. -/
def substET (s r : Expr K) : Expr K → Timed (Expr K)
  | .un op e => tick <| (deepEqT (.un op e) s).bind fun b =>
      if b then ret (.ok r) else (substET s r e).map (.un op)
  | .integ lo hi x e => tick <| (deepEqT (.integ lo hi x e) s).bind fun b =>
      if b then ret (.ok r) else (substET s r e).map (.integ lo hi x)
  | .bin op e f => tick <| (deepEqT (.bin op e f) s).bind fun b =>
      if b then ret (.ok r) else (substET s r e).bind fun e' => (substET s r f).map (.bin op e')
  | .vec es => tick <| (deepEqT (.vec es) s).bind fun b =>
      if b then ret (.ok r) else (substELT s r es).map .vec
  | e => tick <| (deepEqT e s).map fun b => if b then r else e
/-- The loop over the entries, vector_expr.hpp 169-170. -/
def substELT (s r : Expr K) : List (Expr K) → Timed (List (Expr K))
  | [] => ret (.ok [])
  | e :: es => (substET s r e).bind fun e' => (substELT s r es).map (e' :: ·)
end

/-- `substitute(search, repl, e)`, as in `substitute`. -/
def substituteT (s r e : Expr K) : Timed (Expr K) := (substET s r e).bind simplifiedT

end VM
