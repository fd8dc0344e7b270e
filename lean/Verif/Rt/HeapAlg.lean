import Verif.Rt.Heap
import Verif.Rt.Diff
import Verif.Rt.Subst
import Verif.Rt.Traverse
/-
What `simplify`, `diff`, `substitute` do in memory: which nodes they create, copy and delete, and what is left
behind when they throw.

Functions that only read (`is_constant`, `unwrap`, `can_simplify`, `deep_equal`) are the functions on
expressions, applied to what is in memory; all of it has to be there.  The order in which C++ evaluates the
arguments of a constructor call is left to `o : Nat → Bool` (by the address of the node: left one first?).
-/
namespace VM
variable {K : Type} [Num K]
open Act Run

/-- A function that only reads, called on the node at an address. -/
def ask {β : Type} (q : Expr K → Res β) (a : Nat) : Act K β := look fun h => (load a h).bind q

/-- `new rt_constant(c)` -/
def newConst {K : Type} (c : K) : Act K Nat := new (.const c) []

/-- `new rt_unary_expr(f, new op)`; operators other than integrals own no nodes. -/
def newUn (op : UOp) (f : Act K Nat) : Act K Nat := do
  let a ← f
  new (.un op) [a]

/-- `new rt_binary_expr(f, new op, g)`; if the second argument throws, nothing deletes the first one. -/
def newBin (first : Bool) (op : BOp) (f g : Act K Nat) : Act K Nat :=
  if first then do
    let a ← f
    let b ← g
    new (.bin op) [a, b]
  else do
    let b ← g
    let a ← f
    new (.bin op) [a, b]

/-- `new rt_unary_expr(f, op_->clone())` where the operator is an integral, whose interval is copied
(integral.hpp, interval.hpp). -/
def newInteg (first : Bool) (lo hi x : Nat) (f : Act K Nat) : Act K Nat :=
  if first then do
    let a ← f
    let l ← clone lo
    let u ← clone hi
    new (.integ x) [l, u, a]
  else do
    let l ← clone lo
    let u ← clone hi
    let a ← f
    new (.integ x) [l, u, a]

/-- A scope in which local `rt_expr` objects own the trees at `as`: if `m` throws, their destructors run. -/
def owning {β : Type} (as : List Nat) (m : Act K β) : Act K β := fun h => match m h with
  | .throw x h' => match each delete as h' with
    | .ok _ h'' => .throw x h''
    | _ => .ub
  | r => r

/-- `rt_expr(ptr)` as a temporary whose value is copied: the copy stays, the temporary is destroyed. -/
def viaTemp (f : Act K Nat) : Act K Nat := do
  let a ← f
  let b ← owning [a] (clone a)
  delete a
  pure b

/-- `result = result + lhs[i] * rhs[i];`, vector_expr.hpp 273-274: the product and the sum are temporaries. -/
def dotFromA (o : Nat → Bool) (acc : Nat) : List Nat → List Nat → Act K Nat
  | l :: ls, r :: rs => do
    let p ← owning [acc] (newBin (o l) .mult (clone l) (clone r))
    let s ← owning [p, acc] (newBin (o p) .plus (clone acc) (clone p))
    let acc' ← owning [s, p, acc] (clone s)
    delete acc
    delete s
    delete p
    dotFromA o acc' ls rs
  | _, _ => pure acc

/-- `(*lhs_vec * *rhs_vec).get()->clone()`, detail/binary_operations.hpp 227 and vector_expr.hpp 267-277. -/
def dotA (o : Nat → Bool) : List Nat → List Nat → Act K Nat
  | l :: ls, r :: rs =>
    if ls.length = rs.length then viaTemp do
      let acc ← newBin (o l) .mult (clone l) (clone r)
      dotFromA o acc ls rs
    else look fun _ => .ub
  | _, _ => look fun _ => .ub

/-- `is_constant()` -/
def askConst (a : Nat) : Act K Bool := ask (fun e => .ok (isConst e)) a

/-- `simplify_impl(lhs, op, rhs)`, detail/binary_operations.hpp 50-76 (plus), 118-148 (minus), 197-233 (mult),
304-330 (div); binary_expr.hpp 464-471 for the ill-formed node.  `sl`, `sr` are the calls `lhs->simplify()`,
`rhs->simplify()`; `first`, `o` the order of evaluation. -/
def simpBinA (o : Nat → Bool) (first : Bool) (op : BOp) (l r : Nat) (sl sr : Act K Nat) : Act K Nat :=
  match op with
  | .plus => do
    if ← askConst l then
      let val ← ask (unwrap leftFirst) l
      if Num.eqb val (Num.lit 0) then sr else newBin first .plus (newConst val) sr
    else if ← askConst r then
      let val ← ask (unwrap leftFirst) r
      if Num.eqb val (Num.lit 0) then sl else newBin first .plus sl (newConst val)
    else newBin first .plus sl sr
  | .minus => do
    if ← askConst l then
      let val ← ask (unwrap leftFirst) l
      if Num.eqb val (Num.lit 0) then newBin first .mult (newConst (Num.lit (-1))) sr
      else newBin first .minus (newConst val) sr
    else if ← askConst r then
      let val ← ask (unwrap leftFirst) r
      if Num.eqb val (Num.lit 0) then sl else newBin first .minus sl (newConst val)
    else newBin first .minus sl sr
  | .mult => do
    if ← askConst l then
      let val ← ask (unwrap leftFirst) l
      if Num.eqb val (Num.lit 0) then newConst (Num.lit 0)
      else if Num.eqb val (Num.lit 1) then sr
      else newBin first .mult (newConst val) sr
    else if ← askConst r then
      let val ← ask (unwrap leftFirst) r
      if Num.eqb val (Num.lit 0) then newConst (Num.lit 0)
      else if Num.eqb val (Num.lit 1) then sl
      else newBin first .mult sl (newConst val)
    else
      let c ← cell l
      let d ← cell r
      match c.label, d.label with
      | .vec, .vec => dotA o c.kids d.kids
      | _, _ => newBin first .mult sl sr
  | .div => do
    if ← askConst l then
      let val ← ask (unwrap leftFirst) l
      if Num.eqb val (Num.lit 0) then newConst (Num.lit 0) else newBin first .div (newConst val) sr
    else if ← askConst r then
      let val ← ask (unwrap leftFirst) r
      if Num.eqb val (Num.lit 1) then sl else newBin first .div sl (newConst val)
    else newBin first .div sl sr
  | .uid => newBin first .uid (clone l) (clone r)

/-- `simplify()` of the node classes, as in `simplify`: unary_expr.hpp 214-228, binary_expr.hpp 312-319, otherwise
`clone()`.  The first argument bounds the depth. -/
def simplifyN (o : Nat → Bool) : Nat → Nat → Act K Nat
  | 0, _ => look fun _ => .ub
  | n + 1, a => do
    let c ← cell a
    match c.label, c.kids with
    | .un op, [k] =>
      if ← askConst k then
        let v ← ask (unwrap leftFirst) k
        if op.canSimplify then
          let w ← look fun _ => applyU op v
          newConst w
        else newUn op (newConst v)
      else newUn op (simplifyN o n k)
    | .integ x, [lo, hi, k] =>
      if ← askConst k then
        let v ← ask (unwrap leftFirst) k
        newInteg (o a) lo hi x (newConst v)
      else newInteg (o a) lo hi x (simplifyN o n k)
    | .bin op, [l, r] =>
      if (← askConst l) && (← askConst r) then
        let v ← ask (unwrap leftFirst) a
        newConst v
      else simpBinA o (o a) op l r (simplifyN o n l) (simplifyN o n r)
    | _, _ => clone a

def simplifyA (o : Nat → Bool) (a : Nat) : Act K Nat := simplifyN o (a + 1) a

/-- `while (e.get()->can_simplify()) e = e.get()->simplify();` on a local `rt_expr` that owns the tree at `a`,
manipulation/simplify.hpp 907-911 (the assignment deletes the old tree, expr.hpp 123-127); `n` bounds the number of
passes. -/
def loopA (o : Nat → Bool) : Nat → Nat → Act K Nat
  | 0, _ => look fun _ => .ub
  | n + 1, a => do
    if ← owning [a] (ask canSimplify a) then
      let a' ← owning [a] (simplifyA o a)
      delete a
      loopA o n a'
    else pure a

/-- `inplace_simplify` of a local `rt_expr`.  As in `simplified`, the bound on the number of passes is never
reached. -/
def simplifiedA (o : Nat → Bool) (a : Nat) : Act K Nat := do
  let n ← ask (fun e => .ok (weight e)) a
  loopA o (n + 1) a

/-- `diff_impl(e, op, diff_var)` of the mathematical functions, as in `diffFn`; `d` is the call
`e->diff(diff_var)`. -/
def diffFnA (first : Bool) (f : Fn) (e : Nat) (d : Act K Nat) : Act K Nat :=
  match f with
  | .id => d
  | .exp => newBin first .mult (newUn (.fn .exp) (clone e)) d
  | .sin => newBin first .mult (newUn (.fn .cos) (clone e)) d
  | .cos => newBin first .mult (newUn (.fn .sin) (clone e)) (newBin first .mult (newConst (Num.lit (-1))) d)
  | .tan => newBin first .div d
      (newBin first .mult (newUn (.fn .cos) (clone e)) (newUn (.fn .cos) (clone e)))
  | .fabs => look fun _ => .throw .notDifferentiable
  | .sqrt => newBin first .div d
      (newBin first .mult (newConst (Num.lit 2)) (newUn (.fn .sqrt) (clone e)))
  | .log => newBin first .div d (newUn (.fn .id) (clone e))
  | .log10 => newBin first .div d
      (newBin first .mult (newConst (Num.fn .log (Num.lit 10))) (newUn (.fn .id) (clone e)))

/-- `diff_impl(lhs, op, rhs, diff_var)`, as in `diffBin`. -/
def diffBinA (first : Bool) (op : BOp) (l r : Nat) (dl dr : Act K Nat) : Act K Nat :=
  match op with
  | .plus => newBin first .plus dl dr
  | .minus => newBin first .minus dl dr
  | .mult => newBin first .plus (newBin first .mult dl (clone r)) (newBin first .mult (clone l) dr)
  | .div => newBin first .div
      (newBin first .minus (newBin first .mult dl (clone r)) (newBin first .mult (clone l) dr))
      (newBin first .mult (clone r) (clone r))
  | .uid => look fun _ => .throw .rhsForUnary

/-- The loop over the entries of a vector, vector_expr.hpp 169-170, 217-218: each result is held by a temporary
`rt_expr` and copied.  (The vector under construction is not deleted when an entry throws.) -/
def entriesA (f : Nat → Act K Nat) : List Nat → Act K (List Nat)
  | [] => pure []
  | a :: as => do
    let b ← viaTemp (f a)
    let bs ← entriesA f as
    pure (b :: bs)

/-- `op_->diff(expr_, diff_var)` of a unary operator other than an integral, as in `diffE`; `d` is the call
`e->diff(diff_var)`.  The gradient (detail/unary_operations.hpp 641-664) differentiates its argument twice; the first
result is only deleted if it is zero. -/
def diffUnA (first : Bool) (x : DVar) (op : UOp) (e : Nat) (d : Act K Nat) : Act K Nat :=
  match op with
  | .fn f => diffFnA first f e d
  | .grad => match x with
    | .var _ => look fun _ => .throw .notDifferentiable
    | .fsym _ _ => do
      let c0 ← newConst (Num.lit 0)
      let d1 ← d
      if ← ask (fun e => deepEq e (.const (Num.lit 0))) d1 then
        delete d1
        pure c0
      else
        delete c0
        newUn .grad d
  | _ => look fun _ => .throw .notDifferentiable

/-- `diff(diff_var)` of the node classes, as in `diffE`. -/
def diffN (o : Nat → Bool) (x : DVar) : Nat → Nat → Act K Nat
  | 0, _ => look fun _ => .ub
  | n + 1, a => do
    let c ← cell a
    match c.label, c.kids with
    | .const _, _ => newConst (Num.lit 0)
    | .var i, _ => newConst (Num.lit (if x = .var i then 1 else 0))
    | .fsym i t, _ => match x with
      | .var _ => look fun _ => .throw .notDifferentiable
      | .fsym j u => newConst (Num.lit (if j = i ∧ u = t then 1 else 0))
    | .un op, [k] => diffUnA (o a) x op k (diffN o x n k)
    | .integ _, [_, _, _] => look fun _ => .throw .notDifferentiable
    | .bin op, [l, r] => diffBinA (o a) op l r (diffN o x n l) (diffN o x n r)
    | .vec, ks => do
      let es ← entriesA (diffN o x n) ks
      new .vec es
    | _, _ => look fun _ => .ub

def diffA (o : Nat → Bool) (x : DVar) (a : Nat) : Act K Nat := diffN o x (a + 1) a

/-- The search loop of `substitute(e[], repl[])`, e.g. variable.hpp 203-205, as in `findRepl`: `ss` read the searched
expressions, `rs` copy the replacements; `miss` is what follows the loop.  With one entry this is the test at the
beginning of `substitute(e, repl)`, e.g. variable.hpp 187-196. -/
def findA (a : Nat) (miss : Act K Nat) : List (Act K (Expr K)) → List (Act K Nat) → Act K Nat
  | [], _ => miss
  | s :: ss, rs => do
    let s' ← s
    if ← ask (fun e => deepEq e s') a then
      match rs with
      | [] => look fun _ => .ub
      | r :: _ => r
    else findA a miss ss rs.tail

/-- `substitute(e[], repl[])` of the node classes, as in `substM`, and, with one entry, `substitute(e, repl)`, as in
`substE`. -/
def substN (o : Nat → Bool) (ss : List (Act K (Expr K))) (rs : List (Act K Nat)) : Nat → Nat → Act K Nat
  | 0, _ => look fun _ => .ub
  | n + 1, a => do
    let c ← cell a
    findA a (match c.label, c.kids with
      | .un op, [k] => newUn op (substN o ss rs n k)
      | .integ x, [lo, hi, k] => newInteg (o a) lo hi x (substN o ss rs n k)
      | .bin op, [e, f] => newBin (o a) op (substN o ss rs n e) (substN o ss rs n f)
      | .vec, ks => do
        let es ← entriesA (substN o ss rs n) ks
        new .vec es
      | _, _ => clone a) ss rs

def substManyA (o : Nat → Bool) (ss : List (Act K (Expr K))) (rs : List (Act K Nat)) (a : Nat) : Act K Nat :=
  substN o ss rs (a + 1) a

def substA (o : Nat → Bool) (s : Act K (Expr K)) (r : Act K Nat) (a : Nat) : Act K Nat := substManyA o [s] [r] a

/-- The same for an `rt_binary_expr` object with operator `op` and operands `l`, `r`. -/
def substBinA (o : Nat → Bool) (s : Act K (Expr K)) (r : Act K Nat) (op : BOp) (e f : Nat) : Act K Nat := do
  let s' ← s
  let x ← ask .ok e
  let y ← ask .ok f
  if ← look fun _ => deepEq (.bin op x y) s' then r
  else newBin (o e) op (substA o s r e) (substA o s r f)

/-- The same for an `rt_unary_expr` object with operator `op` and operand `k`. -/
def substUnA (o : Nat → Bool) (s : Act K (Expr K)) (r : Act K Nat) (op : UOp) (k : Nat) : Act K Nat := do
  let s' ← s
  let x ← ask .ok k
  if ← look fun _ => deepEq (.un op x) s' then r
  else newUn op (substA o s r k)

/-- `recursive_manipulation` with the functor of manipulation/substitute.hpp 295-338, whose operator owns the
bounds at `lo`, `hi`; as in `manipulate`. -/
def manipN (o : Nat → Bool) (lo hi x : Nat) : Nat → Nat → Act K Nat
  | 0, _ => look fun _ => .ub
  | n + 1, a => do
    let c ← cell a
    match c.label, c.kids with
    | .un (.symInt _), [k] => newInteg (o a) lo hi x (clone k)
    | .un op, [k] => newUn op (manipN o lo hi x n k)
    | .integ y, [l, u, k] => newInteg (o a) l u y (manipN o lo hi x n k)
    | .bin op, [l, r] => newBin (o a) op (manipN o lo hi x n l) (manipN o lo hi x n r)
    | _, _ => clone a

def manipA (o : Nat → Bool) (lo hi x a : Nat) : Act K Nat := manipN o lo hi x (a + 1) a

end VM
