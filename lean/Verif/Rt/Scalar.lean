import Verif.Rt.Diff
import Verif.Rt.Subst
import Verif.Rt.Print
/-
Constants of other scalar types: `rt_constant<ScalarType>` with `double`, `float`, `int` or `long`
(runtime/constant.hpp 38-136; `tests/src/runtime_test.cpp` uses `rt_constant<long>`).  Everywhere else in the model
the scalar type is the numeric type; here it is kept, and the functions that depend on it are written out again.
-/
namespace VM

/-- An `rt_constant` with its scalar type, constant.hpp 38-43.  A `float` is given as the `double` of the same
value. -/
inductive Scalar (K : Type) where
  | dbl (x : K)
  | flt (x : K)
  | int (n : Int)
  | long (n : Int)
  deriving DecidableEq, Repr

namespace Scalar
variable {K : Type} [Num K]

/-- `return s;` in a function that returns the numeric type, constant.hpp 70, 72, 86. -/
def toNum : Scalar K → K
  | .dbl x => x
  | .flt x => x
  | .int n => Num.lit n
  | .long n => Num.lit n

/-- `deep_equal`, constant.hpp 113-120: the cast fails unless the scalar types are the same; then the numbers are
compared in that type.  The first argument is `*this`. -/
def equal : Scalar K → Scalar K → Bool
  | .dbl x, .dbl y => Num.eqb y x
  | .flt x, .flt y => Num.eqb y x
  | .int n, .int m => decide (m = n)
  | .long n, .long m => decide (m = n)
  | _, _ => false

/-- `new self_type(0)`, constant.hpp 131. -/
def zero : Scalar K → Scalar K
  | .dbl _ => .dbl (Num.lit 0)
  | .flt _ => .flt (Num.lit 0)
  | .int _ => .int 0
  | .long _ => .long 0

/-- `std::ostream << s`: `fmt` for `double` and `float` (both are printed with six digits), all digits for integers. -/
def txt (fmt : K → Txt) : Scalar K → Txt
  | .dbl x => fmt x
  | .flt x => fmt x
  | .int n => (toString n).toList
  | .long n => (toString n).toList

/-- What stands between the two blanks in LaTeX output: the processor for constants accepts only constants of the
numeric type (latex.hpp 416-439), no other processor accepts the rest (198-215). -/
def latexTxt (fmt : K → Txt) : Scalar K → Txt
  | .dbl x => fmt x
  | _ => t!"\\chi_{\\mathrm{unknown}}"

end Scalar

/-- Expressions whose constants have scalar types. -/
abbrev TExpr (K : Type) := Expr (Scalar K)

namespace Typed
variable {K : Type} [Num K]

/-- `eval(std::vector<double> const &)`, as `VM.eval`; constants: constant.hpp 70. -/
def eval (o : Order (Scalar K)) (v : List K) : TExpr K → Res K
  | .const c => .ok c.toNum
  | .var i =>
    match v[i]? with
    | some x => .ok x
    | none => .throw (.indexOutOfBounds i v.length)
  | .fsym _ _ => .throw .notEvaluable
  | .un op e => (eval o v e).bind (applyU op)
  | .integ _ _ _ e => (eval o v e).bind fun _ => .throw .analyticIntegration
  | .bin op l r => Res.both (o l r) (eval o v l) (eval o v r) (applyB op)
  | .vec _ => .throw .notEvaluable

/-- `eval(numeric_type)`, as `VM.evalS`; constants: constant.hpp 72. -/
def evalS (o : Order (Scalar K)) (s : K) : TExpr K → Res K
  | .const c => .ok c.toNum
  | .var i => if i > 0 then .throw (.indexOutOfBounds i 1) else .ok s
  | .fsym _ _ => .throw .notEvaluable
  | .un op e => (evalS o s e).bind (applyU op)
  | .integ _ _ _ e => (evalS o s e).bind fun _ => .throw .analyticIntegration
  | .bin op l r => Res.both (o l r) (evalS o s l) (evalS o s r) (applyB op)
  | .vec _ => .throw .notEvaluable

/-- `unwrap()`, as `VM.unwrap`; constants: constant.hpp 86. -/
def unwrap (o : Order (Scalar K)) : TExpr K → Res K
  | .const c => .ok c.toNum
  | .var _ => .throw .notUnwrappable
  | .fsym _ _ => .throw .notUnwrappable
  | .un op e => (unwrap o e).bind (applyU op)
  | .integ _ _ _ e => (unwrap o e).bind fun _ => .throw .analyticIntegration
  | .bin op l r => Res.both (o l r) (unwrap o l) (unwrap o r) (applyB op)
  | .vec _ => .throw .notUnwrappable

/-- A constant made by the library: `new rt_constant<NumericT, InterfaceType>(val)`, e.g.
detail/binary_operations.hpp 58. -/
def made (x : K) : TExpr K := .const (.dbl x)

/-- `simplify_impl(lhs, op, rhs)`, as `VM.simpBin`: detail/binary_operations.hpp 50-76, 118-148, 197-233, 304-330. -/
def simpBin (op : BOp) (l r : TExpr K) (sl sr : Res (TExpr K)) : Res (TExpr K) :=
  match op with
  | .plus =>
    if isConst l then
      (unwrap leftFirst l).bind fun val =>
        if Num.eqb val (Num.lit 0) then sr else sr.map fun r' => .bin .plus (made val) r'
    else if isConst r then
      (unwrap leftFirst r).bind fun val =>
        if Num.eqb val (Num.lit 0) then sl else sl.map fun l' => .bin .plus l' (made val)
    else sl.bind fun l' => sr.map fun r' => .bin .plus l' r'
  | .minus =>
    if isConst l then
      (unwrap leftFirst l).bind fun val =>
        if Num.eqb val (Num.lit 0) then sr.map fun r' => .bin .mult (made (Num.lit (-1))) r'
        else sr.map fun r' => .bin .minus (made val) r'
    else if isConst r then
      (unwrap leftFirst r).bind fun val =>
        if Num.eqb val (Num.lit 0) then sl else sl.map fun l' => .bin .minus l' (made val)
    else sl.bind fun l' => sr.map fun r' => .bin .minus l' r'
  | .mult =>
    if isConst l then
      (unwrap leftFirst l).bind fun val =>
        if Num.eqb val (Num.lit 0) then .ok (made (Num.lit 0))
        else if Num.eqb val (Num.lit 1) then sr
        else sr.map fun r' => .bin .mult (made val) r'
    else if isConst r then
      (unwrap leftFirst r).bind fun val =>
        if Num.eqb val (Num.lit 0) then .ok (made (Num.lit 0))
        else if Num.eqb val (Num.lit 1) then sl
        else sl.map fun l' => .bin .mult l' (made val)
    else
      match l, r with
      | .vec ls, .vec rs => dot ls rs
      | _, _ => sl.bind fun l' => sr.map fun r' => .bin .mult l' r'
  | .div =>
    if isConst l then
      (unwrap leftFirst l).bind fun val =>
        if Num.eqb val (Num.lit 0) then .ok (made (Num.lit 0))
        else sr.map fun r' => .bin .div (made val) r'
    else if isConst r then
      (unwrap leftFirst r).bind fun val =>
        if Num.eqb val (Num.lit 1) then sl else sl.map fun l' => .bin .div l' (made val)
    else sl.bind fun l' => sr.map fun r' => .bin .div l' r'
  | .uid => .ok (.bin .uid l r)

/-- One pass, as `VM.simplify`: the constants made are of the numeric type (unary_expr.hpp 219, 221,
binary_expr.hpp 315); a constant by itself is copied with its type (expression_interface.hpp 68). -/
def simplify : TExpr K → Res (TExpr K)
  | .un op e =>
    if isConst e then
      (unwrap leftFirst e).bind fun c =>
        if op.canSimplify then (applyU op c).map made else .ok (.un op (made c))
    else (simplify e).map (.un op)
  | .integ lo hi x e =>
    if isConst e then (unwrap leftFirst e).map fun c => .integ lo hi x (made c)
    else (simplify e).map (.integ lo hi x)
  | .bin op l r =>
    if isConst l && isConst r then (unwrap leftFirst (.bin op l r)).map made
    else simpBin op l r (simplify l) (simplify r)
  | e => .ok e

/-- As `VM.constCheck`. -/
def constCheck (e : TExpr K) (p : K → Bool) (rest : Res Bool) : Res Bool :=
  if isConst e then (unwrap leftFirst e).bind fun val => if p val then .ok true else rest
  else rest

/-- `can_simplify_impl(lhs, op, rhs)`, as `VM.canBin`: detail/binary_operations.hpp 80-99, 152-173, 237-275,
334-353. -/
def canBin (op : BOp) (l r : TExpr K) (cl cr : Res Bool) : Res Bool :=
  let either := cl.bind fun b => if b then .ok true else cr
  match op with
  | .plus =>
    constCheck l (fun val => Num.eqb val (Num.lit 0)) <|
    constCheck r (fun val => Num.eqb val (Num.lit 0)) either
  | .minus =>
    constCheck l (fun val => Num.eqb val (Num.lit 0)) <|
    constCheck r (fun val => Num.eqb val (Num.lit 0)) either
  | .mult =>
    constCheck l (fun val => Num.eqb val (Num.lit 0) || Num.eqb val (Num.lit 1)) <|
    constCheck r (fun val => Num.eqb val (Num.lit 0) || Num.eqb val (Num.lit 1)) <|
      match l, r with
      | .vec _, .vec _ => .ok true
      | _, _ => either
  | .div =>
    constCheck l (fun val => Num.eqb val (Num.lit 0)) <|
    constCheck r (fun val => Num.eqb val (Num.lit 1)) either
  | .uid => .ok false

/-- `can_simplify()`, as `VM.canSimplify`. -/
def canSimplify : TExpr K → Res Bool
  | .un _ e => canSimplify e
  | .integ _ _ _ e => canSimplify e
  | .bin op l r =>
    if isConst l && isConst r then .ok true else canBin op l r (canSimplify l) (canSimplify r)
  | _ => .ok false

/-- The loop, as `VM.simplifyLoop`: manipulation/simplify.hpp 907-911. -/
def simplifyLoop : Nat → TExpr K → Option (Res (TExpr K))
  | 0, _ => none
  | n + 1, e =>
    match canSimplify e with
    | .ok true =>
      match simplify e with
      | .ok e' => simplifyLoop n e'
      | .throw x => some (.throw x)
      | .ub => some .ub
    | .ok false => some (.ok e)
    | .throw x => some (.throw x)
    | .ub => some .ub

/-- `inplace_simplify(e)` / `simplify(e)`, as `VM.simplified`: manipulation/simplify.hpp 907-911, 939-963. -/
def simplified (e : TExpr K) : Res (TExpr K) :=
  match simplifyLoop (weight e + 1) e with
  | some r => r
  | none => .ub

mutual
/-- `deep_equal(other)`, as `VM.deepEq`; constants: constant.hpp 113-120. -/
def deepEq : TExpr K → TExpr K → Res Bool
  | .const c, .const d => .ok (c.equal d)
  | .var i, .var j => .ok (decide (j = i))
  | .fsym i t, .fsym j u => .ok (decide (j = i) && decide (u = t))
  | .un op e, .un op' e' => (deepEq e e').map fun b => b && UOp.equal op' op
  | .integ _ _ _ e, .integ _ _ _ e' => deepEq e e'
  | .un _ e, .integ _ _ _ e' => (deepEq e e').map fun _ => false
  | .integ _ _ _ e, .un _ e' => (deepEq e e').map fun _ => false
  | .bin op l r, .bin op' l' r' =>
    (deepEq l l').bind fun b =>
      if b && decide (op = op') then deepEq r r' else .ok false
  | .vec es, .vec fs => deepEqL es fs
  | _, _ => .ok false
/-- As `VM.deepEqL`. -/
def deepEqL : List (TExpr K) → List (TExpr K) → Res Bool
  | _, [] => .ok true
  | [], _ :: _ => .ub
  | e :: es, f :: fs => (deepEq e f).bind fun b => if b then deepEqL es fs else .ok false
end

/-- `diff_impl` of the mathematical functions, as `VM.diffFn`; the constants are made with the numeric type
(detail/unary_operations.hpp 194, 416, 569). -/
def diffFn (f : Fn) (e : TExpr K) (d : Res (TExpr K)) : Res (TExpr K) :=
  match f with
  | .id => d
  | .exp => d.map fun d => .bin .mult (.un (.fn .exp) e) d
  | .sin => d.map fun d => .bin .mult (.un (.fn .cos) e) d
  | .cos => d.map fun d => .bin .mult (.un (.fn .sin) e) (.bin .mult (made (Num.lit (-1))) d)
  | .tan => d.map fun d => .bin .div d (.bin .mult (.un (.fn .cos) e) (.un (.fn .cos) e))
  | .fabs => .throw .notDifferentiable
  | .sqrt => d.map fun d => .bin .div d (.bin .mult (made (Num.lit 2)) (.un (.fn .sqrt) e))
  | .log => d.map fun d => .bin .div d (.un (.fn .id) e)
  | .log10 => d.map fun d =>
      .bin .div d (.bin .mult (made (Num.fn .log (Num.lit 10))) (.un (.fn .id) e))

mutual
/-- `diff(diff_var)`, as `VM.diffE`: the derivative of a constant is a zero of the same scalar type (constant.hpp
129-132), that of a variable or function symbol is of the numeric type (variable.hpp 235-238, function_symbol.hpp
143-146), and the rule for gradients compares with a zero of the numeric type (detail/unary_operations.hpp 648-651). -/
def diffE (x : DVar) : TExpr K → Res (TExpr K)
  | .const c => .ok (.const c.zero)
  | .var i => .ok (made (Num.lit (if x = .var i then 1 else 0)))
  | .fsym i t =>
    match x with
    | .var _ => .throw .notDifferentiable
    | .fsym j u => .ok (made (Num.lit (if j = i ∧ u = t then 1 else 0)))
  | .un (.fn f) e => diffFn f e (diffE x e)
  | .un .grad e =>
    match x with
    | .var _ => .throw .notDifferentiable
    | .fsym _ _ => (diffE x e).bind fun d =>
        (deepEq d (made (Num.lit 0))).map fun b =>
          if b then made (Num.lit 0) else .un .grad d
  | .un .divg _ => .throw .notDifferentiable
  | .un (.pd _) _ => .throw .notDifferentiable
  | .un (.symInt _) _ => .throw .notDifferentiable
  | .integ _ _ _ _ => .throw .notDifferentiable
  | .bin op l r => diffBin op l r (diffE x l) (diffE x r)
  | .vec es => (diffEL x es).map .vec
/-- As `VM.diffEL`. -/
def diffEL (x : DVar) : List (TExpr K) → Res (List (TExpr K))
  | [] => .ok []
  | e :: es => (diffE x e).bind fun d => (diffEL x es).map (d :: ·)
end

/-- `diff(e, x)`, as `VM.diff`: manipulation/diff.hpp 39-111, 160-186. -/
def diff (x : DVar) (e : TExpr K) : Res (TExpr K) := (diffE x e).bind simplified

mutual
/-- `substitute(e, repl)` of the node classes, as `VM.substE`; constants: constant.hpp 89-97. -/
def substE (s r : TExpr K) : TExpr K → Res (TExpr K)
  | .const c => (deepEq (.const c) s).map fun b => if b then r else .const c
  | .var i => (deepEq (.var i) s).map fun b => if b then r else .var i
  | .fsym i t => (deepEq (.fsym i t) s).map fun b => if b then r else .fsym i t
  | .un op e => (deepEq (.un op e) s).bind fun b =>
      if b then .ok r else (substE s r e).map (.un op)
  | .integ lo hi x e => (deepEq (.integ lo hi x e) s).bind fun b =>
      if b then .ok r else (substE s r e).map (.integ lo hi x)
  | .bin op e f => (deepEq (.bin op e f) s).bind fun b =>
      if b then .ok r else (substE s r e).bind fun e' => (substE s r f).map (.bin op e')
  | .vec es => (deepEq (.vec es) s).bind fun b =>
      if b then .ok r else (substEL s r es).map .vec
/-- As `VM.substEL`. -/
def substEL (s r : TExpr K) : List (TExpr K) → Res (List (TExpr K))
  | [] => .ok []
  | e :: es => (substE s r e).bind fun e' => (substEL s r es).map (e' :: ·)
end

/-- `substitute(search, repl, e)`, as `VM.substitute`: manipulation/substitute.hpp 165-258. -/
def substitute (s r e : TExpr K) : Res (TExpr K) := (substE s r e).bind simplified

/-- `stream << e`, as `VM.exprStr`; constants: constant.hpp 78-83. -/
def exprStr (fmt : K → Txt) (e : TExpr K) : Txt := VM.exprStr (Scalar.txt fmt) e

/-- `rt_latex_translator::operator()(e)`, as `VM.latex`; constants: latex.hpp 416-439, 198-215. -/
def latex (fmt : K → Txt) (t : Translator) (p : Bool) (e : TExpr K) : Txt := VM.latex (Scalar.latexTxt fmt) t p e

end Typed
end VM
