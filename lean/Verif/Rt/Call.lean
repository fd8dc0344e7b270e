import Verif.Ct.EvalFn
/-
Evaluating an object directly: the call operators of the run-time classes and the function `eval` for them.
`none` means: does not compile.
-/
namespace VM
variable {K : Type} [Num K]

/-- The objects: numbers and the run-time classes with their contents.  An integral is an `rt_unary_expr`. -/
inductive RtObj (K : Type)
  | num (c : K)
  | long (n : Int)
  | int (n : Int)
  | const (c : K)
  | var (i : Nat)
  | fsym (i t : Nat)
  | un (op : UOp) (e : Expr K)
  | integ (lo hi : Expr K) (x : Nat) (e : Expr K)
  | bin (op : BOp) (l r : Expr K)
  | vec (es : List (Expr K))
  | expr (e : Expr K)

/-- `rt_expr<>(a)`, runtime/expr.hpp 51-119. -/
def RtObj.toExpr : RtObj K → Expr K
  | .num c => .const c
  | .long n => .const (Num.lit n)
  | .int n => .const (Num.lit n)
  | .const c => .const c
  | .var i => .var i
  | .fsym i t => .fsym i t
  | .un op e => .un op e
  | .integ lo hi x e => .integ lo hi x e
  | .bin op l r => .bin op l r
  | .vec es => .vec es
  | .expr e => e

/-- The second argument: a `double`; an `int` or `long`; an `rt_constant`; a `ct_constant`; a
`std::vector<double>`; an object of another class with `size()`, `[]` and `value_type`; a `ct_vector_1/2/3`. -/
inductive At (K : Type)
  | num (c : K)
  | integer (n : Int)
  | rtConst (c : K)
  | ctConst (n : Int)
  | std (v : List K)
  | other (v : List K)
  | ct (v : List (Ct.Entry K))

/-- The type exists: a compile-time vector has one to three entries. -/
def At.valid : At K → Bool
  | .ct v => 1 ≤ v.length && v.length ≤ 3
  | _ => true

/-- What a call does: it comes to an end, or `assert` stops the program. -/
inductive Ran (K : Type)
  | res (r : Res K)
  | abort

/-- `get_from_vector(v, i)`, runtime/variable.hpp 42-83: unchecked for classes with `[]`; the only entry of a
`ct_vector_1`; 0 beyond the end of a `ct_vector_2` or `ct_vector_3`. -/
def getFromVector (p : At K) (i : Nat) : Res K :=
  match p with
  | .std v =>
    match v[i]? with
    | some x => .ok x
    | none => .ub
  | .other v =>
    match v[i]? with
    | some x => .ok x
    | none => .ub
  | .ct [x] => .ok x.toNum
  | .ct [x, y] => if i = 0 then .ok x.toNum else if i = 1 then .ok y.toNum else .ok (Num.lit 0)
  | .ct [x, y, z] =>
    if i = 0 then .ok x.toNum else if i = 1 then .ok y.toNum else if i = 2 then .ok z.toNum else .ok (Num.lit 0)
  | _ => .ub

/-- `v.size()`. -/
def At.size : At K → Nat
  | .std v => v.length
  | .other v => v.length
  | .ct v => v.length
  | _ => 0

/-- `rt_variable::operator()`, runtime/variable.hpp 107-143.  For an integer the template for vectors (136-143)
is the better match, and an integer has no `size()`.  `nd`: compiled with `NDEBUG`, so without the `assert` of
line 109. -/
def callVar (nd : Bool) (i : Nat) : At K → Option (Ran K)
  | .num c => if i = 0 then some (.res (.ok c)) else if nd then some (.res (.ok c)) else some .abort
  | .integer _ => none
  | .rtConst c => some (.res (if 0 < i then .throw (.indexOutOfBounds i 0) else .ok c))
  | .ctConst n => some (.res (if 0 < i then .throw (.indexOutOfBounds i 0) else .ok (Num.lit n)))
  | .std v => some (.res (if v.length ≤ i then .throw (.indexOutOfBounds i v.length) else getFromVector (.std v) i))
  | .other v =>
    some (.res (if v.length ≤ i then .throw (.indexOutOfBounds i v.length) else getFromVector (.other v) i))
  | .ct v => some (.res (if v.length ≤ i then .throw (.indexOutOfBounds i v.length) else getFromVector (.ct v) i))

/-- The call operators of `rt_expr` (runtime/expr.hpp 206-265), `rt_binary_expr` (binary_expr.hpp 238-295) and
`rt_unary_expr` (unary_expr.hpp 132-196): the numbers are copied to a `std::vector<double>`.  Integers as above. -/
def callNode (o : Order K) (e : Expr K) : At K → Option (Ran K)
  | .num c => some (.res (evalS o c e))
  | .integer _ => none
  | .rtConst c => some (.res (evalS o c e))
  | .ctConst n => some (.res (evalS o (Num.lit n) e))
  | .std v => some (.res (eval o v e))
  | .other v => some (.res (eval o v e))
  | .ct [x] => some (.res (eval o [x.toNum] e))
  | .ct [x, y] => some (.res (eval o [x.toNum, y.toNum] e))
  | .ct [x, y, z] => some (.res (eval o [x.toNum, y.toNum, z.toNum] e))
  | .ct _ => none

/-- `a(p)`: the classes with a call operator; `rt_constant` takes anything (runtime/constant.hpp 56-60).
`rt_function_symbol` and `rt_vector_expr` have none. -/
def callObj (nd : Bool) (o : Order K) : RtObj K → At K → Option (Ran K)
  | .const c, _ => some (.res (.ok c))
  | .var i, p => callVar nd i p
  | .un op e, p => callNode o (.un op e) p
  | .integ lo hi x e, p => callNode o (.integ lo hi x e) p
  | .bin op l r, p => callNode o (.bin op l r) p
  | .expr e, p => callNode o e p
  | _, _ => none

/-- `eval(a, p)`, manipulation/eval.hpp 168-173 (`double`), 176-181 (`long`; for an `int` both are equally good),
184-190 (`rt_constant`), 197-239 (`rt_expr`, `rt_binary_expr`, `rt_unary_expr`, `rt_variable`: calls `e(v)`).  The
overload for compile-time expressions (148-155) is not there for run-time classes (34-38). -/
def evalObj (nd : Bool) (o : Order K) : RtObj K → At K → Option (Ran K)
  | .num c, _ => some (.res (.ok c))
  | .long n, _ => some (.res (.ok (Num.lit n)))
  | .const c, _ => some (.res (.ok c))
  | .var i, p => callVar nd i p
  | .un op e, p => callNode o (.un op e) p
  | .integ lo hi x e, p => callNode o (.integ lo hi x e) p
  | .bin op l r, p => callNode o (.bin op l r) p
  | .expr e, p => callNode o e p
  | _, _ => none

end VM
