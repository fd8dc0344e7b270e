import Verif.Rt.HeapProg
import Verif.Rt.Quadrature
import Verif.Rt.LatexObj
/-
What numerical integration and the LaTeX translator do in memory: they only read their argument, but copy parts of it
on the way.
-/
namespace VM
variable {K : Type} [Num K] {β : Type}
open Act Run

/-- The number of levels of an expression, up to vectors. -/
def levels {K : Type} : Expr K → Nat
  | .un _ e => levels e + 1
  | .integ lo hi _ e => levels lo + levels hi + levels e + 1
  | .bin _ l r => levels l + levels r + 1
  | _ => 0

/-- A temporary `rt_expr` that owns what `f` makes, used by `k` and destroyed afterwards. -/
def withTemp (f : Act K Nat) (k : Nat → Act K β) : Act K β := do
  let a ← f
  let v ← owning [a] (k a)
  delete a
  pure v

/-- A function that only reads, called on two nodes. -/
def ask2 (q : Expr K → Expr K → Res β) (a b : Nat) : Act K β :=
  look fun h => (load a h).bind fun x => (load b h).bind fun y => q x y

/-- `(eval(interv.lower(), 0.0) + eval(interv.upper(), 0.0)) / 2.0`, numerical_quadrature.hpp 73-77. -/
def midpoint (o : Order K) (lo hi : Expr K) : Res K :=
  if isConst lo && isConst hi then
    Res.both (o lo hi) (evalS o (Num.lit 0) lo) (evalS o (Num.lit 0) hi)
      fun a b => .ok (Num.div (Num.add a b) (Num.lit 2))
  else .ub

/-- `rt_gauss_quad_1::eval`, numerical_quadrature.hpp 69-80, on the bounds at `lo`, `hi` and the integrand at `a`:
`tmp` owns the result of the substitution (substitute.hpp 188-198), and `interv.upper() - interv.lower()` is a
temporary.  Simplified: this temporary is made before `tmp` is unwrapped (C++ leaves that open). -/
def gaussA (o : Order K) (oh : Nat → Bool) (lo hi x a : Nat) : Act K K := do
  let m ← ask2 (midpoint o) lo hi
  withTemp (substA oh (pure (.var x)) (newConst m) a >>= simplifiedA oh) fun tmp =>
    withTemp (newBin (oh tmp) .minus (clone hi) (clone lo)) fun d =>
      ask2 (fun t w => Res.both (o t w) (unwrap o t) (evalS o (Num.lit 0) w) fun u v => .ok (Num.mul u v)) tmp d

/-- A quadrature rule in memory. -/
abbrev RuleA (K : Type) := Nat → Nat → Nat → Nat → Act K K

/-- The test for zero, numerical_quadrature.hpp 168-172. -/
def zeroCheckA (o : Order K) (a : Nat) (rest : Act K K) : Act K K := do
  if ← askConst a then
    let c ← ask (evalS o (Num.lit 0)) a
    if Num.eqb c (Num.lit 0) then pure (Num.lit 0) else rest
  else rest

/-- `(*this)(rt_expr(lhs->clone())) + (*this)(rt_expr(rhs->clone()))`, numerical_quadrature.hpp 184-186, 196-197: both
copies live until the end of the expression. -/
def bothA (first : Bool) (l r : Nat) (q : Nat → Act K K) (f : K → K → K) : Act K K :=
  if first then
    withTemp (clone l) fun l' => do
      let v ← q l'
      withTemp (clone r) fun r' => do
        let w ← q r'
        pure (f v w)
  else
    withTemp (clone r) fun r' => do
      let w ← q r'
      withTemp (clone l) fun l' => do
        let v ← q l'
        pure (f v w)

/-- `rt_numerical_quadrature::operator()(e)`, numerical_quadrature.hpp 131-206.  The first argument bounds the depth. -/
def quadN (o : Order K) (q : RuleA K) : Nat → Nat → Act K K
  | 0, _ => look fun _ => .ub
  | n + 1, a => do
    let c ← cell a
    match c.label, c.kids with
    | .integ x, [lo, hi, k] => withTemp (clone k) fun k' => q lo hi x k'
    | .un (.symInt _), _ => look fun _ => .ub
    | .un _, _ => look fun _ => .throw .noIntegral
    | .bin op, [l, r] => zeroCheckA o a do
      let first ← ask2 (fun x y => .ok (o x y)) l r
      match op with
      | .plus => bothA first l r (quadN o q n) Num.add
      | .minus => bothA first l r (quadN o q n) Num.sub
      | _ => look fun _ => .throw .noIntegral
    | _, _ => zeroCheckA o a (look fun _ => .throw .noIntegral)

/-- The same on the node at `a`; the bound on the depth is never reached. -/
def quadA (o : Order K) (q : RuleA K) (a : Nat) : Act K K := do
  let n ← ask (fun e => .ok (levels e)) a
  quadN o q (n + 1) a

/-- Whether the argument of a unary operator is printed in parentheses, latex.hpp 348-393. -/
def UOp.inner (flag : Bool) : UOp → Bool
  | .fn .id => flag
  | .fn .fabs | .fn .sqrt | .symInt _ => false
  | _ => true

/-- `process_impl` of the translator for the processors of the library, latex.hpp 141-167, 198-215, 254-291, 326-400,
on a node with the label `c` and the operands `ks`: the operands are copied at each level, the bounds of an integral
are not.  `rec` is the translator. -/
def latexNode (fmt : K → Txt) (t : Translator) (rec : Bool → Nat → Act K Txt) (flag : Bool) (c : Label K)
    (ks : List Nat) : Act K Txt :=
  match c, ks with
  | .bin op, [l, r] => withTemp (clone l) fun l' => withTemp (clone r) fun r' => do
    let s ← rec (op = .mult) l'
    let u ← rec (op = .mult || op = .minus) r'
    pure (orUnknown (binaryTxt op flag (fun _ => s) fun _ => u))
  | .un op, [k] => withTemp (clone k) fun k' => do
    let s ← rec (op.inner flag) k'
    pure (orUnknown (unaryTxt op flag (fun _ => s) fun i => orUnknown (latexVar t i)))
  | .integ x, [lo, hi, k] => withTemp (clone k) fun k' => do
    let s ← rec false lo
    let u ← rec false hi
    let v ← rec false k'
    pure (orUnknown (integTxt (fun _ => s) (fun _ => u) (fun _ => v) (orUnknown (latexVar t x))))
  | .const c, _ => pure (orUnknown (" ".toList ++ fmt c ++ " ".toList))
  | .var i, _ => pure (orUnknown (latexVar t i))
  | .fsym i g, _ => pure (orUnknown (latexSym t i g))
  | _, _ => pure (orUnknown [])

/-- The same for the node at an address.  The first argument bounds the depth. -/
def latexN (fmt : K → Txt) (t : Translator) : Nat → Bool → Nat → Act K Txt
  | 0, _, _ => look fun _ => .ub
  | n + 1, flag, a => do
    let c ← cell a
    latexNode fmt t (latexN fmt t n) flag c.label c.kids

/-- `operator()(e, use_parenthesis)`, latex.hpp 141-145; the bound on the depth is never reached. -/
def latexA (fmt : K → Txt) (t : Translator) (flag : Bool) (a : Nat) : Act K Txt := do
  let n ← ask (fun e => .ok (levels e)) a
  latexN fmt t (n + 1) flag a

/-- `operator()` for an expression of the program: an `rt_expr`, or an `rt_binary_expr` or `rt_unary_expr` (latex.hpp
147-148), which is not copied as a whole. -/
def latexRef (fmt : K → Txt) (t : Translator) (flag : Bool) : Ref → Act K Txt
  | .node a => latexA fmt t flag a
  | .whole op l r => latexNode fmt t (latexA fmt t) flag (.bin op) [l, r]
  | .single op k => latexNode fmt t (latexA fmt t) flag (.un op) [k]

/-- `operator()(rt_expr const &)` of the quadrature for an expression of the program: an `rt_binary_expr` or
`rt_unary_expr` is converted to a temporary `rt_expr` (expr.hpp 53-62). -/
def quadRef (o : Order K) (q : RuleA K) : Ref → Act K K
  | .node a => quadA o q a
  | x => withTemp x.clone (quadA o q)

/-- A call of the program that only reads an expression.  Simplified: operands deeper down are passed as they are,
where a program must wrap a copy in an `rt_expr`. -/
def readCall (f : Ref → Act K β) (r : Src) : Prog K β := do
  let x ← look fun s => s.ref r
  Prog.heap (f x)

end VM
