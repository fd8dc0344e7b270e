import Verif.Spec.Syntax
import Verif.Res
/-
Positions in expressions, and the order in which they should be visited.
-/
namespace VM.Spec
variable {K : Type}

/-- Call `f` on the nodes one after the other; stop at the first exception. -/
def callAll {σ : Type} (f : Expr K → σ → Res σ) : List (Expr K) → σ → Res σ
  | [], s => .ok s
  | e :: es, s => (f e s).bind (callAll f es)

/-- A step from a node to one of its children: left operand, right operand, argument. -/
inductive Dir where
  | left | right | arg
  deriving DecidableEq

/-- `At e p s`: the node of `e` at position `p` is `s`.  Entries of vectors and integration bounds have no
position. -/
inductive At : Expr K → List Dir → Expr K → Prop
  | here {e} : At e [] e
  | un {op e p s} : At e p s → At (.un op e) (.arg :: p) s
  | integ {lo hi x e p s} : At e p s → At (.integ lo hi x e) (.arg :: p) s
  | left {op l r p s} : At l p s → At (.bin op l r) (.left :: p) s
  | right {op l r p s} : At r p s → At (.bin op l r) (.right :: p) s

/-- Position `p` is to be visited before position `q`: left operand before the node before the right
operand, a unary node before its argument. -/
inductive Before : List Dir → List Dir → Prop
  | leftNode {p} : Before (.left :: p) []
  | nodeRight {p} : Before [] (.right :: p)
  | leftRight {p q} : Before (.left :: p) (.right :: q)
  | nodeArg {p} : Before [] (.arg :: p)
  | inside {d p q} : Before p q → Before (d :: p) (d :: q)

/-- A node without operands or argument as far as manipulation is concerned. -/
def IsLeaf : Expr K → Prop
  | .const _ | .var _ | .fsym _ _ | .vec _ => True
  | _ => False

/-- `e'` is `e` with every integral over symbolic interval `k`, wherever it occurs, turned into the integral
of the same integrand over `[lo, hi]` in variable `x`, and nothing else changed. -/
inductive IntervalReplaced (k : Nat) (lo hi : Expr K) (x : Nat) : Expr K → Expr K → Prop
  | const (c) : IntervalReplaced k lo hi x (.const c) (.const c)
  | var (i) : IntervalReplaced k lo hi x (.var i) (.var i)
  | fsym (i t) : IntervalReplaced k lo hi x (.fsym i t) (.fsym i t)
  | symInt {e e'} : IntervalReplaced k lo hi x e e' →
      IntervalReplaced k lo hi x (.un (.symInt k) e) (.integ lo hi x e')
  | un {op e e'} : op ≠ .symInt k → IntervalReplaced k lo hi x e e' →
      IntervalReplaced k lo hi x (.un op e) (.un op e')
  | integ (y) {a a' b b' e e'} : IntervalReplaced k lo hi x a a' → IntervalReplaced k lo hi x b b' →
      IntervalReplaced k lo hi x e e' → IntervalReplaced k lo hi x (.integ a b y e) (.integ a' b' y e')
  | bin (op) {l l' r r'} : IntervalReplaced k lo hi x l l' → IntervalReplaced k lo hi x r r' →
      IntervalReplaced k lo hi x (.bin op l r) (.bin op l' r')
  | vec {es es'} : es.length = es'.length →
      (∀ (j : Nat) e e', es[j]? = some e → es'[j]? = some e' → IntervalReplaced k lo hi x e e') →
      IntervalReplaced k lo hi x (.vec es) (.vec es')

/-- No integral over a symbolic interval anywhere. -/
inductive NoSymInt : Expr K → Prop
  | const (c : K) : NoSymInt (.const c)
  | var (i : Nat) : NoSymInt (.var i)
  | fsym (i t : Nat) : NoSymInt (.fsym i t)
  | un {op e} : (∀ id, op ≠ .symInt id) → NoSymInt e → NoSymInt (.un op e)
  | integ (x) {lo hi e} : NoSymInt lo → NoSymInt hi → NoSymInt e → NoSymInt (.integ lo hi x e)
  | bin (op) {l r} : NoSymInt l → NoSymInt r → NoSymInt (.bin op l r)
  | vec {es} : (∀ e ∈ es, NoSymInt e) → NoSymInt (.vec es)

/-- The only symbolic interval is `k`; no integral over it occurs inside another one, in a vector, or in the
bounds of an interval. -/
inductive OnlyInterval (k : Nat) : Expr K → Prop
  | const (c : K) : OnlyInterval k (.const c)
  | var (i : Nat) : OnlyInterval k (.var i)
  | fsym (i t : Nat) : OnlyInterval k (.fsym i t)
  | symInt {e} : NoSymInt e → OnlyInterval k (.un (.symInt k) e)
  | un {op e} : (∀ id, op ≠ .symInt id) → OnlyInterval k e → OnlyInterval k (.un op e)
  | integ (x) {lo hi e} : NoSymInt lo → NoSymInt hi → OnlyInterval k e → OnlyInterval k (.integ lo hi x e)
  | bin (op) {l r} : OnlyInterval k l → OnlyInterval k r → OnlyInterval k (.bin op l r)
  | vec {es} : (∀ e ∈ es, NoSymInt e) → OnlyInterval k (.vec es)

end VM.Spec
