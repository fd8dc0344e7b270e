import Verif.Spec.Syntax
/-
Simplification from the leaves up: what the repeated passes of the simplifier should compute.
-/
namespace VM.Spec
variable {K : Type} [Num K]

/-- Two finished operands put together: constants are computed, neutral elements are dropped, a product
with zero and a quotient of zero are zero, `0 - x` is `(-1)*x`. -/
def combine : BOp → Expr K → Expr K → Expr K
  | .plus, .const a, .const b => .const (Num.add a b)
  | .minus, .const a, .const b => .const (Num.sub a b)
  | .mult, .const a, .const b => .const (Num.mul a b)
  | .div, .const a, .const b => .const (Num.div a b)
  | .plus, .const a, r => if Num.eqb a (Num.lit 0) then r else .bin .plus (.const a) r
  | .plus, l, .const b => if Num.eqb b (Num.lit 0) then l else .bin .plus l (.const b)
  | .minus, .const a, r => if Num.eqb a (Num.lit 0) then
      (if Num.eqb (Num.lit (-1) : K) (Num.lit 0) then .const (Num.lit 0)
       else if Num.eqb (Num.lit (-1) : K) (Num.lit 1) then r
       else .bin .mult (.const (Num.lit (-1))) r)
      else .bin .minus (.const a) r
  | .minus, l, .const b => if Num.eqb b (Num.lit 0) then l else .bin .minus l (.const b)
  | .mult, .const a, r => if Num.eqb a (Num.lit 0) then .const (Num.lit 0)
      else if Num.eqb a (Num.lit 1) then r else .bin .mult (.const a) r
  | .mult, l, .const b => if Num.eqb b (Num.lit 0) then .const (Num.lit 0)
      else if Num.eqb b (Num.lit 1) then l else .bin .mult l (.const b)
  | .div, .const a, r => if Num.eqb a (Num.lit 0) then .const (Num.lit 0) else .bin .div (.const a) r
  | .div, l, .const b => if Num.eqb b (Num.lit 1) then l else .bin .div l (.const b)
  | op, l, r => .bin op l r

/-- Every operation, from the leaves up, once. -/
def bottomUp : Expr K → Expr K
  | .un op e => .un op (bottomUp e)
  | .integ lo hi x e => .integ lo hi x (bottomUp e)
  | .bin op l r => combine op (bottomUp l) (bottomUp r)
  | e => e

/-- No part that is an operation comes out as an undefined constant, no mathematical function is
applied to something that comes out as a constant, and no two vectors are multiplied. -/
def Ordinary [SimpLaws K] (e : Expr K) : Prop :=
  (∀ op l r c, Sub (.bin op l r) e → bottomUp (.bin op l r) = .const c → ¬ SimpLaws.bad c) ∧
  (∀ f a c, Sub (.un (.fn f) a) e → bottomUp a ≠ .const c) ∧
  (∀ l r us vs, Sub (.bin .mult l r) e → bottomUp l = .vec us → bottomUp r ≠ .vec vs)

/-- `u1*v1 + u2*v2 + ...`, added from the left, of vectors of the same size. -/
def scalar : List (Expr K) → List (Expr K) → Option (Expr K)
  | u :: us, v :: vs => if us.length = vs.length then
      some ((us.zip vs).foldl (fun s p => .bin .plus s (.bin .mult p.1 p.2)) (.bin .mult u v)) else none
  | _, _ => none

/-- The sweep from the leaves up with products of vectors, which are written out and then swept; `Sweeps e x`: it
ends with `x`, and nothing extraordinary was met: no operation gave an undefined constant, and no mathematical
function was applied to a constant. -/
inductive Sweeps [SimpLaws K] : Expr K → Expr K → Prop
  | const (c) : Sweeps (.const c) (.const c)
  | var (i) : Sweeps (.var i) (.var i)
  | fsym (i t) : Sweeps (.fsym i t) (.fsym i t)
  | vec (es) : Sweeps (.vec es) (.vec es)
  | un {op e x} : Sweeps e x → (∀ f c, op = .fn f → x ≠ .const c) → Sweeps (.un op e) (.un op x)
  | integ (lo hi i) {e x} : Sweeps e x → Sweeps (.integ lo hi i e) (.integ lo hi i x)
  | bin {op l r y z x} : Sweeps l y → Sweeps r z → (∀ us vs, op = .mult → y = .vec us → z ≠ .vec vs) →
      x = combine op y z → (∀ c, x = .const c → ¬ SimpLaws.bad c) → Sweeps (.bin op l r) x
  | dot {l r us vs d x} : Sweeps l (.vec us) → Sweeps r (.vec vs) → scalar us vs = some d → Sweeps d x →
      Sweeps (.bin .mult l r) x

/-- The sweep from the leaves up ends, and meets nothing extraordinary. -/
def Tame [SimpLaws K] (e : Expr K) : Prop := ∃ x, Sweeps e x

/-- `e'` is `e` after simplifying some of its parts (operands, arguments, integrands), any number of
them, in any order; `S` tells what simplification does. -/
inductive PartsSimplified (S : Expr K → Expr K → Prop) : Expr K → Expr K → Prop
  | same (e) : PartsSimplified S e e
  | here {e e'} : S e e' → PartsSimplified S e e'
  | un (op) {e e'} : PartsSimplified S e e' → PartsSimplified S (.un op e) (.un op e')
  | integ (lo hi x) {e e'} : PartsSimplified S e e' →
      PartsSimplified S (.integ lo hi x e) (.integ lo hi x e')
  | bin (op) {l l' r r'} : PartsSimplified S l l' → PartsSimplified S r r' →
      PartsSimplified S (.bin op l r) (.bin op l' r')
  | again {e e' e''} : PartsSimplified S e e' → PartsSimplified S e' e'' → PartsSimplified S e e''

mutual
/-- Every variable replaced by an expression, nothing else changed (integration bounds and variables are
not touched, as the library does it). -/
def put (ρ : Nat → Expr K) : Expr K → Expr K
  | .const c => .const c
  | .var i => ρ i
  | .fsym i t => .fsym i t
  | .un op e => .un op (put ρ e)
  | .integ lo hi x e => .integ lo hi x (put ρ e)
  | .bin op l r => .bin op (put ρ l) (put ρ r)
  | .vec es => .vec (putL ρ es)
/-- The same for the entries of a vector. -/
def putL (ρ : Nat → Expr K) : List (Expr K) → List (Expr K)
  | [] => []
  | e :: es => put ρ e :: putL ρ es
end

/-- `r` for variable `i`. -/
def only (i : Nat) (r : Expr K) : Nat → Expr K := fun k => if k = i then r else .var k

/-- The `k`-th of `rs` for the `k`-th of the variables `is` (the first one, if a variable is repeated). -/
def pick : List Nat → List (Expr K) → Nat → Expr K
  | i :: is, r :: rs, k => if k = i then r else pick is rs k
  | _, _, k => .var k

/-- Variable `i` does not occur in a vector (the simplifier does not reach the entries of vectors). -/
def NotInVectors (i : Nat) (e : Expr K) : Prop := ∀ es, Sub (.vec es) e → ¬ Occurs i (.vec es)

end VM.Spec
