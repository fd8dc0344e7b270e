import Verif.Rt.Expr
/-
Vocabulary of the specifications: which expressions a property talks about.
None of these predicates refers to the functions of the model.
-/
namespace VM.Spec
variable {K : Type}

/-- Variable `i` occurs in the expression (anywhere: in integration bounds, as integration variable and
in entries of vectors too). -/
inductive Occurs (i : Nat) : Expr K → Prop
  | var : Occurs i (.var i)
  | un {op e} : Occurs i e → Occurs i (.un op e)
  | integLo {lo hi x e} : Occurs i lo → Occurs i (.integ lo hi x e)
  | integHi {lo hi x e} : Occurs i hi → Occurs i (.integ lo hi x e)
  | integVar {lo hi e} : Occurs i (.integ lo hi i e)
  | integBody {lo hi x e} : Occurs i e → Occurs i (.integ lo hi x e)
  | binL {op l r} : Occurs i l → Occurs i (.bin op l r)
  | binR {op l r} : Occurs i r → Occurs i (.bin op l r)
  | vec {es e} : e ∈ es → Occurs i e → Occurs i (.vec es)

/-- The four arithmetic operators (everything but the ill-formed `uid`). -/
def IsArithOp (op : BOp) : Prop := op = .plus ∨ op = .minus ∨ op = .mult ∨ op = .div

/-- Built from constants, variables, mathematical functions and `+ - * /`. -/
inductive Arith : Expr K → Prop
  | const (c : K) : Arith (.const c)
  | var (i : Nat) : Arith (.var i)
  | fn (f : Fn) {e} : Arith e → Arith (.un (.fn f) e)
  | bin {op l r} : IsArithOp op → Arith l → Arith r → Arith (.bin op l r)

/-- Contains a function symbol, gradient, divergence, formal partial derivative, integral or vector
in a place where a number is needed. -/
inductive Symbolic : Expr K → Prop
  | fsym (i t : Nat) : Symbolic (.fsym i t)
  | grad (e) : Symbolic (.un .grad e)
  | divg (e) : Symbolic (.un .divg e)
  | pd (i : Nat) (e) : Symbolic (.un (.pd i) e)
  | symInt (id : Nat) (e) : Symbolic (.un (.symInt id) e)
  | integ (lo hi x e) : Symbolic (.integ lo hi x e)
  | vec (es) : Symbolic (.vec es)
  | un {op e} : Symbolic e → Symbolic (.un op e)
  | binL {op l r} : Symbolic l → Symbolic (.bin op l r)
  | binR {op l r} : Symbolic r → Symbolic (.bin op l r)

/-- Every binary node, anywhere, carries one of the four arithmetic operators.  All constructors,
operators and functions of the API build such expressions; only assigning a number to an
`rt_binary_expr` object does not (C24). -/
inductive WellFormed : Expr K → Prop
  | const (c : K) : WellFormed (.const c)
  | var (i : Nat) : WellFormed (.var i)
  | fsym (i t : Nat) : WellFormed (.fsym i t)
  | un (op) {e} : WellFormed e → WellFormed (.un op e)
  | integ {lo hi} (x) {e} : WellFormed lo → WellFormed hi → WellFormed e →
      WellFormed (.integ lo hi x e)
  | bin {op l r} : IsArithOp op → WellFormed l → WellFormed r → WellFormed (.bin op l r)
  | vec {es} : (∀ e ∈ es, WellFormed e) → WellFormed (.vec es)

/-- Constants combined with `+ - * /` only. -/
inductive ConstArith : Expr K → Prop
  | const (c : K) : ConstArith (.const c)
  | bin {op l r} : IsArithOp op → ConstArith l → ConstArith r → ConstArith (.bin op l r)

/-- All vectors in the expression have `n` entries. -/
inductive VecDim (n : Nat) : Expr K → Prop
  | const (c : K) : VecDim n (.const c)
  | var (i : Nat) : VecDim n (.var i)
  | fsym (i t : Nat) : VecDim n (.fsym i t)
  | un (op) {e} : VecDim n e → VecDim n (.un op e)
  | integ {lo hi} (x) {e} : VecDim n lo → VecDim n hi → VecDim n e → VecDim n (.integ lo hi x e)
  | bin (op) {l r} : VecDim n l → VecDim n r → VecDim n (.bin op l r)
  | vec {es} : es.length = n → (∀ e ∈ es, VecDim n e) → VecDim n (.vec es)

/-- `s` is a subexpression of `e` (operands and arguments; not entries of vectors, not integration
bounds). -/
inductive Sub (s : Expr K) : Expr K → Prop
  | refl : Sub s s
  | un {op e} : Sub s e → Sub s (.un op e)
  | integ {lo hi x e} : Sub s e → Sub s (.integ lo hi x e)
  | binL {op l r} : Sub s l → Sub s (.bin op l r)
  | binR {op l r} : Sub s r → Sub s (.bin op l r)

/-- `s` is a subexpression of `e`, entries of vectors included (not integration bounds). -/
inductive SubV (s : Expr K) : Expr K → Prop
  | refl : SubV s s
  | un {op e} : SubV s e → SubV s (.un op e)
  | integ {lo hi x e} : SubV s e → SubV s (.integ lo hi x e)
  | binL {op l r} : SubV s l → SubV s (.bin op l r)
  | binR {op l r} : SubV s r → SubV s (.bin op l r)
  | vec {es e} : e ∈ es → SubV s e → SubV s (.vec es)

/-- No integral (over a concrete or a symbolic interval) anywhere. -/
inductive NoInteg : Expr K → Prop
  | const (c : K) : NoInteg (.const c)
  | var (i : Nat) : NoInteg (.var i)
  | fsym (i t : Nat) : NoInteg (.fsym i t)
  | un {op e} : (∀ id, op ≠ .symInt id) → NoInteg e → NoInteg (.un op e)
  | bin (op) {l r} : NoInteg l → NoInteg r → NoInteg (.bin op l r)
  | vec {es} : (∀ e ∈ es, NoInteg e) → NoInteg (.vec es)

/-- Variable `i` is an integration variable or occurs in an integration bound, somewhere in the
expression (but not inside another bound). -/
inductive InInterval (i : Nat) : Expr K → Prop
  | lo {lo hi x e} : Occurs i lo → InInterval i (.integ lo hi x e)
  | hi {lo hi x e} : Occurs i hi → InInterval i (.integ lo hi x e)
  | var {lo hi e} : InInterval i (.integ lo hi i e)
  | integ {lo hi x e} : InInterval i e → InInterval i (.integ lo hi x e)
  | un {op e} : InInterval i e → InInterval i (.un op e)
  | binL {op l r} : InInterval i l → InInterval i (.bin op l r)
  | binR {op l r} : InInterval i r → InInterval i (.bin op l r)
  | vec {es e} : e ∈ es → InInterval i e → InInterval i (.vec es)

/-- Every constant (outside integration bounds) equals itself, i.e. is not NaN. -/
inductive NoNaN [Num K] : Expr K → Prop
  | const {c : K} : Num.eqb c c = true → NoNaN (.const c)
  | var (i : Nat) : NoNaN (.var i)
  | fsym (i t : Nat) : NoNaN (.fsym i t)
  | un (op) {e} : NoNaN e → NoNaN (.un op e)
  | integ (lo hi x) {e} : NoNaN e → NoNaN (.integ lo hi x e)
  | bin (op) {l r} : NoNaN l → NoNaN r → NoNaN (.bin op l r)
  | vec {es} : (∀ e ∈ es, NoNaN e) → NoNaN (.vec es)

/-- Operations a simplified expression should not contain: arithmetic on two constant operands,
`0+x`, `x+0`, `0-x`, `x-0`, `0*x`, `x*0`, `1*x`, `x*1`, `0/x`, `x/1`. -/
inductive Trivial [Num K] : Expr K → Prop
  | consts {op l r} : ConstArith l → ConstArith r → Trivial (.bin op l r)
  | plusL {c r} : Num.eqb c (Num.lit 0) = true → Trivial (.bin .plus (.const c) r)
  | plusR {c l} : Num.eqb c (Num.lit 0) = true → Trivial (.bin .plus l (.const c))
  | minusL {c r} : Num.eqb c (Num.lit 0) = true → Trivial (.bin .minus (.const c) r)
  | minusR {c l} : Num.eqb c (Num.lit 0) = true → Trivial (.bin .minus l (.const c))
  | multZeroL {c r} : Num.eqb c (Num.lit 0) = true → Trivial (.bin .mult (.const c) r)
  | multZeroR {c l} : Num.eqb c (Num.lit 0) = true → Trivial (.bin .mult l (.const c))
  | multOneL {c r} : Num.eqb c (Num.lit 1) = true → Trivial (.bin .mult (.const c) r)
  | multOneR {c l} : Num.eqb c (Num.lit 1) = true → Trivial (.bin .mult l (.const c))
  | divL {c r} : Num.eqb c (Num.lit 0) = true → Trivial (.bin .div (.const c) r)
  | divR {c l} : Num.eqb c (Num.lit 1) = true → Trivial (.bin .div l (.const c))

end VM.Spec
