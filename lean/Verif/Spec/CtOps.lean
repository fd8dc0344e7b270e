import Verif.Ct.Ops
/-
What the results of the operators mean: values in a field.
-/
namespace VM.Spec
open VM.Ct

section
variable {F : Type*} [Field F]

/-- `z` is the result of the plain operation on two numbers; division by zero has none. -/
def PlainOp : COp → F → F → F → Prop
  | .plus, x, y, z => z = x + y
  | .minus, x, y, z => z = x - y
  | .mult, x, y, z => z = x * y
  | .div, x, y, z => y ≠ 0 ∧ z = x / y

/-- Expression `e` has the value `x` at the point `v`, with values `φ` of the function symbols. -/
inductive MVal (v φ : Nat → F) : MixExpr F → F → Prop
  | const (n : Int) : MVal v φ (.const n) n
  | rc (c : F) : MVal v φ (.rc c) c
  | var (i : Nat) : MVal v φ (.var i) (v i)
  | fsym (t : Nat) : MVal v φ (.fsym t) (φ t)
  | bin {l r : MixExpr F} {op : COp} {x y z : F} :
      MVal v φ l x → MVal v φ r y → PlainOp op x y z → MVal v φ (.bin l op r) z

/-- What an operator returned has the value `x`. -/
inductive BVal (v φ : Nat → F) : Built F → F → Prop
  | ct {e : MixExpr F} {x : F} : MVal v φ e x → BVal v φ (.ct e) x
  | rt {l r : MixExpr F} {op : COp} {x y z : F} :
      MVal v φ l x → MVal v φ r y → PlainOp op x y z → BVal v φ (.rt l op r) z

/-- `result` has, wherever `a op b` is defined, the value of `a op b`. -/
def Computes (op : COp) (a b : MixExpr F) (result : Built F) : Prop :=
  ∀ (v φ : Nat → F) (x y z : F), MVal v φ a x → MVal v φ b y → PlainOp op x y z → BVal v φ result z

end

/-- No run-time constant inside. -/
def NoRtConst {F : Type*} : MixExpr F → Prop
  | .rc _ => False
  | .bin l _ r => NoRtConst l ∧ NoRtConst r
  | _ => True

/-- A run-time constant by itself. -/
def IsRtConst {F : Type*} (e : MixExpr F) : Prop := ∃ c, e = .rc c

/-- Made of compile-time constants and variables only. -/
inductive PlainTree {F : Type*} : MixExpr F → Prop
  | const (n) : PlainTree (.const n)
  | var (i) : PlainTree (.var i)
  | bin {l op r} : PlainTree l → PlainTree r → PlainTree (.bin l op r)

/-- The constant the expression begins with: `n`, `n + X` or `n - X`. -/
inductive Leads {F : Type*} : MixExpr F → Int → Prop
  | const (n) : Leads (.const n) n
  | plus (n x) : Leads (.bin (.const n) .plus x) n
  | minus (n x) : Leads (.bin (.const n) .minus x) n

end VM.Spec
