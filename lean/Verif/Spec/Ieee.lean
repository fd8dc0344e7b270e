import Verif.NumIeee
import Verif.Rt.Eval
import Verif.Spec.Syntax
import Mathlib.Data.EReal.Inv
import Mathlib.Topology.Instances.EReal.Lemmas
/-
C77: evaluation with IEEE numbers.
-/
namespace VM.Spec
variable {R : Rounding}

/-- The same number, up to the sign of zero. -/
def SameNum (x y : Ieee R) : Prop := x = y ∨ (∃ s, x = .zero s) ∧ ∃ t, y = .zero t

/-- During the evaluation nothing is divided by zero. -/
def NoZeroDiv (o : Order (Ieee R)) (v : List (Ieee R)) (e : Expr (Ieee R)) : Prop :=
  ∀ l r, Sub (.bin .div l r) e → ∀ s, eval o v r ≠ .ok (.zero s)

/-- The number as an element of the arithmetic without infinities and signs of zero. -/
def SameFinite (x : Ieee R) (y : Fl R) : Prop :=
  match x with
  | .zero _ => y.val = some 0
  | .num x _ _ => y.val = some x
  | _ => False

/-- The same expression, with finite numbers as constants. -/
inductive SameExpr : Expr (Ieee R) → Expr (Fl R) → Prop
  | const {c d} : SameFinite c d → SameExpr (.const c) (.const d)
  | var (i : Nat) : SameExpr (.var i) (.var i)
  | fn {f e d} : SameExpr e d → SameExpr (.un (.fn f) e) (.un (.fn f) d)
  | bin {op l r m s} : IsArithOp op → SameExpr l m → SameExpr r s → SameExpr (.bin op l r) (.bin op m s)

/-- A number that is not NaN, as an extended real number. -/
noncomputable def extended : Ieee R → Option EReal
  | .nan => none
  | .inf s => some (if s then ⊥ else ⊤)
  | .zero _ => some 0
  | .num x _ _ => some x

/-- An extended real number rounded; what is too large becomes infinite. -/
noncomputable def roundedTo (R : Rounding) (z : EReal) : EReal :=
  if z = ⊤ ∨ z = ⊥ then z
  else match R.round z.toReal with
    | some y => y
    | none => if z < 0 then ⊥ else ⊤

/-- A minus sign: of the number, of the zero, of the infinity. -/
def Minus : Ieee R → Prop
  | .nan => False
  | .inf s => s = true
  | .zero s => s = true
  | .num x _ _ => x < 0

/-- The result is zero or infinite. -/
def Extreme (x : Ieee R) : Prop := (∃ s, x = .zero s) ∨ ∃ s, x = .inf s

/-- The mathematical function is defined where `l` leads to, and tends to `L`. -/
def LimitOf (f : Fn) (l : Filter ℝ) (L : EReal) : Prop :=
  ∃ g : ℝ → ℝ, (∀ᶠ x in l, XReal.fn f (some x) = some (g x)) ∧
    Filter.Tendsto (fun x => (g x : EReal)) l (nhds L)

end VM.Spec
