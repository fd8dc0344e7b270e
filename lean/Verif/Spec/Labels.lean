import Verif.Rt.Expr
/-
What the text of an expression has to contain.
-/
namespace VM.Spec
variable {K : Type}

mutual
/-- The letters of all numbers, names and indices in an expression: `con`, `var`, `sym`, `dom` and `num` say how many
letters a constant, a variable, a function symbol, a symbolic interval and the size of a vector need. -/
def labels (con : K → Nat) (var : Nat → Nat) (sym : Nat → Nat → Nat) (dom num : Nat → Nat) : Expr K → Nat
  | .const c => con c
  | .var i => var i
  | .fsym i t => sym i t
  | .un (.pd i) e => var i + labels con var sym dom num e
  | .un (.symInt k) e => dom k + labels con var sym dom num e
  | .un _ e => labels con var sym dom num e
  | .integ lo hi x e =>
    labels con var sym dom num lo + labels con var sym dom num hi + var x + labels con var sym dom num e
  | .bin _ l r => labels con var sym dom num l + labels con var sym dom num r
  | .vec es => num es.length + labelsL con var sym dom num es
def labelsL (con : K → Nat) (var : Nat → Nat) (sym : Nat → Nat → Nat) (dom num : Nat → Nat) : List (Expr K) → Nat
  | [] => 0
  | e :: es => labels con var sym dom num e + labelsL con var sym dom num es
end

end VM.Spec
