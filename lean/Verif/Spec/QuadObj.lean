import Verif.Rt.QuadObj
/-
Quadrature objects as values: each object is empty or holds a rule of its own.
-/
namespace VM.Spec
variable {K R : Type}

/-- `made` rules were made by the program; `kept p` is the `p`-th of them as long as it was not handed to an
object; `objs q` is the rule of the object `q` (`some none`: a default constructed object). -/
structure QVals (R : Type) where
  made : Nat
  kept : Nat → Option R
  objs : Nat → Option (Option R)

def QVals.empty : QVals R := ⟨0, fun _ => none, fun _ => none⟩

/-- The program declares objects before it uses them, once, and hands over each rule at most once. -/
def QLegal (v : QVals R) : QOp K R → Prop
  | .new _ => True
  | .ctor q => v.objs q = none
  | .ctorPtr q p => v.objs q = none ∧ v.kept p ≠ none
  | .copy q q' => v.objs q = none ∧ v.objs q' ≠ none
  | .assign q q' => v.objs q ≠ none ∧ v.objs q' ≠ none
  | .destroy q | .call q _ | .callOver q _ _ _ _ => v.objs q ≠ none

/-- What the rule of an object does; the rule of a default constructed object must not be used. -/
def QVals.rule (c : RuleClass K R) : Option R → Rule K
  | some r => c.run r
  | none => fun _ _ _ _ => .ub

/-- The same step on values.  Copying a default constructed object is undefined. -/
def QVals.step [Num K] (o : Order K) (c : RuleClass K R) (v : QVals R) : QOp K R → Option (QVals R × Option (Res K))
  | .new r => some ({ v with made := v.made + 1, kept := setAt v.kept v.made (some r) }, none)
  | .ctor q => some ({ v with objs := setAt v.objs q (some none) }, none)
  | .ctorPtr q p => some ({ v with kept := setAt v.kept p none, objs := setAt v.objs q (some (v.kept p)) }, none)
  | .copy q q' | .assign q q' => (v.objs q').bind fun s => s.map fun r =>
      ({ v with objs := setAt v.objs q (some (some (c.clone r))) }, none)
  | .destroy q => some ({ v with objs := setAt v.objs q none }, none)
  | .call q e => (v.objs q).bind fun s => (defined (quadOf o (QVals.rule c s) e)).map fun r => (v, some r)
  | .callOver q lo hi x e =>
      (v.objs q).bind fun s => (defined (quadOver (QVals.rule c s) lo hi x e)).map fun r => (v, some r)

/-- A program on values. -/
def QVals.exec [Num K] (o : Order K) (c : RuleClass K R) :
    QVals R → List (QOp K R) → Option (QVals R × List (Res K))
  | v, [] => some (v, [])
  | v, op :: ops => (v.step o c op).bind fun x => (QVals.exec o c x.1 ops).map fun y => (y.1, x.2.toList ++ y.2)

/-- All steps of the program are legal as long as nothing undefined happened. -/
def QProgram [Num K] (o : Order K) (c : RuleClass K R) : QVals R → List (QOp K R) → Prop
  | _, [] => True
  | v, op :: ops => QLegal v op ∧ ∀ x, v.step o c op = some x → QProgram o c x.1 ops

end VM.Spec
