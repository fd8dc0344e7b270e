import Verif.Rt.LatexObj
/-
LaTeX translators as values: each has a list of processors of its own.
-/
namespace VM.Spec
variable {K P : Type}

/-- The library has a text for the expression: it has no vectors, and no name in it was replaced by the empty text. -/
def LatexKnown (t : Translator) : Expr K → Prop
  | .const _ => True
  | .var i => t.vars i ≠ some []
  | .fsym i g => t.syms i g ≠ some []
  | .un (.pd i) e => t.vars i ≠ some [] ∧ LatexKnown t e
  | .un _ e => LatexKnown t e
  | .integ lo hi x e => t.vars x ≠ some [] ∧ LatexKnown t lo ∧ LatexKnown t hi ∧ LatexKnown t e
  | .bin _ l r => LatexKnown t l ∧ LatexKnown t r
  | .vec _ => False

/-- The processors of each translator that is alive. -/
abbrev TVals (P : Type) := Nat → Option (List (Proc P))

def TVals.empty : TVals P := fun _ => none

/-- The program declares translators before it uses them, once. -/
def TLegal (v : TVals P) : TOp K P → Prop
  | .make t => v t = none
  | .copy t t' => v t = none ∧ v t' ≠ none
  | .assign t t' => v t ≠ none ∧ v t' ≠ none
  | .add t _ | .customize t _ _ | .print t _ _ | .destroy t => v t ≠ none

/-- The same step on values, for a translator with the processors `ps`. -/
def TVals.stepOn (fmt : K → Txt) (c : ProcClass K P) (v : TVals P) (ps : List (Proc P)) : TOp K P → TVals P × List Txt
  | .make t => (setAt v t (some TMem.initial), [])
  | .copy t _ => (setAt v t (some (ps.map (Proc.clone c))), [])
  | .assign t _ => (setAt v t (some ps), [])
  | .add t p => (setAt v t (some (ps ++ [.user p])), [])
  | .customize t e s => (setAt v t (some (ps.map (Proc.customize c e s))), [])
  | .print _ e flag => (v, [translate fmt c ps e flag])
  | .destroy t => (setAt v t none, [])

/-- The translator a step reads. -/
def TOp.source : TOp K P → Nat
  | .copy _ t | .assign _ t | .make t | .add t _ | .customize t _ _ | .print t _ _ | .destroy t => t

/-- A step on values. -/
def TVals.step (fmt : K → Txt) (c : ProcClass K P) (v : TVals P) (op : TOp K P) : TVals P × List Txt :=
  v.stepOn fmt c ((v (TOp.source op)).getD []) op

/-- A program on values. -/
def TVals.exec (fmt : K → Txt) (c : ProcClass K P) : TVals P → List (TOp K P) → TVals P × List Txt
  | v, [] => (v, [])
  | v, op :: ops =>
    let x := v.step fmt c op
    let y := TVals.exec fmt c x.1 ops
    (y.1, x.2 ++ y.2)

/-- All steps of the program are legal. -/
def TLegals (fmt : K → Txt) (c : ProcClass K P) : TVals P → List (TOp K P) → Prop
  | _, [] => True
  | v, op :: ops => TLegal v op ∧ TLegals fmt c (v.step fmt c op).1 ops

/-- All steps of the program are legal, and no translator is assigned to another one. -/
def TProgram (fmt : K → Txt) (c : ProcClass K P) : TVals P → List (TOp K P) → Prop
  | _, [] => True
  | v, op :: ops => TLegal v op ∧ (∀ t t', op = .assign t t' → t = t') ∧ TProgram fmt c (v.step fmt c op).1 ops

end VM.Spec
