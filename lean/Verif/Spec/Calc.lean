import Verif.Spec.Heap
import Verif.Spec.Iterated
import Mathlib.Analysis.SpecialFunctions.Log.Base
import Mathlib.Analysis.SpecialFunctions.Trigonometric.Basic
/-
What programs with expression objects compute, said without expressions: every object is a real function of `n` variables.
-/
namespace VM.Spec
variable {n : ℕ}

/-- A real function of `n` variables with its domain; `name` tells that it was written as one of the variables. -/
structure RealFun (n : ℕ) where
  val : (Fin n → ℝ) → ℝ
  dom : Set (Fin n → ℝ)
  name : Option (Fin n)

/-- All objects that are alive, each either a function or nothing yet. -/
abbrev FunStore (n : ℕ) := Nat → Option (Option (RealFun n))

/-- The differentiable functions of the library and the sets on which they are. -/
noncomputable def mathFn : Fn → Option ((ℝ → ℝ) × Set ℝ)
  | .id => some (fun x => x, Set.univ)
  | .exp => some (Real.exp, Set.univ)
  | .sin => some (Real.sin, Set.univ)
  | .cos => some (Real.cos, Set.univ)
  | .tan => some (Real.tan, {x | Real.cos x ≠ 0})
  | .fabs => none
  | .sqrt => some (Real.sqrt, Set.Ioi 0)
  | .log => some (Real.log, Set.Ioi 0)
  | .log10 => some (Real.logb 10, Set.Ioi 0)

/-- The objects `rs`, as a whole, are the functions `fs`. -/
inductive HoldFuns (φ : FunStore n) : List Src → List (RealFun n) → Prop
  | nil : HoldFuns φ [] []
  | cons {i f rs fs} : φ i = some (some f) → HoldFuns φ rs fs → HoldFuns φ (⟨i, []⟩ :: rs) (f :: fs)

/-- The point with the values of `gs` in place of the variables `xs` (the first one, if a variable is repeated). -/
def replaceAt : List (Fin n) → List (RealFun n) → (Fin n → ℝ) → Fin n → ℝ
  | x :: xs, g :: gs, p => Function.update (replaceAt xs gs p) x (g.val p)
  | _, _, p => p

/-- What a right hand side computes. -/
inductive RhsFun (φ : FunStore n) : Rhs XReal → RealFun n → Prop
  | const (c : ℝ) : RhsFun φ (.leaf (.const (some c))) ⟨fun _ => c, Set.univ, none⟩
  | var (x : Fin n) : RhsFun φ (.leaf (.var x)) ⟨fun p => p x, Set.univ, some x⟩
  | copy {i f} : φ i = some (some f) → RhsFun φ (.copy ⟨i, []⟩) f
  | plus {i j f g} : φ i = some (some f) → φ j = some (some g) → RhsFun φ (.bin .plus ⟨i, []⟩ ⟨j, []⟩)
      ⟨fun p => f.val p + g.val p, f.dom ∩ g.dom, none⟩
  | minus {i j f g} : φ i = some (some f) → φ j = some (some g) → RhsFun φ (.bin .minus ⟨i, []⟩ ⟨j, []⟩)
      ⟨fun p => f.val p - g.val p, f.dom ∩ g.dom, none⟩
  | mult {i j f g} : φ i = some (some f) → φ j = some (some g) → RhsFun φ (.bin .mult ⟨i, []⟩ ⟨j, []⟩)
      ⟨fun p => f.val p * g.val p, f.dom ∩ g.dom, none⟩
  | div {i j f g} : φ i = some (some f) → φ j = some (some g) → RhsFun φ (.bin .div ⟨i, []⟩ ⟨j, []⟩)
      ⟨fun p => f.val p / g.val p, f.dom ∩ g.dom ∩ {p | g.val p ≠ 0}, none⟩
  | fn {h F D i f} : mathFn h = some (F, D) → φ i = some (some f) → RhsFun φ (.un (.fn h) ⟨i, []⟩)
      ⟨fun p => F (f.val p), f.dom ∩ {p | f.val p ∈ D}, none⟩
  | simplify {i f} : φ i = some (some f) → RhsFun φ (.simplify ⟨i, []⟩) f
  | diff {x : Fin n} {i f} : φ i = some (some f) →
      RhsFun φ (.diff (.var x) ⟨i, []⟩) ⟨partialDeriv x f.val, f.dom, none⟩
  | subst {s t r u g f} {x : Fin n} : φ s = some (some u) → u.name = some x → φ t = some (some g) →
      φ r = some (some f) → RhsFun φ (.subst ⟨s, []⟩ ⟨t, []⟩ ⟨r, []⟩)
      ⟨fun p => f.val (Function.update p x (g.val p)), {p | p ∈ g.dom ∧ Function.update p x (g.val p) ∈ f.dom}, none⟩
  | substMany {ss ts r us gs f} {xs : List (Fin n)} : HoldFuns φ ss us → us.map (·.name) = xs.map some →
      HoldFuns φ ts gs → xs.length = gs.length → φ r = some (some f) → RhsFun φ (.substMany ss ts ⟨r, []⟩)
      ⟨fun p => f.val (replaceAt xs gs p), {p | (∀ g ∈ gs, p ∈ g.dom) ∧ replaceAt xs gs p ∈ f.dom}, none⟩

def FunStore.set (φ : FunStore n) (i : Nat) (o : Option (Option (RealFun n))) : FunStore n :=
  fun j => if j = i then o else φ j

/-- What a statement computes. -/
inductive Calc (φ : FunStore n) : Stmt XReal → FunStore n → Prop
  | decl {i} : φ i = none → Calc φ (.decl i) (φ.set i (some none))
  | init {i rhs f} : φ i = none → RhsFun φ rhs f → Calc φ (.init i rhs) (φ.set i (some (some f)))
  | assign {i o rhs f} : φ i = some o → RhsFun φ rhs f → Calc φ (.assign i rhs) (φ.set i (some (some f)))
  | inplace {i f} : φ i = some (some f) → Calc φ (.inplace i) φ
  | destroy {i o} : φ i = some o → Calc φ (.destroy i) (φ.set i none)

/-- What a program computes. -/
inductive CalcAll : FunStore n → List (Stmt XReal) → FunStore n → Prop
  | nil {φ} : CalcAll φ [] φ
  | cons {φ c χ cs ψ} : Calc φ c χ → CalcAll χ cs ψ → CalcAll φ (c :: cs) ψ

def FunStore.empty : FunStore n := fun _ => none

end VM.Spec
