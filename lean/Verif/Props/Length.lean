import Verif.Rt.LengthLemmas
import Verif.Props.Latex
/-
C119: the length of printed texts.
-/
namespace VM.Props
open Spec
variable {K : Type}

/-- C119, LaTeX: besides the texts of numbers, variables, function symbols and symbolic intervals (which the user may have
chosen), at most 64 letters for each object. -/
theorem C119_latex (fmt : K → Txt) (t : Translator) (p : Bool) (e : Expr K) : (latex fmt t p e).length ≤
    labels (fun c => (fmt c).length) (fun i => (latexVar t i).length) (fun i g => (latexSym t i g).length)
      (fun k => (idTxt k).length) (fun _ => 0) e + 64 * size e := length_latex fmt t p e

/-- C119, plain text of an expression, and of an `expr` that holds it. -/
theorem C119_plain (fmt : K → Txt) (e : Expr K) :
    let l := labels (fun c => (fmt c).length) (fun i => (idTxt i).length) (fun i _ => (idTxt i).length)
      (fun k => (idTxt k).length) (fun n => (idTxt n).length) e
    (deepStr fmt e).length ≤ l + 64 * size e ∧ (exprStr fmt e).length ≤ l + 64 * size e := by
  have h1 := length_deepStr fmt e
  have h2 := length_wrapStr e.isUnary (deepStr fmt e)
  simp only [plainLabels] at h1
  simp only [exprStr]
  omega

/-- C119: at least one letter for each object. -/
theorem C119_plain_least (fmt : K → Txt) (e : Expr K) :
    size e ≤ (deepStr fmt e).length ∧ size e ≤ (exprStr fmt e).length := by
  have h1 := size_le_deepStr fmt e
  have h2 := le_length_wrapStr e.isUnary (deepStr fmt e)
  simp only [exprStr]
  omega

/-- C119, equations and intervals in LaTeX. -/
theorem C119_latex_pairs (fmt : K → Txt) (t : Translator) (a b : Expr K) :
    let l := labels (fun c => (fmt c).length) (fun i => (latexVar t i).length) (fun i g => (latexSym t i g).length)
      (fun k => (idTxt k).length) (fun _ => 0)
    (latexEq fmt t a b).length ≤ l a + l b + 64 * (size a + size b) + 8 ∧
    (latexInterval fmt t a b).length ≤ l a + l b + 64 * (size a + size b) + 8 := by
  have h1 := length_latex fmt t false a
  have h2 := length_latex fmt t false b
  simp [latexEq, latexInterval]
  omega

/-- C119, equations in plain text. -/
theorem C119_equation (fmt : K → Txt) (a b : Expr K) :
    let l := labels (fun c => (fmt c).length) (fun i => (idTxt i).length) (fun i _ => (idTxt i).length)
      (fun k => (idTxt k).length) (fun n => (idTxt n).length)
    (equationStr fmt a b).length ≤ l a + l b + 64 * (size a + size b) + 13 := by
  have h1 := (C119_plain fmt a).2
  have h2 := (C119_plain fmt b).2
  simp [equationStr]
  omega

/-- `x - (x - (... - x))`. -/
def minuses : Nat → Expr K
  | 0 => .var 0
  | n + 1 => .bin .minus (.var 0) (minuses n)

/-- C119, an exact length: nested parentheses cost two letters each, an operation with its spaces three and the variable
seven. -/
theorem C119_parentheses (fmt : K → Txt) (n : Nat) :
    (latex fmt .new true (minuses n : Expr K)).length = 12 * n + 7 ∧ size (minuses n : Expr K) = 2 * n + 1 := by
  have hv : ∀ p, latex fmt .new p (.var 0 : Expr K) = " x_{0} ".toList := by
    intro p; simp only [latex]; decide +kernel
  induction n with
  | zero => refine ⟨?_, rfl⟩; rw [minuses, hv]; rfl
  | succ n ih =>
    obtain ⟨h1, h2⟩ := ih
    refine ⟨?_, by simp only [minuses, size, h2]; omega⟩
    have hs : ∀ l r : Expr K, latex fmt .new true (.bin .minus l r) =
        '(' :: (latex fmt .new false l ++ (" - ".toList ++ (latex fmt .new true r ++ ")".toList))) := by
      intro l r
      rw [latex]
      · rw [orUnknown_of_ne (by simp)]
        simp [BOp.str]
      · simp
    have h3 : " x_{0} ".toList.length = 7 := by decide
    have h4 : " - ".toList.length = 3 := by decide
    have h5 : ")".toList.length = 1 := by decide
    rw [minuses, hs, hv]
    simp only [List.length_cons, List.length_append, h1, h3, h4, h5]
    omega

/-- The bounds on an expression with a function, a quotient and an integral, and on a name given by the user. -/
example : let e : Expr XRat := .integ (.const (some 0)) (.var 1) 0 (.bin .div (.un (.fn .exp) (.var 0)) (.fsym 0 1))
    labels (fun c => (showInt c).length) (fun i => (latexVar .new i).length) (fun i g => (latexSym .new i g).length)
      (fun k => (idTxt k).length) (fun _ => 0) e ≤ 40 ∧ size e ≤ 8 ∧ 40 < (latex showInt .new true e).length ∧
    40 < (exprStr showInt e).length := by decide +kernel

end VM.Props
