import Verif.Rt.Latex
import Verif.Rt.Print
import Verif.Spec.Size
import Verif.Spec.Labels
/-
Lengths of printed texts, for C119.
-/
namespace VM
open Spec
variable {K : Type}

theorem length_orUnknown (s : Txt) : (orUnknown s).length ≤ max s.length 25 := by
  unfold orUnknown
  split
  · have : " \\chi_{\\mathrm{unknown}} ".toList.length = 25 := by simp
    omega
  · omega

theorem orUnknown_length_le {s : Txt} {n : Nat} (h : max s.length 25 ≤ n) : (orUnknown s).length ≤ n :=
  Nat.le_trans (length_orUnknown s) h

theorem length_latex (fmt : K → Txt) (t : Translator) : ∀ (p : Bool) (e : Expr K), (latex fmt t p e).length ≤
    labels (fun c => (fmt c).length) (fun i => (latexVar t i).length) (fun i g => (latexSym t i g).length)
      (fun k => (idTxt k).length) (fun _ => 0) e + 64 * size e
  | p, .const c => by
    simp only [latex]; apply orUnknown_length_le
    simp only [List.length_append, labels, size]
    simp; omega
  | p, .var i => by
    simp only [latex]; apply orUnknown_length_le
    simp only [labels, size]; omega
  | p, .fsym i g => by
    simp only [latex]; apply orUnknown_length_le
    simp only [labels, size]; omega
  | p, .vec es => by
    simp only [latex]; apply orUnknown_length_le
    simp only [List.length_nil, size]; omega
  | p, .integ lo hi x e => by
    have h1 := length_latex fmt t false lo
    have h2 := length_latex fmt t false hi
    have h3 := length_latex fmt t false e
    have h4 := length_orUnknown (latexVar t x)
    simp only [latex]; apply orUnknown_length_le
    simp only [List.length_append, labels, size]
    simp; omega
  | p, .bin op l r => by
    have h1 := length_latex fmt t false l
    have h2 := length_latex fmt t false r
    have h3 := length_latex fmt t true l
    have h4 := length_latex fmt t true r
    cases op <;> cases p <;> simp only [latex] <;> apply orUnknown_length_le <;>
      simp only [List.length_append, labels, size] <;> simp [BOp.str] <;> omega
  | p, .un op e => by
    have h1 := length_latex fmt t true e
    have h2 := length_latex fmt t false e
    have h3 := length_latex fmt t p e
    cases op with
    | fn f =>
      cases f <;> simp only [latex] <;> apply orUnknown_length_le <;>
        simp only [List.length_append, labels, size] <;> (try simp) <;> omega
    | pd i =>
      have h4 := length_orUnknown (latexVar t i)
      simp only [latex]; apply orUnknown_length_le
      simp only [List.length_append, labels, size]; simp; omega
    | _ =>
      simp only [latex]; apply orUnknown_length_le
      simp only [List.length_append, labels, size]; simp; omega

theorem length_wrapStr (b : Bool) (s : Txt) : (wrapStr b s).length ≤ s.length + 6 := by
  cases b <;> simp [wrapStr] <;> omega

/-- The letters in the plain text. -/
abbrev plainLabels (fmt : K → Txt) (e : Expr K) : Nat :=
  labels (fun c => (fmt c).length) (fun i => (idTxt i).length) (fun i _ => (idTxt i).length)
    (fun k => (idTxt k).length) (fun n => (idTxt n).length) e

mutual
theorem length_deepStr (fmt : K → Txt) : ∀ e : Expr K, (deepStr fmt e).length + 6 ≤ plainLabels fmt e + 64 * size e
  | .const c => by simp [plainLabels, deepStr, labels, size]
  | .var i => by simp [plainLabels, deepStr, labels, size]
  | .fsym i g => by
    simp only [plainLabels, deepStr, labels, size]
    split
    · simp
    · split
      · simp
      · simp
  | .un op e => by
    have h := length_deepStr fmt e
    cases op with
    | fn f => cases f <;> simp [plainLabels, deepStr, labels, size, UOp.name] at h ⊢ <;> omega
    | _ => simp [plainLabels, deepStr, labels, size, UOp.name] at h ⊢; omega
  | .integ lo hi x e => by
    have h1 := length_deepStr fmt lo
    have h2 := length_deepStr fmt hi
    have h3 := length_deepStr fmt e
    have h4 := length_wrapStr lo.isUnary (deepStr fmt lo)
    have h5 := length_wrapStr hi.isUnary (deepStr fmt hi)
    simp [plainLabels, deepStr, labels, size] at h1 h2 h3 ⊢; omega
  | .bin op l r => by
    have h1 := length_deepStr fmt l
    have h2 := length_deepStr fmt r
    cases op <;> simp [plainLabels, deepStr, labels, size, BOp.str] at h1 h2 ⊢ <;> omega
  | .vec es => by
    have h := length_entriesStr fmt es
    simp [plainLabels, deepStr, labels, size] at h ⊢; omega
theorem length_entriesStr (fmt : K → Txt) : ∀ es : List (Expr K), (entriesStr fmt es).length ≤
    labelsL (fun c => (fmt c).length) (fun i => (idTxt i).length) (fun i _ => (idTxt i).length)
      (fun k => (idTxt k).length) (fun n => (idTxt n).length) es + 64 * sizes es
  | [] => by simp [entriesStr]
  | e :: es => by
    have h1 := length_deepStr fmt e
    have h2 := length_entriesStr fmt es
    have h3 := length_wrapStr e.isUnary (deepStr fmt e)
    have h4 : (if es.isEmpty then [] else t!", ").length ≤ 2 := by split <;> simp
    simp only [entriesStr, labelsL, sizes, List.length_append]
    simp only [plainLabels] at h1
    omega
end

theorem le_length_wrapStr (b : Bool) (s : Txt) : s.length + 1 ≤ (wrapStr b s).length := by
  cases b <;> simp [wrapStr] <;> omega

mutual
theorem size_le_deepStr (fmt : K → Txt) : ∀ e : Expr K, size e ≤ (deepStr fmt e).length
  | .const c => by simp [deepStr, size]
  | .var i => by simp [deepStr, size]
  | .fsym i g => by simp [deepStr, size]
  | .un op e => by
    have h := size_le_deepStr fmt e
    simp [deepStr, size]; omega
  | .integ lo hi x e => by
    have h1 := size_le_deepStr fmt lo
    have h2 := size_le_deepStr fmt hi
    have h3 := size_le_deepStr fmt e
    have h4 := le_length_wrapStr lo.isUnary (deepStr fmt lo)
    have h5 := le_length_wrapStr hi.isUnary (deepStr fmt hi)
    simp [deepStr, size]; omega
  | .bin op l r => by
    have h1 := size_le_deepStr fmt l
    have h2 := size_le_deepStr fmt r
    simp [deepStr, size]; omega
  | .vec es => by
    have h := sizes_le_entriesStr fmt es
    simp [deepStr, size]; omega
theorem sizes_le_entriesStr (fmt : K → Txt) : ∀ es : List (Expr K), sizes es ≤ (entriesStr fmt es).length
  | [] => by simp [sizes]
  | e :: es => by
    have h1 := size_le_deepStr fmt e
    have h2 := sizes_le_entriesStr fmt es
    have h3 := le_length_wrapStr e.isUnary (deepStr fmt e)
    simp only [entriesStr, sizes, List.length_append]
    omega
end

end VM
