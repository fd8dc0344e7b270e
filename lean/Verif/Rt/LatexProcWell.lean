import Verif.Rt.LatexWellLemmas
import Verif.Rt.LatexObj
namespace VM
open Spec
variable {K P : Type} {ex : List Txt}
namespace Tex

theorem fits_binaryTxt (op : BOp) (flag : Bool) {l r : Bool → Txt} (hl : ∀ b, Fits ex (l b)) (hr : ∀ b, Fits ex (r b)) :
    Fits ex (binaryTxt op flag l r) := by
  unfold binaryTxt
  by_cases hd : op = .div
  · rw [if_pos hd]
    intro st
    simp only [List.append_assoc]
    have hq : ∀ st st' c b, c.isAlpha = false → Runs ex st (c :: b) st' →
        Runs ex st (t!" \\frac{" ++ (l false ++ (t!"}{" ++ (r false ++ (t!"} " ++ (c :: b)))))) st' := by
      intro st st' c b hc hb
      refine Runs.wrap (st' := .brace :: st) (hl _) rfl rfl ?_
      exact Runs.wrap (a := t!"}{") (st' := .brace :: st) (hr _) rfl rfl
        (Runs.lit (a := t!"} ") (st' := st) rfl hb)
    cases flag with
    | true => exact Runs.lit (st' := .left '(' :: st) rfl (hq _ _ _ _ rfl ⟨none, rfl, trivial⟩)
    | false =>
      refine Runs.wrap (st' := .brace :: st) (hl _) rfl rfl ?_
      exact Runs.wrap (a := t!"}{") (st' := .brace :: st) (hr _) rfl rfl ⟨none, rfl, trivial⟩
  · rw [if_neg hd]
    simp only [List.append_assoc]
    cases op with
    | div => exact absurd rfl hd
    | plus => exact fits_bin (p := flag) (c := ' ') (m := t!"+ ") (hl _) rfl (fun _ => rfl) (hr _)
    | minus => exact fits_bin (p := flag) (c := ' ') (m := t!"- ") (hl _) rfl (fun _ => rfl) (hr _)
    | uid => exact fits_bin (p := flag) (c := ' ') (m := t!"id ") (hl _) rfl (fun _ => rfl) (hr _)
    | mult => exact fits_bin (p := flag) (c := ' ') (m := t!"\\cdot ") (hl _) rfl (fun _ => rfl) (hr _)

theorem fits_unaryTxt (op : UOp) (flag : Bool) {k : Bool → Txt} {var : Nat → Txt} (hk : ∀ b, Fits ex (k b))
    (hv : ∀ i, Fits ex (var i)) : Fits ex (unaryTxt op flag k var) := by
  have cmd : ∀ {u a : Txt} {t : Txt}, u = a ++ (t ++ t!" ") → Fits ex t →
      (∀ st, Reader.run ex ⟨st, none⟩ a = some ⟨st, none⟩) → Fits ex u := by
    intro u a t hu ht ha
    rw [hu]
    exact fits_cmd ht ha
  cases op with
  | fn f =>
    cases f
    case id => exact hk _
    case sqrt =>
      have h : unaryTxt (.fn .sqrt) flag k var = t!" \\sqrt{" ++ (k false ++ t!"} ") := by unfold unaryTxt; simp
      rw [h]
      exact fun st => Runs.wrap (st' := .brace :: st) (hk _) rfl rfl ⟨none, rfl, trivial⟩
    case fabs =>
      have h : unaryTxt (.fn .fabs) flag k var = t!" \\left|" ++ (k false ++ t!"\\right| ") := by unfold unaryTxt; simp
      rw [h]
      exact fun st => Runs.wrap (st' := .left '|' :: st) (hk _) rfl rfl ⟨none, rfl, trivial⟩
    case exp => exact cmd (a := t!" \\exp ") (by unfold unaryTxt; simp) (hk true) fun _ => rfl
    case sin => exact cmd (a := t!" \\sin ") (by unfold unaryTxt; simp) (hk true) fun _ => rfl
    case cos => exact cmd (a := t!" \\cos ") (by unfold unaryTxt; simp) (hk true) fun _ => rfl
    case tan => exact cmd (a := t!" \\tan ") (by unfold unaryTxt; simp) (hk true) fun _ => rfl
    case log => exact cmd (a := t!" \\ln ") (by unfold unaryTxt; simp) (hk true) fun _ => rfl
    case log10 => exact cmd (a := t!" \\log ") (by unfold unaryTxt; simp) (hk true) fun _ => rfl
  | grad => exact cmd (a := t!" \\nabla ") (by unfold unaryTxt; simp) (hk true) fun _ => rfl
  | divg => exact cmd (a := t!" \\nabla \\cdot ") (by unfold unaryTxt; simp) (hk true) fun _ => rfl
  | pd i =>
    have h : unaryTxt (.pd i) flag k var =
        t!" \\frac{\\partial " ++ (k true ++ (t!"}{\\partial " ++ (var i ++ t!"} "))) := by unfold unaryTxt; simp
    rw [h]
    intro st
    refine Runs.wrap (st' := .brace :: st) (hk _) rfl rfl ?_
    exact Runs.wrap (a := t!"}{\\partial ") (st' := .brace :: st) (hv i) rfl rfl ⟨none, rfl, trivial⟩
  | symInt i =>
    have h : unaryTxt (.symInt i) flag k var = t!" \\int_{\\Omega_{" ++ (idTxt i ++ (t!"}} " ++ (k false ++
        (t!"  \\: \\mathrm{d} \\Omega ")))) := by unfold unaryTxt; simp
    rw [h]
    intro st
    refine Runs.lit (st' := .brace :: .brace :: st) rfl (Runs.lit (id_run _ i) ?_)
    exact Runs.wrap (a := t!"}} ") (st' := st) (hk _) rfl rfl ⟨none, rfl, trivial⟩

theorem fits_integTxt {lo hi k : Bool → Txt} {x : Txt} (hl : ∀ b, Fits ex (lo b)) (hh : ∀ b, Fits ex (hi b))
    (hk : ∀ b, Fits ex (k b)) (hx : Fits ex x) : Fits ex (integTxt lo hi k x) := by
  have h : integTxt lo hi k x = t!" \\int_{ " ++ (t!" [ " ++ (lo false ++ (t!"; " ++ (hi false ++ (t!" ] " ++
      (t!" } " ++ (k false ++ (t!" " ++ (t!" \\: \\mathrm{d} " ++ (x ++ t!" ")))))))))) := by unfold integTxt; simp
  rw [h]
  intro st
  refine Runs.lit (st' := .brace :: st) rfl ?_
  refine Runs.wrap (st' := .bracket :: .brace :: st) (hl _) rfl rfl ?_
  refine Runs.wrap (a := t!"; ") (st' := .bracket :: .brace :: st) (hh _) rfl rfl ?_
  refine Runs.lit (a := t!" ] ") (st' := .brace :: st) rfl ?_
  refine Runs.wrap (st' := st) (hk _) rfl rfl ?_
  refine Runs.lit (a := t!" ") (st' := st) rfl ?_
  exact Runs.wrap (st' := st) hx rfl rfl ⟨none, rfl, trivial⟩

/-- What the processors of the list print for texts that fit, fits. -/
def ProcFits (ex : List Txt) (fmt : K → Txt) (c : ProcClass K P) (p : Proc P) : Prop :=
  ∀ cb flag (e : Expr K), (∀ k ∈ cb.kids, ∀ b, Fits ex (k b)) → (∀ i, Fits ex (cb.var i)) →
    Fits ex (p.process fmt c cb flag e)

theorem procFits {fmt : K → Txt} {c : ProcClass K P} (hf : ∀ v, Fits ex (fmt v)) (p : Proc P)
    (hv : ∀ names, p = .variable names → ∀ i s, names i = some s → Fits ex s)
    (hs : ∀ names, p = .symbol names → ∀ i g s, names i g = some s → Fits ex s)
    (hu : ∀ q, p = .user q → ProcFits ex fmt c (.user q)) : ProcFits ex fmt c p := by
  intro cb flag e hk hx
  cases p with
  | binary =>
    simp only [Proc.process]
    split
    · rename_i heq
      exact fits_binaryTxt _ _ (hk _ (by rw [heq]; simp)) (hk _ (by rw [heq]; simp))
    · exact Runs.nil
  | unary =>
    simp only [Proc.process]
    split
    · rename_i heq
      exact fits_unaryTxt _ _ (hk _ (by rw [heq]; simp)) hx
    · rename_i heq
      exact fits_integTxt (hk _ (by rw [heq]; simp)) (hk _ (by rw [heq]; simp)) (hk _ (by rw [heq]; simp)) (hx _)
    · exact Runs.nil
  | constant =>
    simp only [Proc.process]
    split
    · rw [List.append_assoc]
      exact fun st => Runs.wrap (hf _) rfl rfl ⟨none, rfl, trivial⟩
    · exact Runs.nil
  | «variable» names =>
    simp only [Proc.process]
    split
    · exact fits_var (t := ⟨names, fun _ _ => none⟩) (hv names rfl) _
    · exact Runs.nil
  | symbol names =>
    simp only [Proc.process]
    split
    · exact fits_sym (t := ⟨fun _ => none, names⟩) (hs names rfl) _ _
    · exact Runs.nil
  | user q => exact hu q rfl cb flag e hk hx

theorem firstTxt_fits (f : Proc P → Txt) (ps : List (Proc P)) (h : ∀ p ∈ ps, Fits ex (f p)) :
    Fits ex (firstTxt f ps) := by
  induction ps with
  | nil => exact fits_unknown
  | cons p ps ih =>
    rw [firstTxt]
    split
    · exact ih fun q hq => h q (List.mem_cons_of_mem _ hq)
    · exact h p List.mem_cons_self

theorem translate_fits {fmt : K → Txt} {c : ProcClass K P} {ps : List (Proc P)}
    (h : ∀ p ∈ ps, ProcFits ex fmt c p) (e : Expr K) : ∀ flag, Fits ex (translate fmt c ps e flag) := by
  have hvar : ∀ i, Fits ex (varTxt fmt c ps i) := fun i =>
    firstTxt_fits _ _ fun p hp => h p hp _ _ _ (by simp) fun _ => Runs.nil
  induction e using Expr.ind with
  | const v => intro flag; rw [translate]; exact firstTxt_fits _ _ fun p hp => h p hp _ _ _ (by simp) hvar
  | var i => intro flag; rw [translate]; exact firstTxt_fits _ _ fun p hp => h p hp _ _ _ (by simp) fun _ => Runs.nil
  | fsym i g => intro flag; rw [translate]; exact firstTxt_fits _ _ fun p hp => h p hp _ _ _ (by simp) hvar
  | un op e ih => intro flag; rw [translate]; exact firstTxt_fits _ _ fun p hp => h p hp _ _ _ (by simpa using ih) hvar
  | bin op l r ihl ihr =>
    intro flag; rw [translate]
    exact firstTxt_fits _ _ fun p hp => h p hp _ _ _
      (by simpa only [List.mem_cons, List.not_mem_nil, or_false, forall_eq_or_imp, forall_eq]
        using ⟨ihl, ihr⟩) hvar
  | integ lo hi x e ihl ihh ih =>
    intro flag; rw [translate]
    exact firstTxt_fits _ _ fun p hp => h p hp _ _ _
      (by simpa only [List.mem_cons, List.not_mem_nil, or_false, forall_eq_or_imp, forall_eq]
        using ⟨ihl, ihh, ih⟩) hvar
  | vec es ih =>
    intro flag; rw [translate]
    refine firstTxt_fits _ _ fun p hp => h p hp _ _ _ ?_ hvar
    show ∀ k ∈ translateL fmt c ps es, ∀ b, Fits ex (k b)
    induction es with
    | nil => simp [translateL]
    | cons e es ihe =>
      simp only [translateL, List.mem_cons, forall_eq_or_imp]
      exact ⟨ih e List.mem_cons_self, ihe fun a ha => ih a (List.mem_cons_of_mem _ ha)⟩

end Tex
end VM
