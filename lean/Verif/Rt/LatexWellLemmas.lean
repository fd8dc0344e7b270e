import Verif.Rt.LatexLemmas
import Verif.Rt.Print
import Verif.Spec.LatexWell
namespace VM
open Spec
variable {K : Type}

namespace Tex
variable {ex : List Txt}

theorem run_append (s : Reader) (a b : Txt) : s.run ex (a ++ b) = (s.run ex a).bind (Reader.run ex · b) := by
  induction a generalizing s with
  | nil => rfl
  | cons c a ih =>
    rw [List.cons_append, Reader.run, Reader.run]
    cases s.step ex c with
    | none => rfl
    | some s' => exact ih s'

/-- What is read does not depend on what was open before. -/
theorem close_frame {o : Opened} {st st' : List Opened} {w : Option Txt} (u : List Opened)
    (h : o.close st = some ⟨st', w⟩) : o.close (st ++ u) = some ⟨st' ++ u, w⟩ := by
  cases st with
  | nil => cases h
  | cons o' st =>
    simp only [Opened.close, List.cons_append] at h ⊢
    split at h
    · rw [if_pos ‹_›]; cases h; rfl
    · cases h

theorem readChar_frame {st st' : List Opened} {c : Char} {w : Option Txt} (u : List Opened)
    (h : readChar st c = some ⟨st', w⟩) : readChar (st ++ u) c = some ⟨st' ++ u, w⟩ := by
  unfold readChar at h ⊢
  repeat' split at h
  all_goals first
    | (simp_all; done)
    | (have h' := close_frame u h; simp_all; done)
    | (cases h; simp_all)

theorem step_frame {s s' : Reader} {c : Char} (u : List Opened) (h : s.step ex c = some s') :
    Reader.step ex ⟨s.open' ++ u, s.word⟩ c = some ⟨s'.open' ++ u, s'.word⟩ := by
  obtain ⟨st, w⟩ := s
  obtain ⟨st', w'⟩ := s'
  cases w with
  | none => exact readChar_frame u h
  | some w =>
    simp only [Reader.step] at h ⊢
    split
    · rw [if_pos ‹_›] at h; cases h; rfl
    · rw [if_neg ‹_›] at h
      split
      · rw [if_pos ‹_›] at h
        split
        · rw [if_pos ‹_›] at h; cases h; rfl
        · rw [if_neg ‹_›] at h; cases h
      · rw [if_neg ‹_›] at h
        split
        · rw [if_pos ‹_›] at h
          split
          · rw [if_pos ‹_›] at h; cases h; rfl
          · rw [if_neg ‹_›] at h; cases h; rfl
        · rw [if_neg ‹_›] at h
          split
          · rw [if_pos ‹_›] at h
            split
            · rw [if_pos ‹_›] at h; cases h; rfl
            · rw [if_neg ‹_›] at h
              cases st with
              | nil => cases h
              | cons o st =>
                cases o with
                | left d =>
                  simp only [readRight, List.cons_append] at h ⊢
                  split at h
                  · rw [if_pos ‹_›]; cases h; rfl
                  · cases h
                | _ => cases h
          · rw [if_neg ‹_›] at h
            split
            · rw [if_pos ‹_›] at h; exact readChar_frame u h
            · rw [if_neg ‹_›] at h; cases h

theorem run_frame {s s' : Reader} {t : Txt} (u : List Opened) (h : s.run ex t = some s') :
    Reader.run ex ⟨s.open' ++ u, s.word⟩ t = some ⟨s'.open' ++ u, s'.word⟩ := by
  induction t generalizing s with
  | nil => cases h; rfl
  | cons c t ih =>
    rw [Reader.run, Option.bind_eq_some_iff] at h
    obtain ⟨s₁, h1, h2⟩ := h
    rw [Reader.run, step_frame u h1]
    exact ih h2

/-- Reads the text from one stack to another; the text may end there. -/
def Runs (ex : List Txt) (st : List Opened) (t : Txt) (st' : List Opened) : Prop :=
  ∃ w, Reader.run ex ⟨st, none⟩ t = some ⟨st', w⟩ ∧ MayEnd ex w

/-- A text that can be put anywhere. -/
def Fits (ex : List Txt) (t : Txt) : Prop := ∀ st, Runs ex st t st

theorem wellSet_iff (t : Txt) : WellSet ex t ↔ Runs ex [] t [] := by
  unfold WellSet Runs
  cases Reader.run ex ⟨[], none⟩ t with
  | none => simp
  | some r =>
    obtain ⟨st, w⟩ := r
    constructor
    · rintro ⟨rfl, h⟩; exact ⟨w, rfl, h⟩
    · rintro ⟨w', h, h'⟩; cases h; exact ⟨rfl, h'⟩

theorem fits_iff (t : Txt) : Fits ex t ↔ WellSet ex t := by
  rw [wellSet_iff]
  refine ⟨fun h => h [], fun ⟨w, h, hw⟩ st => ⟨w, ?_, hw⟩⟩
  exact run_frame st h

/-- A literal text before something. -/
theorem Runs.lit {st st' st'' : List Opened} {a b : Txt} (ha : Reader.run ex ⟨st, none⟩ a = some ⟨st', none⟩)
    (hb : Runs ex st' b st'') : Runs ex st (a ++ b) st'' := by
  obtain ⟨w, h, hw⟩ := hb
  exact ⟨w, by rw [run_append, ha]; exact h, hw⟩

theorem step_mayEnd {st : List Opened} {w : Option Txt} (hw : MayEnd ex w) {c : Char} (hc : c.isAlpha = false) :
    Reader.step ex ⟨st, w⟩ c = Reader.step ex ⟨st, none⟩ c := by
  cases w with
  | none => rfl
  | some w => simp [Reader.step, hc, hw.1, hw.2.1, hw.2.2.1, hw.2.2.2]

/-- Something before a text that does not start with a letter. -/
theorem Runs.seq {st st' st'' : List Opened} {a b : Txt} {c : Char} (ha : Runs ex st a st')
    (hc : c.isAlpha = false) (hb : Runs ex st' (c :: b) st'') : Runs ex st (a ++ (c :: b)) st'' := by
  obtain ⟨w, h, hw⟩ := ha
  obtain ⟨w', h', hw'⟩ := hb
  refine ⟨w', ?_, hw'⟩
  rw [run_append, h]
  rw [Reader.run] at h'
  rw [Option.bind_some, Reader.run, step_mayEnd hw hc]
  exact h'

theorem Runs.nil (st : List Opened) : Runs ex st [] st := ⟨none, rfl, trivial⟩

/-- A text between two literals. -/
theorem Runs.wrap {st st' st'' : List Opened} {a b t : Txt} {c : Char} (ht : Fits ex t)
    (ha : Reader.run ex ⟨st, none⟩ a = some ⟨st', none⟩) (hc : c.isAlpha = false) (hb : Runs ex st' (c :: b) st'') :
    Runs ex st (a ++ (t ++ (c :: b))) st'' := Runs.lit ha ((ht st').seq hc hb)

theorem digits_run (st : List Opened) (l : Txt) (h : ∀ c ∈ l, c.isDigit = true) :
    Reader.run ex ⟨st, none⟩ l = some ⟨st, none⟩ := by
  induction l with
  | nil => rfl
  | cons c l ih =>
    have hc : Reader.step ex ⟨st, none⟩ c = some ⟨st, none⟩ := by
      have h0 := h c List.mem_cons_self
      simp only [Reader.step, readChar]
      repeat' (rw [if_neg (by rintro rfl; exact absurd h0 (by decide))])
    rw [Reader.run, hc]
    exact ih fun d hd => h d (List.mem_cons_of_mem _ hd)

theorem id_run (st : List Opened) (i : Nat) : Reader.run ex ⟨st, none⟩ (idTxt i) = some ⟨st, none⟩ := by
  refine digits_run st _ fun c hc => ?_
  cases h : c.isDigit with
  | true => rfl
  | false => exact absurd hc (not_mem_idTxt h i)

theorem fits_unknown : Fits ex (" \\chi_{\\mathrm{unknown}} ".toList) := fun _ => ⟨none, rfl, trivial⟩

theorem fits_orUnknown {t : Txt} (h : Fits ex t) : Fits ex (orUnknown t) := by
  unfold orUnknown
  split
  · exact fits_unknown
  · exact h

theorem fits_var {t : Translator} (hv : ∀ i s, t.vars i = some s → Fits ex s) (i : Nat) : Fits ex (latexVar t i) := by
  unfold latexVar
  cases h : t.vars i with
  | some s => exact hv i s h
  | none =>
    intro st
    rw [List.append_assoc]
    exact Runs.lit (st' := .brace :: st) rfl (Runs.lit (id_run _ i) ⟨none, rfl, trivial⟩)

theorem fits_sym {t : Translator} (hs : ∀ i g s, t.syms i g = some s → Fits ex s) (i g : Nat) :
    Fits ex (latexSym t i g) := by
  unfold latexSym
  cases h : t.syms i g with
  | some s => exact hs i g s h
  | none =>
    intro st
    rw [List.append_assoc]
    by_cases hg : g = 1
    · rw [if_pos hg]
      exact Runs.lit (st' := .brace :: st) rfl (Runs.lit (id_run _ i) ⟨none, rfl, trivial⟩)
    · rw [if_neg hg]
      exact Runs.lit (st' := .brace :: st) rfl (Runs.lit (id_run _ i) ⟨none, rfl, trivial⟩)

section
variable {fmt : K → Txt} {t : Translator}

theorem fits_paren {p : Bool} {a : Txt} (ha : Fits ex a) :
    Fits ex ((if p then t!"(" else []) ++ (a ++ (if p then t!")" else []))) := by
  intro st
  cases p with
  | false => simpa using ha st
  | true => exact Runs.wrap (st' := .paren :: st) ha rfl rfl ⟨none, rfl, trivial⟩

theorem fits_mid {a b m : Txt} {c : Char} (ha : Fits ex a) (hc : c.isAlpha = false)
    (hm : ∀ st, Reader.run ex ⟨st, none⟩ (c :: m) = some ⟨st, none⟩) (hb : Fits ex b) : Fits ex (a ++ ((c :: m) ++ b)) := by
  intro st
  exact (ha st).seq hc (Runs.lit (hm st) (hb st))

/-- Text of the form the library writes for `op` between two operands. -/
theorem fits_bin {p : Bool} {a b m : Txt} {c : Char} (ha : Fits ex a) (hc : c.isAlpha = false)
    (hm : ∀ st, Reader.run ex ⟨st, none⟩ (c :: m) = some ⟨st, none⟩) (hb : Fits ex b) :
    Fits ex ((if p then t!"(" else []) ++ (a ++ ((c :: m) ++ (b ++ (if p then t!")" else []))))) := by
  have := fits_paren (p := p) (fits_mid ha hc hm hb)
  simpa using this

/-- A command with an operand. -/
theorem fits_cmd {a l : Txt} (ha : Fits ex a) (hl : ∀ st, Reader.run ex ⟨st, none⟩ l = some ⟨st, none⟩) :
    Fits ex (l ++ (a ++ t!" ")) := fun st => Runs.wrap ha (hl st) rfl ⟨none, rfl, trivial⟩

theorem fits_latex (hf : ∀ c, Fits ex (fmt c)) (hv : ∀ i s, t.vars i = some s → Fits ex s)
    (hs : ∀ i g s, t.syms i g = some s → Fits ex s) (e : Expr K) : ∀ p, Fits ex (latex fmt t p e) := by
  induction e using Expr.ind with
  | const c =>
    intro p
    rw [latex, List.append_assoc]
    exact fits_orUnknown fun st => Runs.wrap (hf c) rfl rfl ⟨none, rfl, trivial⟩
  | var i => intro p; rw [latex]; exact fits_orUnknown (fits_var hv i)
  | fsym i g => intro p; rw [latex]; exact fits_orUnknown (fits_sym hs i g)
  | vec es => intro p; rw [latex]; exact fits_orUnknown Runs.nil
  | bin op l r ihl ihr =>
    intro p
    cases op with
    | plus => rw [latex_plus]; exact fits_bin (ihl _) rfl (fun _ => rfl) (ihr _)
    | minus => rw [latex_minus]; exact fits_bin (ihl _) rfl (fun _ => rfl) (ihr _)
    | mult => rw [latex_mult]; exact fits_bin (ihl _) rfl (fun _ => rfl) (ihr _)
    | uid =>
      have h : latex fmt t p (.bin .uid l r) = orUnknown ((if p then t!"(" else []) ++ (latex fmt t false l ++
          (t!" id " ++ (latex fmt t false r ++ (if p then t!")" else []))))) := by
        rw [latex]
        · simp [BOp.str]
        · simp
      rw [h]; exact fits_orUnknown (fits_bin (ihl _) rfl (fun _ => rfl) (ihr _))
    | div =>
      rw [latex_div]
      have hq : ∀ st st' c b, c.isAlpha = false → Runs ex st (c :: b) st' →
          Runs ex st (t!" \\frac{" ++ (latex fmt t false l ++ (t!"}{" ++ (latex fmt t false r ++ (t!"} " ++
            (c :: b)))))) st' := by
        intro st st' c b hc hb
        refine Runs.wrap (st' := .brace :: st) (ihl _) rfl rfl ?_
        exact Runs.wrap (a := t!"}{") (st' := .brace :: st) (ihr _) rfl rfl
          (Runs.lit (a := t!"} ") (st' := st) rfl hb)
      intro st
      cases p with
      | true => exact Runs.lit (st' := .left '(' :: st) rfl (hq _ _ _ _ rfl ⟨none, rfl, trivial⟩)
      | false =>
        refine Runs.wrap (st' := .brace :: st) (ihl _) rfl rfl ?_
        exact Runs.wrap (a := t!"}{") (st' := .brace :: st) (ihr _) rfl rfl ⟨none, rfl, trivial⟩
  | un op e ih =>
    intro p
    cases op with
    | fn f =>
      cases f
      case id => rw [latex_id]; exact fits_orUnknown (ih _)
      case exp => rw [latex_exp]; exact fits_cmd (ih _) fun _ => rfl
      case sin => rw [latex_sin]; exact fits_cmd (ih _) fun _ => rfl
      case cos => rw [latex_cos]; exact fits_cmd (ih _) fun _ => rfl
      case tan => rw [latex_tan]; exact fits_cmd (ih _) fun _ => rfl
      case log => rw [latex_log]; exact fits_cmd (ih _) fun _ => rfl
      case log10 => rw [latex_log10]; exact fits_cmd (ih _) fun _ => rfl
      case sqrt =>
        rw [latex_sqrt]
        exact fun st => Runs.wrap (st' := .brace :: st) (ih _) rfl rfl ⟨none, rfl, trivial⟩
      case fabs =>
        rw [latex_fabs]
        exact fun st => Runs.wrap (st' := .left '|' :: st) (ih _) rfl rfl ⟨none, rfl, trivial⟩
    | grad => rw [latex_grad]; exact fits_cmd (ih _) fun _ => rfl
    | divg => rw [latex_divg]; exact fits_cmd (ih _) fun _ => rfl
    | pd i =>
      rw [latex]
      refine fits_orUnknown fun st => ?_
      simp only [List.append_assoc]
      refine Runs.wrap (st' := .brace :: st) (ih _) rfl rfl ?_
      exact Runs.wrap (a := t!"}{\\partial ") (st' := .brace :: st) (fits_orUnknown (fits_var hv i)) rfl rfl
        ⟨none, rfl, trivial⟩
    | symInt i =>
      rw [latex_symInt]
      intro st
      refine Runs.lit (st' := .brace :: .brace :: st) rfl (Runs.lit (id_run _ i) ?_)
      exact Runs.wrap (a := t!"}} ") (st' := st) (ih _) rfl rfl ⟨none, rfl, trivial⟩
  | integ lo hi x e ihl ihh ih =>
    intro p
    rw [latex]
    refine fits_orUnknown fun st => ?_
    simp only [List.append_assoc]
    refine Runs.lit (st' := .brace :: st) rfl ?_
    refine Runs.wrap (st' := .bracket :: .brace :: st) (ihl _) rfl rfl ?_
    refine Runs.wrap (a := t!"; ") (st' := .bracket :: .brace :: st) (ihh _) rfl rfl ?_
    refine Runs.lit (a := t!" ] ") (st' := .brace :: st) rfl ?_
    refine Runs.wrap (st' := st) (ih _) rfl rfl ?_
    refine Runs.lit (a := t!" ") (st' := st) rfl ?_
    exact Runs.wrap (st' := st) (fits_orUnknown (fits_var hv x)) rfl rfl ⟨none, rfl, trivial⟩

/-! ### The text written to a stream -/

theorem lit' {st st' : List Opened} {s : Option Reader} {a b : Txt} (ha : Reader.run ex ⟨st, none⟩ a = some ⟨st', none⟩)
    (hb : Reader.run ex ⟨st', none⟩ b = s) : Reader.run ex ⟨st, none⟩ (a ++ b) = s := by
  rw [run_append, ha]; exact hb

theorem seq' {st st' : List Opened} {s : Option Reader} {a b : Txt} {c : Char} (ha : Runs ex st a st')
    (hc : c.isAlpha = false) (hb : Reader.run ex ⟨st', none⟩ (c :: b) = s) :
    Reader.run ex ⟨st, none⟩ (a ++ (c :: b)) = s := by
  obtain ⟨w, h, hw⟩ := ha
  rw [run_append, h]
  rw [Reader.run] at hb
  rw [Option.bind_some, Reader.run, step_mayEnd hw hc]
  exact hb

theorem wrap' {st st' : List Opened} {s : Option Reader} {a b t : Txt} {c : Char} (ht : Fits ex t)
    (ha : Reader.run ex ⟨st, none⟩ a = some ⟨st', none⟩) (hc : c.isAlpha = false)
    (hb : Reader.run ex ⟨st', none⟩ (c :: b) = s) :
    Reader.run ex ⟨st, none⟩ (a ++ (t ++ (c :: b))) = s := lit' ha (seq' (ht st') hc hb)

/-- A text that can be put anywhere and does not end in a command. -/
def Firm (ex : List Txt) (t : Txt) : Prop := ∀ st, Reader.run ex ⟨st, none⟩ t = some ⟨st, none⟩

theorem Firm.fits {t : Txt} (h : Firm ex t) : Fits ex t := fun st => ⟨none, h st, trivial⟩

theorem firm_mid {a b m : Txt} {c : Char} (ha : Fits ex a) (hc : c.isAlpha = false) (hm : Firm ex (c :: m)) (hb : Firm ex b) :
    Firm ex (a ++ ((c :: m) ++ b)) := fun st => seq' (ha st) hc (lit' (hm st) (hb st))

theorem firm_wrapStr {a : Txt} (h : Firm ex a) (u : Bool) : Firm ex (wrapStr u a) := by
  intro st
  cases u with
  | false => exact lit' (a := t!"expr") (st' := st) rfl (h st)
  | true => exact wrap' (a := t!"expr(") (st' := .paren :: st) h.fits rfl rfl rfl

theorem name_run (op : UOp) (st : List Opened) : Reader.run ex ⟨st, none⟩ op.name = some ⟨st, none⟩ := by
  cases op with
  | fn f => cases f <;> rfl
  | grad => rfl
  | divg => rfl
  | pd i => exact lit' (a := t!"partial_deriv<") (st' := st) rfl (lit' (id_run _ i) rfl)
  | symInt i =>
    rw [UOp.name]
    simp only [List.append_assoc]
    exact lit' (st' := .bracket :: st) rfl (lit' (st' := .bracket :: .bracket :: st) rfl (lit' (id_run _ i) rfl))

theorem firm_deepStr (hf : ∀ c, Fits ex (fmt c)) (e : Expr K) : Firm ex (deepStr fmt e) := by
  induction e using Expr.ind with
  | const c => rw [deepStr]; exact fun st => wrap' (st' := .paren :: st) (hf c) rfl rfl rfl
  | var i => rw [deepStr]; exact fun st => lit' (st' := .paren :: st) rfl (lit' (id_run _ i) rfl)
  | fsym i g =>
    rw [deepStr]
    intro st
    refine lit' (st' := st) rfl ?_
    split
    · exact lit' (st' := .paren :: st) rfl (lit' (id_run _ i) rfl)
    · split
      · exact lit' (st' := .paren :: st) rfl (lit' (id_run _ i) rfl)
      · exact rfl
  | un op e ih =>
    rw [deepStr]
    exact fun st => lit' (name_run op st) (wrap' (st' := .paren :: st) ih.fits rfl rfl rfl)
  | bin op l r ihl ihr =>
    rw [deepStr]
    intro st
    refine lit' (st' := .paren :: st) rfl ?_
    cases op with
    | uid => exact lit' (ihl _) (wrap' (a := t!"id") (st' := .paren :: st) ihr.fits rfl rfl rfl)
    | plus => exact seq' (ihl.fits _) rfl (wrap' (a := t!"+") (st' := .paren :: st) ihr.fits rfl rfl rfl)
    | minus => exact seq' (ihl.fits _) rfl (wrap' (a := t!"-") (st' := .paren :: st) ihr.fits rfl rfl rfl)
    | mult => exact seq' (ihl.fits _) rfl (wrap' (a := t!"*") (st' := .paren :: st) ihr.fits rfl rfl rfl)
    | div => exact seq' (ihl.fits _) rfl (wrap' (a := t!"/") (st' := .paren :: st) ihr.fits rfl rfl rfl)
  | integ lo hi x e ihl ihh ih =>
    rw [deepStr]
    intro st
    simp only [List.append_assoc]
    refine lit' (st' := .bracket :: st) rfl ?_
    refine wrap' (st' := .paren :: .bracket :: st) (firm_wrapStr ihl _).fits rfl rfl ?_
    refine wrap' (a := t!", ") (st' := .paren :: .bracket :: st) (firm_wrapStr ihh _).fits rfl rfl ?_
    refine lit' (a := t!"), ") (st' := .bracket :: st) rfl ?_
    refine lit' (st' := .paren :: .bracket :: st) rfl (lit' (id_run _ x) ?_)
    exact wrap' (a := t!")](") (st' := .paren :: st) ih.fits rfl rfl rfl
  | vec es ih =>
    rw [deepStr]
    intro st
    simp only [List.append_assoc]
    refine lit' (st' := .bracket :: st) rfl (lit' (id_run _ _) ?_)
    refine lit' (st' := .paren :: st) rfl ?_
    have : Firm ex (entriesStr fmt es) := by
      induction es with
      | nil => exact fun _ => rfl
      | cons e es ihe =>
        have h1 := firm_wrapStr (ih e List.mem_cons_self) e.isUnary
        have h2 := ihe fun a ha => ih a (List.mem_cons_of_mem _ ha)
        rw [entriesStr]
        cases es with
        | nil => simpa [entriesStr] using h1
        | cons e' es =>
          exact firm_mid h1.fits rfl (fun _ => rfl) h2
    exact lit' (this _) rfl

end
end Tex
end VM
