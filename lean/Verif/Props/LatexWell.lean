import Verif.Rt.LatexWellLemmas
import Verif.Rt.Print
import Verif.Props.Latex
import Verif.Rt.LatexProcWell
/-
C114: LaTeX can read what is printed.
-/
namespace VM.Props
open Spec Tex
variable {K : Type} {ex : List Txt}

theorem customized_fits (h : List (Expr K × Txt)) (hs : ∀ x ∈ h, WellSet ex x.2) :
    ∀ t : Translator, (∀ i s, t.vars i = some s → Fits ex s) → (∀ i g s, t.syms i g = some s → Fits ex s) →
      (∀ i s, (h.foldl (fun t x => t.customize x.1 x.2) t).vars i = some s → Fits ex s) ∧
      ∀ i g s, (h.foldl (fun t x => t.customize x.1 x.2) t).syms i g = some s → Fits ex s := by
  induction h with
  | nil => exact fun t h1 h2 => ⟨h1, h2⟩
  | cons x h ih =>
    intro t h1 h2
    have hx := (fits_iff _).2 (hs x List.mem_cons_self)
    refine ih (fun y hy => hs y (List.mem_cons_of_mem _ hy)) _ ?_ ?_
    · intro i s hi
      obtain ⟨e, u⟩ := x
      cases e
      case var j =>
        simp only [Translator.customize] at hi
        split at hi
        · cases hi; exact hx
        · exact h1 _ _ hi
      all_goals exact h1 _ _ hi
    · intro i g s hi
      obtain ⟨e, u⟩ := x
      cases e
      case fsym j g' =>
        simp only [Translator.customize] at hi
        split at hi
        · cases hi; exact hx
        · exact h2 _ _ _ hi
      all_goals exact h2 _ _ _ hi

theorem latex_fits {fmt : K → Txt} (hf : ∀ c, WellSet ex (fmt c)) {h : List (Expr K × Txt)}
    (hs : ∀ x ∈ h, WellSet ex x.2) (e : Expr K) (p : Bool) : Fits ex (latex fmt (after h) p e) := by
  obtain ⟨h1, h2⟩ := customized_fits h hs .new (fun _ _ h => by cases h) (fun _ _ _ h => by cases h)
  exact fits_latex (fun c => (fits_iff _).2 (hf c)) h1 h2 e p

/-- C114: whatever the expression and after any calls of `customize` with texts that are well set themselves, the
text that is printed is well set: braces, parentheses and brackets are closed in the right order, every `\left` has its
`\right`, and there are no commands but those of LaTeX the library uses and those of the texts given (`ex`). -/
theorem C114_well_set {fmt : K → Txt} (hf : ∀ c, WellSet ex (fmt c)) {h : List (Expr K × Txt)}
    (hs : ∀ x ∈ h, WellSet ex x.2) (e : Expr K) (p : Bool) : WellSet ex (latex fmt (after h) p e) :=
  (fits_iff _).1 (latex_fits hf hs e p)

/-- Equations. -/
theorem C114_equation {fmt : K → Txt} (hf : ∀ c, WellSet ex (fmt c)) {h : List (Expr K × Txt)}
    (hs : ∀ x ∈ h, WellSet ex x.2) (l r : Expr K) : WellSet ex (latexEq fmt (after h) l r) := by
  rw [← fits_iff, latexEq, List.append_assoc]
  exact fits_mid (latex_fits hf hs l _) rfl (fun _ => rfl) (latex_fits hf hs r _)

/-- Intervals. -/
theorem C114_interval {fmt : K → Txt} (hf : ∀ c, WellSet ex (fmt c)) {h : List (Expr K × Txt)}
    (hs : ∀ x ∈ h, WellSet ex x.2) (l r : Expr K) : WellSet ex (latexInterval fmt (after h) l r) := by
  rw [← fits_iff, latexInterval]
  intro st
  simp only [List.append_assoc]
  refine Runs.wrap (st' := .bracket :: st) (latex_fits hf hs l _) rfl rfl ?_
  exact Runs.wrap (a := t!"; ") (st' := .bracket :: st) (latex_fits hf hs r _) rfl rfl ⟨none, rfl, trivial⟩

/-- Something is printed for every expression. -/
theorem C114_not_empty (fmt : K → Txt) (h : List (Expr K × Txt)) (e : Expr K) (p : Bool) :
    latex fmt (after h) p e ≠ [] := by
  have ho : ∀ s, orUnknown s ≠ [] := by
    intro s
    unfold orUnknown
    split
    · decide
    · assumption
  cases e with
  | un op e => cases op <;> (try rename_i f; cases f) <;> (rw [latex]; exact ho _)
  | bin op l r => cases op <;> rw [latex] <;> first | exact ho _ | simp
  | _ => rw [latex]; exact ho _

/-- Texts without backslash, braces, parentheses and brackets are well set; so are all numbers a stream writes. -/
theorem C114_plain (s : Txt) (h : ∀ c ∈ s, c ∉ t!"\\{}()[]") : WellSet ex s := by
  suffices Reader.run ex ⟨[], none⟩ s = some ⟨[], none⟩ by
    rw [wellSet_iff]; exact ⟨none, this, trivial⟩
  induction s with
  | nil => rfl
  | cons c s ih =>
    have hc := h c List.mem_cons_self
    simp only [List.mem_cons, List.not_mem_nil, or_false, not_or] at hc
    have : Reader.step ex ⟨[], none⟩ c = some ⟨[], none⟩ := by simp [Reader.step, readChar, hc]
    rw [Reader.run, this]
    exact ih fun d hd => h d (List.mem_cons_of_mem _ hd)

/-- The text written to a stream is well set, too (it has no commands): all expressions, numbers as above. -/
theorem C114_stream {fmt : K → Txt} (hf : ∀ c, WellSet ex (fmt c)) (e : Expr K) : WellSet ex (exprStr fmt e) :=
  (fits_iff _).1 (firm_wrapStr (firm_deepStr (fun c => (fits_iff _).2 (hf c)) e) _).fits

/-- Equations. -/
theorem C114_stream_equation {fmt : K → Txt} (hf : ∀ c, WellSet ex (fmt c)) (l r : Expr K) :
    WellSet ex (equationStr fmt l r) := by
  have h := fun e => (fits_iff _).2 (C114_stream hf (K := K) e)
  rw [← fits_iff]
  intro st
  refine Runs.wrap (st' := .paren :: st) (h l) rfl rfl ?_
  exact Runs.wrap (a := t!" = ") (st' := .paren :: st) (h r) rfl rfl ⟨none, rfl, trivial⟩

/-- Processors of the user that print well set texts if the texts they get from the translator are well set; `good` may
say something about their state. -/
structure TidyClass (ex : List Txt) {P : Type} (c : ProcClass K P) (good : P → Prop) : Prop where
  process : ∀ p, good p → ∀ cb flag e, (∀ k ∈ cb.kids, ∀ b, WellSet ex (k b)) → (∀ i, WellSet ex (cb.var i)) →
    WellSet ex (c.process p cb flag e)
  clone : ∀ p, good p → good (c.clone p)
  customize : ∀ p, good p → ∀ e s, WellSet ex s → good (c.customize p e s)

section
variable {P : Type} {fmt : K → Txt} {c : ProcClass K P} {good : P → Prop}

/-- Processors that print well set texts, whatever the names they were given. -/
def TidyProc (ex : List Txt) (good : P → Prop) : Proc P → Prop
  | .variable names => ∀ i s, names i = some s → Fits ex s
  | .symbol names => ∀ i g s, names i g = some s → Fits ex s
  | .user p => good p
  | _ => True

theorem TidyProc.fits (hf : ∀ v, WellSet ex (fmt v)) (hc : TidyClass ex c good) {p : Proc P}
    (h : TidyProc ex good p) : ProcFits ex fmt c p := by
  refine procFits (fun v => (fits_iff _).2 (hf v)) p ?_ ?_ ?_
  · rintro names rfl; exact h
  · rintro names rfl; exact h
  · rintro q rfl cb flag e hk hv
    exact (fits_iff _).2 (hc.process q h cb flag e (fun k hm b => (fits_iff _).1 (hk k hm b))
      fun i => (fits_iff _).1 (hv i))

theorem TidyProc.cloned (hc : TidyClass ex c good) {p : Proc P} (h : TidyProc ex good p) :
    TidyProc ex good (p.clone c) := by
  cases p with
  | «variable» names => intro i s h; cases h
  | symbol names => intro i g s h; cases h
  | user q => exact hc.clone q h
  | _ => trivial

theorem TidyProc.customized (hc : TidyClass ex c good) {p : Proc P} (h : TidyProc ex good p) (e : Expr K) {s : Txt}
    (hs : WellSet ex s) : TidyProc ex good (p.customize c e s) := by
  have hx := (fits_iff _).2 hs
  cases p with
  | «variable» names =>
    cases e
    case var j =>
      intro i u hi
      simp only at hi
      split at hi
      · cases hi; exact hx
      · exact h _ _ hi
    all_goals exact h
  | symbol names =>
    cases e
    case fsym j g =>
      intro i k u hi
      simp only at hi
      split at hi
      · cases hi; exact hx
      · exact h _ _ _ hi
    all_goals exact h
  | user q => exact hc.customize q h e s hs
  | _ => trivial

/-- All processors in memory are tidy. -/
def TidyMem (ex : List Txt) (good : P → Prop) (m : TMem P) : Prop := ∀ a p, m.heap a = some p → TidyProc ex good p

theorem TidyMem.news {ps : List (Proc P)} : ∀ {m : TMem P}, TidyMem ex good m → (∀ p ∈ ps, TidyProc ex good p) →
    TidyMem ex good (m.news ps).1 := by
  induction ps with
  | nil => exact fun h _ => h
  | cons p ps ih =>
    intro m h hp
    rw [TMem.news]
    refine ih ?_ fun q hq => hp q (List.mem_cons_of_mem _ hq)
    intro a q hq
    simp only [setAt] at hq
    split at hq
    · cases hq; exact hp _ List.mem_cons_self
    · exact h a q hq

theorem TidyMem.deletes {as : List Nat} : ∀ {m m' : TMem P}, TidyMem ex good m → m.deletes as = .ok m' →
    TidyMem ex good m' := by
  induction as with
  | nil => intro m m' h hm; cases hm; exact h
  | cons a as ih =>
    intro m m' h hm
    rw [TMem.deletes] at hm
    split at hm
    · refine ih ?_ hm
      intro b q hq
      simp only [setAt] at hq
      split at hq
      · cases hq
      · exact h b q hq
    · cases hm

theorem TidyMem.customs (hc : TidyClass ex c good) (e : Expr K) {s : Txt} (hs : WellSet ex s) {as : List Nat} :
    ∀ {m m' : TMem P}, TidyMem ex good m → m.customs c e s as = .ok m' → TidyMem ex good m' := by
  induction as with
  | nil => intro m m' h hm; cases hm; exact h
  | cons a as ih =>
    intro m m' h hm
    rw [TMem.customs] at hm
    split at hm
    · rename_i p hp
      refine ih ?_ hm
      intro b q hq
      simp only [setAt] at hq
      split at hq
      · cases hq; exact (h a p hp).customized hc e hs
      · exact h b q hq
    · cases hm

theorem TidyMem.procs {m : TMem P} (h : TidyMem ex good m) {as : List Nat} : ∀ {ps}, m.procs as = .ok ps →
    ∀ p ∈ ps, TidyProc ex good p := by
  induction as with
  | nil => intro ps hp; cases hp; simp
  | cons a as ih =>
    intro ps hp
    rw [TMem.procs] at hp
    split at hp
    · rename_i p hq
      obtain ⟨qs, h1, rfl⟩ := Res.map_eq_ok.1 hp
      intro q hm
      rcases List.mem_cons.1 hm with rfl | hm
      · exact h _ _ hq
      · exact ih h1 q hm
    · cases hp

/-- What a program gives to the translators: well set names and good processors. -/
def Given (ex : List Txt) (good : P → Prop) : TOp K P → Prop
  | .add _ p => good p
  | .customize _ _ s => WellSet ex s
  | _ => True

theorem TidyMem.step (hf : ∀ v, WellSet ex (fmt v)) (hc : TidyClass ex c good) {m m' : TMem P} {ts : List Txt}
    (h : TidyMem ex good m) (op : TOp K P) (ho : Given ex good op) (hm : m.step fmt c op = .ok (m', ts)) :
    TidyMem ex good m' ∧ ∀ t ∈ ts, WellSet ex t := by
  cases op with
  | make t =>
    cases hm
    have hn : TidyMem ex good (m.news TMem.initial).1 := TidyMem.news h ?_
    · exact ⟨hn, by simp⟩
    intro p hp
    simp only [TMem.initial, List.mem_cons, List.not_mem_nil, or_false] at hp
    rcases hp with rfl | rfl | rfl | rfl | rfl
    · trivial
    · trivial
    · trivial
    · intro i s h; cases h
    · intro i g s h; cases h
  | copy t t' =>
    obtain ⟨as, _, hm⟩ := Res.bind_eq_ok.1 hm
    obtain ⟨ps, h2, hm⟩ := Res.map_eq_ok.1 hm
    cases hm
    have hn : TidyMem ex good (m.news (ps.map (Proc.clone c))).1 := TidyMem.news h ?_
    · exact ⟨hn, by simp⟩
    intro p hp
    obtain ⟨q, hq, rfl⟩ := List.mem_map.1 hp
    exact (h.procs h2 q hq).cloned hc
  | assign t t' =>
    obtain ⟨as, _, hm⟩ := Res.map_eq_ok.1 hm
    cases hm
    exact ⟨h, by simp⟩
  | add t p =>
    obtain ⟨as, _, hm⟩ := Res.map_eq_ok.1 hm
    cases hm
    have hn : TidyMem ex good (m.news [.user p]).1 := TidyMem.news h fun q hq => by
      rw [List.mem_singleton.1 hq]; exact ho
    exact ⟨hn, by simp⟩
  | customize t e s =>
    obtain ⟨as, _, hm⟩ := Res.bind_eq_ok.1 hm
    obtain ⟨m1, h2, hm⟩ := Res.map_eq_ok.1 hm
    cases hm
    exact ⟨h.customs hc e ho h2, by simp⟩
  | print t e flag =>
    obtain ⟨as, _, hm⟩ := Res.bind_eq_ok.1 hm
    obtain ⟨ps, h2, hm⟩ := Res.map_eq_ok.1 hm
    cases hm
    refine ⟨h, ?_⟩
    simp only [List.mem_singleton, forall_eq]
    exact (fits_iff _).1 (translate_fits (fun p hp => (h.procs h2 p hp).fits hf hc) e flag)
  | destroy t =>
    obtain ⟨as, _, hm⟩ := Res.bind_eq_ok.1 hm
    obtain ⟨m1, h2, hm⟩ := Res.map_eq_ok.1 hm
    cases hm
    have hn := h.deletes h2
    exact ⟨hn, by simp⟩

/-- With processors of the user: in every program that makes, copies, assigns, changes and destroys translators, gives
them well set names and adds processors that keep texts well set, all texts that are printed are well set. -/
theorem C114_processors (hf : ∀ v, WellSet ex (fmt v)) (hc : TidyClass ex c good) {ops : List (TOp K P)}
    (ho : ∀ op ∈ ops, Given ex good op) {m : TMem P} {ts : List Txt} (hm : TMem.empty.exec fmt c ops = .ok (m, ts)) :
    ∀ t ∈ ts, WellSet ex t := by
  suffices ∀ ops : List (TOp K P), (∀ op ∈ ops, Given ex good op) → ∀ n m ts, TidyMem ex good n →
      n.exec fmt c ops = .ok (m, ts) → ∀ t ∈ ts, WellSet ex t from
    this ops ho _ _ _ (fun a p h => by cases h) hm
  intro ops
  induction ops with
  | nil => intro _ n m ts _ h; cases h; simp
  | cons op ops ih =>
    intro ho n m ts hn h
    obtain ⟨⟨n', u⟩, h1, h⟩ := Res.bind_eq_ok.1 h
    obtain ⟨⟨m', v⟩, h2, h⟩ := Res.map_eq_ok.1 h
    cases h
    obtain ⟨h3, h4⟩ := hn.step hf hc op (ho op List.mem_cons_self) h1
    intro t ht
    rcases List.mem_append.1 ht with ht | ht
    · exact h4 t ht
    · exact ih (fun o ho' => ho o (List.mem_cons_of_mem _ ho')) n' m' v h3 h2 t ht

end

/-- The texts given by the user have to be well set: a variable is printed as the last text given for it. -/
theorem C114_given (fmt : K → Txt) (h : List (Expr K × Txt)) (i : Nat) (s : Txt) (hs : s ≠ []) (p : Bool) :
    WellSet ex (latex fmt (after (h ++ [(.var i, s)])) p (.var i)) ↔ WellSet ex s := by
  have : latex fmt (after (h ++ [(.var i, s)])) p (.var i) = s := by
    rw [latex, latexVar]
    simp [after, Translator.customize, orUnknown_of_ne hs]
  rw [this]

/-- Well set: known commands, fractions, delimiters. Not well set: what is not closed, closed by another kind, or cut
off, and commands that ran into other text. -/
example : WellSet [t!"tilde"] (t!"\\tilde{x}_{1}") ∧ WellSet [t!"alpha"] (t!"\\alpha") ∧
    WellSet [] (t!"\\left( \\frac{1}{2} \\right)") ∧
    WellSet [] (t!"-1.5e+06") ∧ ¬ WellSet [] (t!"x_{1") ∧ ¬ WellSet [] (t!"{x)}") ∧ ¬ WellSet [] (t!"\\left( x )") ∧
    ¬ WellSet [] (t!"x}") ∧ ¬ WellSet [] (t!"x\\") ∧ ¬ WellSet [] (t!"\\expx") := by
  decide

example : ∀ x ∈ ([(.var 0, t!"\\xi"), (.fsym 0 0, t!"w_{h}")] : List (Expr Rat × Txt)), WellSet [t!"xi"] x.2 := by
  decide

/-- A processor of the user: brackets around the entries of a vector. -/
private def listed : ProcClass XRat Unit where
  process _ cb _ e := match e with
    | .vec _ => t!"[" ++ ((cb.kids.map fun k => k false ++ t!" ").flatten ++ t!"]")
    | _ => []
  clone p := p
  customize p _ _ := p

private theorem listed_tidy : TidyClass [t!"xi"] listed fun _ => True where
  process := by
    intro p _ cb flag e hk _
    rw [← fits_iff]
    cases e
    case vec es =>
      intro st
      refine Runs.lit (a := t!"[") (st' := .bracket :: st) rfl ?_
      have h : ∀ ks : List (Bool → Txt), (∀ k ∈ ks, ∀ b, WellSet [t!"xi"] (k b)) →
          Runs [t!"xi"] (.bracket :: st) ((ks.map fun k => k false ++ t!" ").flatten ++ t!"]") st := by
        intro ks
        induction ks with
        | nil => exact fun _ => ⟨none, rfl, trivial⟩
        | cons k ks ih =>
          intro h
          simp only [List.map_cons, List.flatten_cons, List.append_assoc]
          refine Runs.wrap (a := []) (st' := .bracket :: st) ((fits_iff _).2 (h k List.mem_cons_self false)) rfl rfl ?_
          exact Runs.lit (a := t!" ") (st' := .bracket :: st) rfl (ih fun k hm => h k (List.mem_cons_of_mem _ hm))
      exact h _ hk
    all_goals exact Runs.nil
  clone := fun _ _ => trivial
  customize := fun _ _ _ _ _ => trivial

private def listedOps : List (TOp XRat Unit) :=
  [.make 0, .add 0 (), .customize 0 (.var 0) (t!"\\xi"), .print 0 (.vec [.var 0, .bin .div (.var 1) (.vec [])]) true]

example : ∀ op ∈ listedOps, Given [t!"xi"] (fun _ => True) op := by
  simp only [listedOps, List.mem_cons, List.not_mem_nil, or_false, forall_eq_or_imp, forall_eq, Given, true_and, and_true]
  decide

example : (TMem.empty.exec (fun _ => t!"0") listed listedOps).map (·.2) =
    .ok [t!"[\\xi  \\frac{ x_{1} }{[]}  ]"] := by
  decide +kernel

end VM.Props
