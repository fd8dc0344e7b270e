import Verif.Rt.LatexObjTexts
import Verif.NumRat
import Verif.Rt.Dec
/-
C75: LaTeX translators as objects.
-/
namespace VM.Props
open Spec
variable {K P : Type} (fmt : K → Txt) (c : ProcClass K P) (ops : List (TOp K P))

/-- C75 without assignments between different translators.  Nothing undefined happens, and the texts printed are those
of translators that each have processors of their own. -/
theorem C75_values_partial (h : TProgram fmt c .empty ops) :
    (TMem.empty.exec fmt c ops).map (·.2) = .ok (TVals.empty.exec fmt c ops).2 := by
  obtain ⟨m, h1, _⟩ := TInv.exec fmt c ops TInv.empty h
  simp [h1]

/-- C75 without assignments between different translators.  No two translators share a processor, each processor in
memory belongs to a translator, and those of a translator are in memory. -/
theorem C75_owners_partial (h : TProgram fmt c .empty ops) {m : TMem P} {ts : List Txt}
    (hm : TMem.empty.exec fmt c ops = .ok (m, ts)) :
    (∀ t t' as bs a, m.objs t = some as → m.objs t' = some bs → a ∈ as → a ∈ bs → t = t') ∧
    (∀ a, m.heap a ≠ none → ∃ t as, m.objs t = some as ∧ a ∈ as) ∧
    ∀ t as, m.objs t = some as → as.Nodup ∧ ∀ a ∈ as, m.heap a ≠ none := by
  obtain ⟨m', h1, hi⟩ := TInv.exec fmt c ops TInv.empty h
  rw [hm] at h1; cases h1
  refine ⟨hi.one, hi.live, fun t as ht => ?_⟩
  obtain ⟨_, _, h2, h3, _⟩ := hi.val ht
  exact ⟨h3, h2.alive⟩

/-- C75 without assignments between different translators.  When all translators are gone, no processor is left in
memory, neither of the library nor of the user. -/
theorem C75_no_leak_partial (h : TProgram fmt c .empty ops) {m : TMem P} {ts : List Txt}
    (hm : TMem.empty.exec fmt c ops = .ok (m, ts)) (ho : ∀ t, m.objs t = none) (a : Nat) : m.heap a = none := by
  cases ha : m.heap a with
  | none => rfl
  | some p =>
    obtain ⟨t, as, ht, _⟩ := (C75_owners_partial fmt c ops h hm).2.1 a (by simp [ha])
    rw [ho] at ht; cases ht

/-- C75.  Processors the user adds change no text the library has: a translator that got them prints every expression
without vectors as one that did not, unless a name in it was replaced by the empty text. -/
theorem C75_added (t : Translator) (us : List (Proc P)) (e : Expr K) (flag : Bool) (h : LatexKnown t e) :
    translate fmt c (ownProcs t ++ us) e flag = latex fmt t flag e :=
  translate_own fmt c t us e flag (.inr h)

/-- C75.  A translator without processors of the user prints as modelled for C31 to C33. -/
theorem C75_library (t : Translator) (e : Expr K) (flag : Bool) :
    translate fmt c (ownProcs t) e flag = latex fmt t flag e := by
  simpa using translate_own fmt c t [] e flag (.inl rfl)

/-- C75.  An expression the library has no text for goes to the processors of the user, in the order they were added:
the first text that is not empty is printed. -/
theorem C75_user (t : Translator) (us : List P) (es : List (Expr K)) (flag : Bool) :
    translate fmt c (ownProcs t ++ us.map Proc.user) (.vec es) flag =
      ((us.map fun p => c.process p ⟨translateL fmt c (ownProcs t ++ us.map Proc.user) es,
        varTxt fmt c (ownProcs t ++ us.map Proc.user)⟩ flag (.vec es)).find? (· ≠ [])).getD unknownTxt := by
  rw [translate]
  generalize varTxt fmt c (ownProcs t ++ us.map Proc.user) = vars
  generalize translateL fmt c (ownProcs t ++ us.map Proc.user) es = kids
  simp only [ownProcs, List.cons_append, List.nil_append]
  iterate 5 rw [firstTxt_skip (by rfl)]
  induction us with
  | nil => rfl
  | cons u us ih =>
    simp only [List.map_cons]
    by_cases hu : c.process u ⟨kids, vars⟩ flag (.vec es) = []
    · rw [firstTxt_skip (by exact hu), ih, List.find?_cons_of_neg (by simp [hu])]
    · rw [firstTxt_take (by exact hu), List.find?_cons_of_pos (by simp [hu])]
      rfl

theorem customize_own (t : Translator) (us : List P) (e : Expr K) (s : Txt) :
    (ownProcs t ++ us.map Proc.user).map (Proc.customize c e s) =
      ownProcs (t.customize e s) ++ (us.map fun p => c.customize p e s).map Proc.user := by
  cases e <;> simp [ownProcs, Proc.customize, Translator.customize, Function.comp_def]

theorem clone_own (t : Translator) (us : List P) :
    (ownProcs t ++ us.map Proc.user).map (Proc.clone c) = ownProcs t.copy ++ (us.map c.clone).map Proc.user := by
  simp [ownProcs, Proc.clone, Translator.copy, Function.comp_def]

/-- C75.  In every program, assignments included, each translator has the five processors of the library, in the state
modelled for C31 to C33, followed by those of the user; copying and customising act on both. -/
theorem C75_shape : ∀ (ops : List (TOp K P)) (v : TVals P),
    (∀ t ps, v t = some ps → ∃ (tr : Translator) (us : List P), ps = ownProcs tr ++ us.map Proc.user) → TLegals fmt c v ops →
    ∀ t ps, (v.exec fmt c ops).1 t = some ps → ∃ (tr : Translator) (us : List P), ps = ownProcs tr ++ us.map Proc.user
  | [], v, h, _ => h
  | op :: ops, v, h, hl => by
    refine C75_shape ops (v.step fmt c op).1 (fun t ps ht => ?_) hl.2
    have src : ∀ t', v t' ≠ none → ∃ (tr : Translator) (us : List P), (v t').getD [] = ownProcs tr ++ us.map Proc.user := by
      intro t' ht'
      cases e : v t' with
      | none => exact absurd e ht'
      | some qs => exact h t' qs e
    have hl := hl.1
    have keep : ∀ {u : Nat} {qs : List (Proc P)}, (∃ (tr : Translator) (us : List P), qs = ownProcs tr ++ us.map Proc.user) →
        setAt v u (some qs) t = some ps → ∃ (tr : Translator) (us : List P), ps = ownProcs tr ++ us.map Proc.user := by
      intro u qs hq hs
      simp only [setAt] at hs
      split at hs
      · cases hs; exact hq
      · exact h t ps hs
    cases op with
    | make u => exact keep ⟨.new, [], rfl⟩ ht
    | copy u u' =>
      obtain ⟨tr, us, e⟩ := src u' hl.2
      exact keep ⟨tr.copy, us.map c.clone, by rw [TOp.source, e, clone_own]⟩ ht
    | assign u u' => exact keep (src u' hl.2) ht
    | add u p =>
      obtain ⟨tr, us, e⟩ := src u hl
      exact keep ⟨tr, us ++ [p], by rw [TOp.source, e]; simp⟩ ht
    | customize u x s =>
      obtain ⟨tr, us, e⟩ := src u hl
      exact keep ⟨tr.customize x s, us.map fun p => c.customize p x s, by rw [TOp.source, e, customize_own]⟩ ht
    | print u x flag => exact h t ps ht
    | destroy u =>
      simp only [TVals.step, TVals.stepOn, setAt] at ht
      split at ht
      · cases ht
      · exact h t ps ht

section
variable {m : TMem P} {ts : List Txt} {t t' : Nat} {as bs : List Nat}

/-- Running a program after another one. -/
theorem exec_append (ops' : List (TOp K P)) : ∀ (ops : List (TOp K P)) (n m : TMem P) (ts : List Txt),
    n.exec fmt c ops = .ok (m, ts) → n.exec fmt c (ops ++ ops') = (m.exec fmt c ops').map fun y => (y.1, ts ++ y.2)
  | [], n, m, ts, h => by
    cases h
    simp only [List.nil_append]
    cases n.exec fmt c ops' <;> rfl
  | op :: ops, n, m, ts, h => by
    simp only [TMem.exec, Res.bind_eq_ok, Res.map_eq_ok] at h
    obtain ⟨⟨n1, ts1⟩, h1, ⟨n2, ts2⟩, h2, h3⟩ := h
    simp only [Prod.mk.injEq] at h3
    obtain ⟨rfl, rfl⟩ := h3
    simp only [List.cons_append, TMem.exec, h1, Res.bind_ok, exec_append ops' ops n1 n2 ts2 h2]
    cases n2.exec fmt c ops' <;> simp [List.append_assoc]

/-- C75 is false of assignments.  Whatever a program without them has done: after `t = t'` ending the lives of both
translators, in any order, is undefined (the processors are deleted twice), and so is printing with one of them when
the other one is gone. -/
theorem C75_assigned_twice_deleted (h : TProgram fmt c .empty ops) (hm : TMem.empty.exec fmt c ops = .ok (m, ts))
    (_ht : m.objs t = some as) (ht' : m.objs t' = some bs) (hne : t ≠ t') (e : Expr K) (flag : Bool) :
    TMem.empty.exec fmt c (ops ++ [.assign t t', .destroy t, .destroy t']) = .ub ∧
    TMem.empty.exec fmt c (ops ++ [.assign t t', .destroy t', .destroy t]) = .ub ∧
    TMem.empty.exec fmt c (ops ++ [.assign t t', .destroy t', .print t e flag]) = .ub ∧
    TMem.empty.exec fmt c (ops ++ [.assign t t', .destroy t, .print t' e flag]) = .ub := by
  obtain ⟨m', h1, hi⟩ := TInv.exec fmt c ops TInv.empty h
  rw [hm] at h1; cases h1
  obtain ⟨_, _, b1, b2, b3⟩ := hi.val ht'
  obtain ⟨n, d1, d2, d3, d4, d5⟩ := TMem.deletes_spec bs { m with objs := setAt m.objs t (some bs) } b2 b1.alive
  have gone : ∀ o, ({ n with objs := o } : TMem P).deletes bs = .ub := fun o => TMem.deletes_gone b3 d4
  have gone' : ∀ o, ({ n with objs := o } : TMem P).procs bs = .ub := fun o => TMem.procs_gone b3 d4
  refine ⟨?_, ?_, ?_, ?_⟩ <;> rw [exec_append fmt c _ ops _ _ _ hm] <;>
    simp [TMem.exec, TMem.step, TMem.obj, ht', setAt, hne, Ne.symm hne, d1, gone, gone']

/-- C75 is false of assignments.  After `t = t'` the processors `t` had are lost: they stay in memory whatever the
program does afterwards (further assignments included). -/
theorem C75_assigned_lost (h : TProgram fmt c .empty ops) (hm : TMem.empty.exec fmt c ops = .ok (m, ts))
    (ht : m.objs t = some as) (hne : t ≠ t') (ops' : List (TOp K P)) {m' : TMem P} {ts' : List Txt}
    (hr : TMem.empty.exec fmt c (ops ++ .assign t t' :: ops') = .ok (m', ts')) :
    as ≠ [] ∧ ∀ a ∈ as, m'.heap a ≠ none := by
  obtain ⟨m1, h1, hi⟩ := TInv.exec fmt c ops TInv.empty h
  rw [hm] at h1; cases h1
  obtain ⟨_, _, b1, b2, b3⟩ := hi.val ht
  refine ⟨b3, fun a ha => ?_⟩
  rw [exec_append fmt c _ ops _ _ _ hm] at hr
  simp only [TMem.exec, Res.map_eq_ok, Res.bind_eq_ok] at hr
  obtain ⟨⟨n, ts1⟩, ⟨⟨n1, ts2⟩, hs, ⟨n2, ts3⟩, h2, h3⟩, h4⟩ := hr
  simp only [Prod.mk.injEq] at h3 h4
  obtain ⟨rfl, -⟩ := h3
  obtain ⟨rfl, -⟩ := h4
  simp only [TMem.step, Res.map_eq_ok] at hs
  obtain ⟨bs, hb, hs⟩ := hs
  simp only [Prod.mk.injEq] at hs
  obtain ⟨rfl, -⟩ := hs
  refine (TMem.Lost.exec ops' (a := a) (m := { m with objs := setAt m.objs t (some bs) }) ⟨b1.alive a ha, hi.old ht a ha, fun u us hu => ?_⟩ h2).1
  have hb := TMem.obj_ok hb
  simp only [setAt] at hu
  split at hu
  · cases hu
    exact fun hm => hne (hi.one _ _ _ _ a ht hb ha hm)
  · next hut => exact fun hm => hut (hi.one _ _ _ _ a hu ht hm ha)

/-- C75 is false of assignments.  After `t = t'` the two are one: a name customised in `t` is printed by `t'`. -/
theorem C75_assigned_shares (h : TProgram fmt c .empty ops) (hm : TMem.empty.exec fmt c ops = .ok (m, ts))
    (ht' : m.objs t' = some bs) (x : Expr K) (s : Txt) (e : Expr K) (flag : Bool) :
    ∃ ps, (TVals.empty.exec fmt c ops).1 t' = some ps ∧
      (TMem.empty.exec fmt c (ops ++ [.assign t t', .customize t x s, .print t' e flag])).map (·.2) =
        .ok (ts ++ [translate fmt c (ps.map (Proc.customize c x s)) e flag]) := by
  obtain ⟨m1, h1, hi⟩ := TInv.exec fmt c ops TInv.empty h
  rw [hm] at h1; cases h1
  obtain ⟨ps, hv, b1, b2, b3⟩ := hi.val ht'
  refine ⟨ps, hv, ?_⟩
  obtain ⟨n, d1, d2, d3, d4, d5⟩ := TMem.customs_spec c x s bs ps { m with objs := setAt m.objs t (some bs) } b2 b1
  have ho : n.objs t' = some bs := by
    rw [d2]; simp only [setAt]; split
    · rfl
    · exact ht'
  rw [exec_append fmt c _ ops _ _ _ hm]
  simp [TMem.exec, TMem.step, TMem.obj, ht', setAt, d1, ho, d4.procs]

end

/-! ### Non-vacuity -/

/-- A processor of the user: brackets around the texts of the entries of a vector. -/
private def brackets : ProcClass XRat Unit where
  process _ cb _ e := match e with
    | .vec _ => t!"[" ++ (cb.kids.map fun k => k false).flatten ++ t!"]"
    | _ => []
  clone p := p
  customize p _ _ := p

private def sampleOps : List (TOp XRat Unit) :=
  [.make 0, .add 0 (), .customize 0 (.var 0) (t!"r"), .copy 1 0, .print 0 (.vec [.var 0, .var 1]) false,
    .print 1 (.vec [.var 0]) false, .assign 0 0, .print 0 (.var 0) true]

private theorem sampleOps_program : TProgram (fun _ => t!"0") brackets .empty sampleOps := by
  simp [TProgram, sampleOps, TLegal, TVals.step, TVals.stepOn, TVals.empty, TOp.source, setAt]

/-- The original prints the vector `[r x_{1}]`, its copy `[x_{0}]`: the added processor is cloned, the name is not. -/
example : (TMem.empty.exec (fun _ => t!"0") brackets sampleOps).map (·.2) =
    .ok [t!"[r x_{1} ]", t!"[ x_{0} ]", t!"r"] := by
  rw [C75_values_partial _ _ _ sampleOps_program]
  decide +kernel

example : (TMem.empty.exec (fun _ => t!"0") brackets
    (sampleOps ++ [.assign 1 0, .destroy 0, .destroy 1])) = .ub := by
  obtain ⟨m, h1, hi⟩ := TInv.exec (fun _ => t!"0") brackets sampleOps TInv.empty sampleOps_program
  have e0 : ((TVals.empty.exec (fun _ => t!"0") brackets sampleOps).1 0).isSome = true := rfl
  have e1 : ((TVals.empty.exec (fun _ => t!"0") brackets sampleOps).1 1).isSome = true := rfl
  obtain ⟨ps0, e0⟩ := Option.isSome_iff_exists.1 e0
  obtain ⟨ps1, e1⟩ := Option.isSome_iff_exists.1 e1
  obtain ⟨as, ha, _⟩ := hi.held 0 _ e0
  obtain ⟨bs, hb, _⟩ := hi.held 1 _ e1
  exact (C75_assigned_twice_deleted _ _ _ sampleOps_program h1 hb ha (by decide) (.var 0) true).2.1

example : LatexKnown (K := XRat) (Translator.new.customize (.var 0 : Expr XRat) (t!"r"))
    (.un (.pd 0) (.bin .mult (.var 0) (.fsym 2 1))) := by
  simp [LatexKnown, Translator.customize, Translator.new]

end VM.Props
