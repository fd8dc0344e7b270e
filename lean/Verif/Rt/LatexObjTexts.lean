import Verif.Rt.LatexObjLemmas
import Verif.Rt.LatexLemmas
/-
Lemmas about translators as objects: processors no translator knows, and the texts of the processors of the library.
-/
namespace VM
open Spec
variable {K P : Type}

/-! ### Lost processors -/

/-- The processor at `a` is there, but no translator knows it. -/
def TMem.Lost (m : TMem P) (a : Nat) : Prop :=
  m.heap a ≠ none ∧ a < m.next ∧ ∀ t as, m.objs t = some as → a ∉ as

theorem TMem.news_old : ∀ (ps : List (Proc P)) (m : TMem P),
    (∀ a, a < m.next → (m.news ps).1.heap a = m.heap a) ∧ (∀ a ∈ (m.news ps).2, m.next ≤ a) ∧
    m.next ≤ (m.news ps).1.next
  | [], _ => ⟨fun _ _ => rfl, by simp [news], Nat.le_refl _⟩
  | p :: ps, m => by
    obtain ⟨h1, h2, h3⟩ := news_old ps { m with heap := setAt m.heap m.next (some p), next := m.next + 1 }
    simp only [news]
    refine ⟨fun a ha => ?_, fun a ha => ?_, by simp only at h3; omega⟩
    · rw [h1 a (by simp; omega)]
      have : a ≠ m.next := by omega
      simp [setAt, this]
    · rcases List.mem_cons.1 ha with rfl | ha
      · exact Nat.le_refl _
      · have := h2 _ ha; simp at this; omega

theorem TMem.deletes_old : ∀ (as : List Nat) (m m' : TMem P), m.deletes as = .ok m' →
    m'.next = m.next ∧ m'.objs = m.objs ∧ ∀ a, a ∉ as → m'.heap a = m.heap a
  | [], m, m', h => by cases h; simp
  | a :: as, m, m', h => by
    simp only [deletes] at h
    cases e : m.heap a with
    | none => simp [e] at h
    | some p =>
      simp only [e] at h
      obtain ⟨h1, h2, h3⟩ := deletes_old as _ m' h
      refine ⟨h1, h2, fun b hb => ?_⟩
      simp only [List.mem_cons, not_or] at hb
      rw [h3 b hb.2]; simp [setAt, hb.1]

theorem TMem.customs_old (c : ProcClass K P) (x : Expr K) (s : Txt) : ∀ (as : List Nat) (m m' : TMem P),
    m.customs c x s as = .ok m' → m'.next = m.next ∧ m'.objs = m.objs ∧ ∀ a, a ∉ as → m'.heap a = m.heap a
  | [], m, m', h => by cases h; simp
  | a :: as, m, m', h => by
    simp only [customs] at h
    cases e : m.heap a with
    | none => simp [e] at h
    | some p =>
      simp only [e] at h
      obtain ⟨h1, h2, h3⟩ := customs_old c x s as _ m' h
      refine ⟨h1, h2, fun b hb => ?_⟩
      simp only [List.mem_cons, not_or] at hb
      rw [h3 b hb.2]; simp [setAt, hb.1]

theorem TMem.obj_ok {m : TMem P} {t : Nat} {as : List Nat} (h : m.obj t = .ok as) : m.objs t = some as := by
  simp only [obj] at h
  cases e : m.objs t <;> simp_all

theorem TMem.Lost.set {m : TMem P} {a : Nat} (h : m.Lost a) {n : TMem P} (hh : n.heap a = m.heap a)
    (hn : m.next ≤ n.next) (t : Nat) (bs : Option (List Nat)) (hb : ∀ as, bs = some as → a ∉ as)
    (ho : n.objs = setAt m.objs t bs) : n.Lost a := by
  refine ⟨hh ▸ h.1, by have := h.2.1; omega, fun t' as e => ?_⟩
  rw [ho] at e
  simp only [setAt] at e
  split at e
  · exact hb as e
  · exact h.2.2 t' as e

/-- Whatever a program does: what is lost stays in memory. -/
theorem TMem.Lost.step {m m' : TMem P} {a : Nat} (h : m.Lost a) {fmt : K → Txt} {c : ProcClass K P} {op : TOp K P}
    {ts : List Txt} (hs : m.step fmt c op = .ok (m', ts)) : m'.Lost a := by
  cases op with
  | make t =>
    simp only [TMem.step, Res.ok.injEq, Prod.mk.injEq] at hs
    obtain ⟨rfl, -⟩ := hs
    obtain ⟨h1, h2, h3⟩ := TMem.news_old TMem.initial m
    refine h.set (t := t) (bs := some (m.news TMem.initial).2) (h1 a h.2.1) h3 ?_ rfl
    rintro as ⟨⟩ hm
    have := h2 a hm; have := h.2.1; omega
  | copy t t' =>
    simp only [TMem.step, Res.bind_eq_ok, Res.map_eq_ok] at hs
    obtain ⟨as, ha, ps, hp, hs⟩ := hs
    simp only [Prod.mk.injEq] at hs
    obtain ⟨rfl, -⟩ := hs
    obtain ⟨h1, h2, h3⟩ := TMem.news_old (ps.map (Proc.clone c)) m
    refine h.set (t := t) (bs := some (m.news (ps.map (Proc.clone c))).2) (h1 a h.2.1) h3 ?_ rfl
    rintro as ⟨⟩ hm
    have := h2 a hm; have := h.2.1; omega
  | assign t t' =>
    simp only [TMem.step, Res.map_eq_ok] at hs
    obtain ⟨as, ha, hs⟩ := hs
    simp only [Prod.mk.injEq] at hs
    obtain ⟨rfl, -⟩ := hs
    refine h.set (t := t) (bs := some as) rfl (Nat.le_refl _) ?_ rfl
    rintro _ ⟨⟩
    exact h.2.2 _ _ (TMem.obj_ok ha)
  | add t p =>
    simp only [TMem.step, Res.map_eq_ok] at hs
    obtain ⟨as, ha, hs⟩ := hs
    simp only [Prod.mk.injEq] at hs
    obtain ⟨rfl, -⟩ := hs
    obtain ⟨h1, h2, h3⟩ := TMem.news_old [Proc.user p] m
    refine h.set (t := t) (bs := some (as ++ (m.news [Proc.user p]).2)) (h1 a h.2.1) h3 ?_ rfl
    rintro _ ⟨⟩ hm
    rcases List.mem_append.1 hm with hm | hm
    · exact h.2.2 _ _ (TMem.obj_ok ha) hm
    · have := h2 a hm; have := h.2.1; omega
  | customize t e s =>
    simp only [TMem.step, Res.bind_eq_ok, Res.map_eq_ok] at hs
    obtain ⟨as, ha, n, hn, hs⟩ := hs
    simp only [Prod.mk.injEq] at hs
    obtain ⟨rfl, -⟩ := hs
    obtain ⟨h1, h2, h3⟩ := TMem.customs_old c e s as m _ hn
    refine ⟨?_, by rw [h1]; exact h.2.1, by rw [h2]; exact h.2.2⟩
    rw [h3 a (h.2.2 _ _ (TMem.obj_ok ha))]; exact h.1
  | print t e flag =>
    simp only [TMem.step, Res.bind_eq_ok, Res.map_eq_ok] at hs
    obtain ⟨as, ha, ps, hp, hs⟩ := hs
    simp only [Prod.mk.injEq] at hs
    obtain ⟨rfl, -⟩ := hs
    exact h
  | destroy t =>
    simp only [TMem.step, Res.bind_eq_ok, Res.map_eq_ok] at hs
    obtain ⟨as, ha, n, hn, hs⟩ := hs
    simp only [Prod.mk.injEq] at hs
    obtain ⟨rfl, -⟩ := hs
    obtain ⟨h1, h2, h3⟩ := TMem.deletes_old as m _ hn
    refine h.set (t := t) (bs := none) ?_ (by simp [h1]) ?_ rfl
    · exact h3 a (h.2.2 _ _ (TMem.obj_ok ha))
    · rintro _ ⟨⟩

theorem TMem.Lost.exec {fmt : K → Txt} {c : ProcClass K P} {a : Nat} : ∀ (ops : List (TOp K P)) {m m' : TMem P}
    {ts : List Txt}, m.Lost a → m.exec fmt c ops = .ok (m', ts) → m'.Lost a
  | [], m, m', ts, h, hs => by cases hs; exact h
  | op :: ops, m, m', ts, h, hs => by
    simp only [TMem.exec, Res.bind_eq_ok, Res.map_eq_ok] at hs
    obtain ⟨⟨n, ts'⟩, h1, ⟨n', ts''⟩, h2, hs⟩ := hs
    simp only [Prod.mk.injEq] at hs
    obtain ⟨rfl, -⟩ := hs
    exact TMem.Lost.exec ops (h.step h1) h2

/-- Deleting a processor that is not there. -/
theorem TMem.deletes_gone {m : TMem P} {as : List Nat} (hne : as ≠ []) (hg : ∀ a ∈ as, m.heap a = none) :
    m.deletes as = .ub := by
  cases as with
  | nil => exact absurd rfl hne
  | cons a as => simp [deletes, hg a (by simp)]

theorem TMem.procs_gone {m : TMem P} {as : List Nat} (hne : as ≠ []) (hg : ∀ a ∈ as, m.heap a = none) :
    m.procs as = .ub := by
  cases as with
  | nil => exact absurd rfl hne
  | cons a as => simp [procs, hg a (by simp)]

/-! ### The texts -/

attribute [local irreducible] String.toList

/-- The processors of a translator nobody added processors to. -/
def ownProcs (t : Translator) : List (Proc P) := [.binary, .unary, .constant, .variable t.vars, .symbol t.syms]

section
variable (fmt : K → Txt) (c : ProcClass K P) (t : Translator) (us : List (Proc P))

theorem firstTxt_skip {f : Proc P → Txt} {p : Proc P} {ps : List (Proc P)} (h : f p = []) :
    firstTxt f (p :: ps) = firstTxt f ps := by
  rw [firstTxt, if_pos h]

theorem firstTxt_take {f : Proc P → Txt} {p : Proc P} {ps : List (Proc P)} (h : f p ≠ []) :
    firstTxt f (p :: ps) = f p := by
  rw [firstTxt, if_neg h]

theorem firstTxt_cons {f : Proc P → Txt} {p : Proc P} {ps : List (Proc P)} {s : Txt} (h : f p = s ∨ f p = [])
    (he : s ≠ []) (hr : f p ≠ s → firstTxt f ps = s) : firstTxt f (p :: ps) = s := by
  rcases h with h | h
  · rw [firstTxt_take (h ▸ he), h]
  · rw [firstTxt_skip h]; exact hr (by rw [h]; exact Ne.symm he)

theorem firstTxt_known {f : Proc P → Txt} {s : Txt} (hb : f .binary = s ∨ f .binary = []) (hu : f .unary = s ∨ f .unary = [])
    (hc : f .constant = s ∨ f .constant = []) (hv : f (.variable t.vars) = s ∨ f (.variable t.vars) = [])
    (hs : f (.symbol t.syms) = s ∨ f (.symbol t.syms) = [])
    (one : f .binary = s ∨ f .unary = s ∨ f .constant = s ∨ f (.variable t.vars) = s ∨ f (.symbol t.syms) = s)
    (h : us = [] ∨ s ≠ []) : firstTxt f (ownProcs t ++ us) = orUnknown s := by
  simp only [ownProcs, List.cons_append, List.nil_append]
  by_cases e : s = []
  · subst e
    have := h.resolve_right (by simp)
    subst this
    rw [or_self] at hb hu hc hv hs
    rw [firstTxt_skip hb, firstTxt_skip hu, firstTxt_skip hc, firstTxt_skip hv, firstTxt_skip hs]
    rfl
  · rw [orUnknown, if_neg e]
    refine firstTxt_cons hb e fun nb => firstTxt_cons hu e fun nu => firstTxt_cons hc e fun nc =>
      firstTxt_cons hv e fun nv => firstTxt_cons hs e fun ns => ?_
    exact absurd one (by simp [nb, nu, nc, nv, ns])

theorem latexVar_ne {i : Nat} (h : t.vars i ≠ some []) : latexVar t i ≠ [] := by
  simp only [latexVar]
  split
  · next s e => rintro rfl; exact h e
  · simp

theorem latexSym_ne {i g : Nat} (h : t.syms i g ≠ some []) : latexSym t i g ≠ [] := by
  simp only [latexSym]
  split
  · next s e => rintro rfl; exact h e
  · split <;> simp

theorem firstTxt_var (cb : Callback) (flag : Bool) {i : Nat} (h : us = [] ∨ t.vars i ≠ some []) :
    firstTxt (Proc.process fmt c cb flag (.var i)) (ownProcs t ++ us) = orUnknown (latexVar t i) :=
  firstTxt_known t us (.inr rfl) (.inr rfl) (.inr rfl) (.inl rfl) (.inr rfl) (.inr (.inr (.inr (.inl rfl))))
    (h.imp_right (latexVar_ne t))

theorem varTxt_own {i : Nat} (h : us = [] ∨ t.vars i ≠ some []) :
    varTxt fmt c (ownProcs t ++ us) i = orUnknown (latexVar t i) := firstTxt_var fmt c t us _ _ h

theorem unaryTxt_ne (op : UOp) (flag : Bool) (k : Bool → Txt) (var : Nat → Txt) (h : ∀ b, k b ≠ []) :
    unaryTxt op flag k var ≠ [] := by
  unfold unaryTxt
  split
  · exact h _
  all_goals simp

theorem binaryTxt_ne (op : BOp) (flag : Bool) (l r : Bool → Txt) (h : ∀ b, l b ≠ []) : binaryTxt op flag l r ≠ [] := by
  rw [binaryTxt]
  split
  · simp
  · simp [h]

theorem latex_un (op : UOp) (flag : Bool) (e : Expr K) : latex fmt t flag (.un op e) =
    orUnknown (unaryTxt op flag (fun b => latex fmt t b e) (fun i => orUnknown (latexVar t i))) := by
  cases op with
  | fn f => cases f <;> rfl
  | _ => rfl

theorem unaryTxt_pd (i : Nat) (flag : Bool) (k : Bool → Txt) (var : Nat → Txt) : unaryTxt (.pd i) flag k var =
    " \\frac{\\partial ".toList ++ k true ++ "}{\\partial ".toList ++ var i ++ "} ".toList := rfl

theorem latex_integral (lo hi e : Expr K) (x : Nat) (flag : Bool) : latex fmt t flag (.integ lo hi x e) =
    orUnknown (integTxt (fun b => latex fmt t b lo) (fun b => latex fmt t b hi) (fun b => latex fmt t b e)
      (orUnknown (latexVar t x))) := rfl

theorem integTxt_ne (lo hi k : Bool → Txt) (x : Txt) : integTxt lo hi k x ≠ [] :=
  List.append_ne_nil_of_right_ne_nil _ (by simp)

/-- The text of a translator with the processors of the library, whatever processors the user added, as long as the
library has a text. -/
theorem translate_own : ∀ (e : Expr K) (flag : Bool), us = [] ∨ LatexKnown t e →
    translate fmt c (ownProcs t ++ us) e flag = latex fmt t flag e
  | .const v, flag, h => by
    rw [translate, latex]
    exact firstTxt_known t us (.inr rfl) (.inr rfl) (.inl rfl) (.inr rfl) (.inr rfl) (.inr (.inr (.inl rfl)))
      (.inr (by simp))
  | .var i, flag, h => by
    rw [translate, latex]; exact firstTxt_var fmt c t us _ _ h
  | .fsym i g, flag, h => by
    rw [translate, latex]
    exact firstTxt_known t us (.inr rfl) (.inr rfl) (.inr rfl) (.inr rfl) (.inl rfl) (.inr (.inr (.inr (.inr rfl))))
      (h.imp_right (latexSym_ne t))
  | .vec es, flag, h => by
    rw [translate, latex]
    exact firstTxt_known t us (.inr rfl) (.inr rfl) (.inr rfl) (.inr rfl) (.inr rfl) (.inl rfl)
      (h.imp_right False.elim)
  | .bin op l r, flag, h => by
    have hl : translate fmt c (ownProcs t ++ us) l = fun b => latex fmt t b l :=
      funext fun b => translate_own l b (h.imp_right And.left)
    have hr : translate fmt c (ownProcs t ++ us) r = fun b => latex fmt t b r :=
      funext fun b => translate_own r b (h.imp_right And.right)
    rw [translate, hl, hr]
    refine (firstTxt_known t us (s := binaryTxt op flag (fun b => latex fmt t b l) (fun b => latex fmt t b r))
      (.inl rfl) (.inr rfl) (.inr rfl) (.inr rfl) (.inr rfl) (.inl rfl)
      (.inr (binaryTxt_ne _ _ _ _ fun b => latex_ne b l))).trans ?_
    by_cases hop : op = .div
    · subst hop; rw [latex, binaryTxt, if_pos rfl]
    · rw [latex, binaryTxt, if_neg hop]
      intro e; exact hop e
  | .un op e, flag, h => by
    have he : translate fmt c (ownProcs t ++ us) e = fun b => latex fmt t b e :=
      funext fun b => translate_own e b (h.imp_right fun h => by cases op <;> first | exact h | exact h.2)
    rw [translate, he]
    refine (firstTxt_known t us (s := unaryTxt op flag (fun b => latex fmt t b e) (varTxt fmt c (ownProcs t ++ us)))
      (.inr rfl) (.inl rfl) (.inr rfl) (.inr rfl) (.inr rfl) (.inr (.inl rfl))
      (.inr (unaryTxt_ne _ _ _ _ fun b => latex_ne b e))).trans ?_
    cases op with
    | pd i => rw [latex_un, unaryTxt_pd, unaryTxt_pd, varTxt_own fmt c t us (h.imp_right And.left)]
    | fn f => rw [latex_un]; cases f <;> rfl
    | _ => rw [latex_un]; rfl
  | .integ lo hi x e, flag, h => by
    have h1 : translate fmt c (ownProcs t ++ us) lo = fun b => latex fmt t b lo :=
      funext fun b => translate_own lo b (h.imp_right (·.2.1))
    have h2 : translate fmt c (ownProcs t ++ us) hi = fun b => latex fmt t b hi :=
      funext fun b => translate_own hi b (h.imp_right (·.2.2.1))
    have h3 : translate fmt c (ownProcs t ++ us) e = fun b => latex fmt t b e :=
      funext fun b => translate_own e b (h.imp_right (·.2.2.2))
    rw [translate, h1, h2, h3]
    refine (firstTxt_known t us (s := integTxt (fun b => latex fmt t b lo) (fun b => latex fmt t b hi)
      (fun b => latex fmt t b e) (varTxt fmt c (ownProcs t ++ us) x))
      (.inr rfl) (.inl rfl) (.inr rfl) (.inr rfl) (.inr rfl) (.inr (.inl rfl))
      (.inr (integTxt_ne _ _ _ _))).trans ?_
    rw [latex_integral, varTxt_own fmt c t us (h.imp_right And.left)]

end

end VM
