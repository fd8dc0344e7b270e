import Verif.Spec.LatexObj
/-
Lemmas about translators as objects: each live processor has one owner.
-/
namespace VM
open Spec
variable {K P : Type}

/-- The heap holds the processors `ps` at the addresses `as`. -/
def Holds (heap : Nat → Option (Proc P)) : List Nat → List (Proc P) → Prop
  | [], [] => True
  | a :: as, p :: ps => heap a = some p ∧ Holds heap as ps
  | _, _ => False

theorem Holds.congr {h h' : Nat → Option (Proc P)} : ∀ {as : List Nat} {ps}, (∀ a ∈ as, h' a = h a) → Holds h as ps →
    Holds h' as ps
  | [], [], _, _ => trivial
  | a :: as, p :: ps, e, hh => by
    refine ⟨(e a (by simp)).trans hh.1, Holds.congr (fun b hb => e b (by simp [hb])) hh.2⟩
  | [], _ :: _, _, hh => hh
  | _ :: _, [], _, hh => hh

theorem Holds.append {h : Nat → Option (Proc P)} : ∀ {as : List Nat} {ps bs qs}, Holds h as ps → Holds h bs qs →
    Holds h (as ++ bs) (ps ++ qs)
  | [], [], _, _, _, h2 => h2
  | _ :: _, _ :: _, _, _, h1, h2 => ⟨h1.1, Holds.append h1.2 h2⟩
  | [], _ :: _, _, _, h1, _ => h1.elim
  | _ :: _, [], _, _, h1, _ => h1.elim

theorem Holds.alive {h : Nat → Option (Proc P)} : ∀ {as : List Nat} {ps}, Holds h as ps → ∀ a ∈ as, h a ≠ none
  | [], [], _, _, ha => by simp at ha
  | a :: as, p :: ps, hh, b, hb => by
    rcases List.mem_cons.1 hb with rfl | hb
    · simp [hh.1]
    · exact hh.2.alive b hb

theorem Holds.procs {m : TMem P} : ∀ {as : List Nat} {ps}, Holds m.heap as ps → m.procs as = .ok ps
  | [], [], _ => rfl
  | a :: as, p :: ps, hh => by simp [TMem.procs, hh.1, hh.2.procs, Res.map]

/-- New processors lie at new addresses. -/
theorem TMem.news_spec : ∀ (ps : List (Proc P)) (m : TMem P), (∀ a, m.next ≤ a → m.heap a = none) →
    (m.news ps).1.objs = m.objs ∧ (∀ a, a < m.next → (m.news ps).1.heap a = m.heap a) ∧
    Holds (m.news ps).1.heap (m.news ps).2 ps ∧ (m.news ps).2.Nodup ∧
    (∀ a ∈ (m.news ps).2, m.next ≤ a) ∧ (∀ a, (m.news ps).1.heap a ≠ none → a < m.next ∨ a ∈ (m.news ps).2) ∧
    (∀ a, (m.news ps).1.next ≤ a → (m.news ps).1.heap a = none) ∧ m.next ≤ (m.news ps).1.next
  | [], m, hf => by
    refine ⟨rfl, fun _ _ => rfl, trivial, by simp [news], by simp [news], fun a ha => .inl ?_, hf, Nat.le_refl _⟩
    rcases Nat.lt_or_ge a m.next with h | h
    · exact h
    · exact absurd (hf a h) ha
  | p :: ps, m, hf => by
    obtain ⟨h1, h2, h3, h4, h5, h6, h7, h8⟩ := news_spec ps
      { m with heap := setAt m.heap m.next (some p), next := m.next + 1 } (fun a ha => by
        have : a ≠ m.next := by simp at ha; omega
        simp only [setAt, this, if_false]; exact hf a (by simp at ha; omega))
    simp only [news]
    refine ⟨h1, fun a ha => ?_, ⟨?_, h3⟩, List.nodup_cons.2 ⟨fun hm => ?_, h4⟩, fun a ha => ?_, fun a ha => ?_, h7, ?_⟩
    · rw [h2 a (by simp; omega)]
      have : a ≠ m.next := by omega
      simp [setAt, this]
    · rw [h2 m.next (by simp)]; simp [setAt]
    · have := h5 _ hm; simp at this; omega
    · rcases List.mem_cons.1 ha with rfl | ha
      · exact Nat.le_refl _
      · have := h5 _ ha; simp at this; omega
    · rcases h6 a ha with h | h
      · simp only at h
        by_cases e : a = m.next
        · exact .inr (by simp [e])
        · exact .inl (by omega)
      · exact .inr (by simp [h])
    · simp only at h8; omega

/-- Deleting processors that are there. -/
theorem TMem.deletes_spec : ∀ (as : List Nat) (m : TMem P), as.Nodup → (∀ a ∈ as, m.heap a ≠ none) →
    ∃ m', m.deletes as = .ok m' ∧ m'.objs = m.objs ∧ m'.next = m.next ∧
      (∀ a, a ∈ as → m'.heap a = none) ∧ (∀ a, a ∉ as → m'.heap a = m.heap a)
  | [], m, _, _ => ⟨m, rfl, rfl, rfl, by simp, fun _ _ => rfl⟩
  | a :: as, m, hn, hl => by
    obtain ⟨hna, hn⟩ := List.nodup_cons.1 hn
    cases e : m.heap a with
    | none => exact absurd e (hl a (by simp))
    | some p =>
      obtain ⟨m', h1, h2, h3, h4, h5⟩ := deletes_spec as { m with heap := setAt m.heap a none } hn (fun b hb => by
        have : b ≠ a := by rintro rfl; exact hna hb
        simp only [setAt, this, if_false]; exact hl b (by simp [hb]))
      refine ⟨m', by simp [deletes, e, h1], h2, h3, fun b hb => ?_, fun b hb => ?_⟩
      · rcases List.mem_cons.1 hb with rfl | hb
        · rw [h5 _ hna]; simp [setAt]
        · exact h4 b hb
      · simp only [List.mem_cons, not_or] at hb
        rw [h5 b hb.2]; simp [setAt, hb.1]

/-- Customising processors that are there. -/
theorem TMem.customs_spec (c : ProcClass K P) (e : Expr K) (s : Txt) : ∀ (as : List Nat) (ps : List (Proc P)) (m : TMem P),
    as.Nodup → Holds m.heap as ps →
    ∃ m', m.customs c e s as = .ok m' ∧ m'.objs = m.objs ∧ m'.next = m.next ∧
      Holds m'.heap as (ps.map (Proc.customize c e s)) ∧ (∀ a, a ∉ as → m'.heap a = m.heap a)
  | [], [], m, _, _ => ⟨m, rfl, rfl, rfl, trivial, fun _ _ => rfl⟩
  | a :: as, p :: ps, m, hn, hh => by
    obtain ⟨hna, hn⟩ := List.nodup_cons.1 hn
    obtain ⟨m', h1, h2, h3, h4, h5⟩ := customs_spec c e s as ps
      { m with heap := setAt m.heap a (some (p.customize c e s)) } hn
      (hh.2.congr fun b hb => by
        have : b ≠ a := by rintro rfl; exact hna hb
        simp [setAt, this])
    refine ⟨m', by simp [customs, hh.1, h1], h2, h3, ⟨?_, h4⟩, fun b hb => ?_⟩
    · rw [h5 _ hna]; simp [setAt]
    · simp only [List.mem_cons, not_or] at hb
      rw [h5 b hb.2]; simp [setAt, hb.1]

/-- The memory holds the translators `v`, and each processor has one owner. -/
structure TInv (m : TMem P) (v : TVals P) : Prop where
  gone : ∀ t, v t = none → m.objs t = none
  held : ∀ t ps, v t = some ps → ∃ as, m.objs t = some as ∧ Holds m.heap as ps ∧ as.Nodup ∧ as ≠ []
  one : ∀ t t' as bs a, m.objs t = some as → m.objs t' = some bs → a ∈ as → a ∈ bs → t = t'
  live : ∀ a, m.heap a ≠ none → ∃ t as, m.objs t = some as ∧ a ∈ as
  fresh : ∀ a, m.next ≤ a → m.heap a = none

theorem TInv.empty : TInv (P := P) .empty .empty where
  gone _ _ := rfl
  held _ _ h := by cases h
  one _ _ _ _ _ h := by cases h
  live a h := (h rfl).elim
  fresh _ _ := rfl

variable {m : TMem P} {v : TVals P}

theorem TInv.val (h : TInv m v) {t : Nat} {as : List Nat} (ht : m.objs t = some as) :
    ∃ ps, v t = some ps ∧ Holds m.heap as ps ∧ as.Nodup ∧ as ≠ [] := by
  cases e : v t with
  | none => rw [h.gone t e] at ht; cases ht
  | some ps =>
    obtain ⟨as', h1, h2⟩ := h.held t ps e
    rw [ht] at h1; cases h1
    exact ⟨ps, rfl, h2⟩

theorem TInv.old (h : TInv m v) {t : Nat} {as : List Nat} (ht : m.objs t = some as) : ∀ a ∈ as, a < m.next := by
  intro a ha
  obtain ⟨ps, _, h1, _⟩ := h.val ht
  rcases Nat.lt_or_ge a m.next with hl | hl
  · exact hl
  · exact absurd (h.fresh a hl) (h1.alive a ha)

/-- A translator gets new processors in addition to those it has. -/
theorem TInv.grow (h : TInv m v) {t : Nat} (ps : List (Proc P)) (hps : ps ≠ []) (as : List Nat) (qs : List (Proc P))
    (ht : (m.objs t = none ∧ as = [] ∧ qs = []) ∨ (m.objs t = some as ∧ v t = some qs)) :
    TInv { (m.news ps).1 with objs := setAt m.objs t (some (as ++ (m.news ps).2)) } (setAt v t (some (qs ++ ps))) := by
  obtain ⟨-, h2, h3, h4, h5, h6, h7, h8⟩ := TMem.news_spec ps m h.fresh
  have hold : ∀ a ∈ as, a < m.next := by
    rcases ht with ⟨_, rfl, _⟩ | ⟨ht, _⟩
    · simp
    · exact h.old ht
  have hh : Holds m.heap as qs ∧ as.Nodup := by
    rcases ht with ⟨_, rfl, rfl⟩ | ⟨ht, hv⟩
    · exact ⟨trivial, by simp⟩
    · obtain ⟨ps', e, h1, h2, _⟩ := h.val ht
      rw [hv] at e; cases e; exact ⟨h1, h2⟩
  have hne : (m.news ps).2 ≠ [] := by
    cases ps with
    | nil => exact absurd rfl hps
    | cons p ps => simp [TMem.news]
  have away : ∀ t' bs a, t' ≠ t → m.objs t' = some bs → a ∈ bs → a ∈ as ++ (m.news ps).2 → False := by
    intro t' bs a hne ht' ha hb
    rcases List.mem_append.1 hb with hb | hb
    · rcases ht with ⟨_, rfl, _⟩ | ⟨ht, _⟩
      · simp at hb
      · exact hne (h.one _ _ _ _ a ht' ht ha hb)
    · have := h.old ht' a ha; have := h5 a hb; omega
  refine ⟨fun t' hv => ?_, fun t' ps' hv => ?_, fun t1 t2 bs1 bs2 a e1 e2 m1 m2 => ?_, fun a ha => ?_, h7⟩
  · simp only [setAt] at hv ⊢
    split at hv
    · cases hv
    · next e => simp only [e, if_false]; exact h.gone t' hv
  · simp only [setAt] at hv ⊢
    split at hv
    · next e =>
      cases hv
      refine ⟨_, by rw [if_pos e], (hh.1.congr fun a ha => h2 a (hold a ha)).append h3, ?_, by simp [hne]⟩
      exact List.nodup_append.2 ⟨hh.2, h4, fun a ha b hb => by
        rintro rfl
        have := hold a ha; have := h5 a hb; omega⟩
    · next e =>
      obtain ⟨bs, e1, e2, e3⟩ := h.held t' ps' hv
      exact ⟨bs, by rw [if_neg e]; exact e1, e2.congr fun a ha => h2 a (h.old e1 a ha), e3⟩
  · simp only [setAt] at e1 e2
    split at e1 <;> split at e2
    · next a1 a2 => rw [a1, a2]
    · next a1 a2 => cases e1; exact (away _ _ _ a2 e2 m2 m1).elim
    · next a1 a2 => cases e2; exact (away _ _ _ a1 e1 m1 m2).elim
    · exact h.one _ _ _ _ a e1 e2 m1 m2
  · simp only [setAt]
    rcases h6 a ha with hl | hl
    · simp only at ha
      rw [h2 a hl] at ha
      obtain ⟨t', bs, e1, e2⟩ := h.live a ha
      by_cases e : t' = t
      · subst e
        rcases ht with ⟨ht, _⟩ | ⟨ht, _⟩
        · rw [ht] at e1; cases e1
        · rw [ht] at e1; cases e1
          exact ⟨t', as ++ (m.news ps).2, by simp, by simp [e2]⟩
      · exact ⟨t', bs, by simp [e, e1], e2⟩
    · exact ⟨t, as ++ (m.news ps).2, by simp, by simp [hl]⟩

theorem TInv.make (h : TInv m v) {t : Nat} (ht : v t = none) (ps : List (Proc P)) (hps : ps ≠ []) :
    TInv { (m.news ps).1 with objs := setAt m.objs t (some (m.news ps).2) } (setAt v t (some ps)) := by
  simpa using h.grow (t := t) ps hps [] [] (.inl ⟨h.gone t ht, rfl, rfl⟩)

theorem TInv.destroy (h : TInv m v) {t : Nat} {as : List Nat} (ht : m.objs t = some as) :
    ∃ m', m.deletes as = .ok m' ∧ TInv { m' with objs := setAt m.objs t none } (setAt v t none) := by
  obtain ⟨ps, hv, h1, h2, _⟩ := h.val ht
  obtain ⟨m', d1, d2, d3, d4, d5⟩ := TMem.deletes_spec as m h2 h1.alive
  refine ⟨m', d1, fun t' hv => ?_, fun t' ps' hv => ?_, fun t1 t2 bs1 bs2 a e1 e2 m1 m2 => ?_, fun a ha => ?_,
    fun a ha => ?_⟩
  · simp only [setAt] at hv ⊢
    split at hv
    · next e => simp [e]
    · next e => simp only [e, if_false]; exact h.gone t' hv
  · simp only [setAt] at hv ⊢
    split at hv
    · cases hv
    · next e =>
      obtain ⟨bs, e1, e2, e3⟩ := h.held t' ps' hv
      refine ⟨bs, by rw [if_neg e]; exact e1, e2.congr fun a ha => d5 a fun hm => ?_, e3⟩
      exact e (h.one _ _ _ _ a e1 ht ha hm)
  · simp only [setAt] at e1 e2
    split at e1 <;> split at e2
    · cases e1
    · cases e1
    · cases e2
    · exact h.one _ _ _ _ a e1 e2 m1 m2
  · simp only [setAt] at ha ⊢
    by_cases hm : a ∈ as
    · exact (ha (d4 a hm)).elim
    · rw [d5 a hm] at ha
      obtain ⟨t', bs, e1, e2⟩ := h.live a ha
      have : t' ≠ t := by
        rintro rfl
        rw [ht] at e1; cases e1; exact hm e2
      exact ⟨t', bs, by simp [this, e1], e2⟩
  · simp only at ha ⊢
    by_cases hm : a ∈ as
    · exact d4 a hm
    · rw [d5 a hm]; exact h.fresh a (d3 ▸ ha)

theorem TInv.customize (h : TInv m v) {t : Nat} {as : List Nat} {ps} (ht : m.objs t = some as) (hv : v t = some ps)
    (c : ProcClass K P) (e : Expr K) (s : Txt) :
    ∃ m', m.customs c e s as = .ok m' ∧ TInv m' (setAt v t (some (ps.map (Proc.customize c e s)))) := by
  obtain ⟨ps', hv', h1, h2, h3⟩ := h.val ht
  rw [hv] at hv'; cases hv'
  obtain ⟨m', d1, d2, d3, d4, d5⟩ := TMem.customs_spec c e s as ps m h2 h1
  refine ⟨m', d1, fun t' hv => ?_, fun t' ps' hv => ?_, fun t1 t2 bs1 bs2 a e1 e2 m1 m2 => ?_, fun a ha => ?_,
    fun a ha => ?_⟩
  · simp only [setAt] at hv
    split at hv
    · cases hv
    · rw [d2]; exact h.gone t' hv
  · simp only [setAt] at hv
    split at hv
    · next e =>
      cases hv; subst e
      exact ⟨as, by rw [d2]; exact ht, d4, h2, h3⟩
    · next e =>
      obtain ⟨bs, e1, e2, e3⟩ := h.held t' ps' hv
      refine ⟨bs, by rw [d2]; exact e1, e2.congr fun a ha => d5 a fun hm => ?_, e3⟩
      exact e (h.one _ _ _ _ a e1 ht ha hm)
  · rw [d2] at e1 e2
    exact h.one _ _ _ _ a e1 e2 m1 m2
  · rw [d2]
    by_cases hm : a ∈ as
    · exact ⟨t, as, ht, hm⟩
    · rw [d5 a hm] at ha; exact h.live a ha
  · have : a ∉ as := fun hm => by have := h.old ht a hm; omega
    rw [d5 a this]; exact h.fresh a (d3 ▸ ha)

theorem setAt_same {α : Type} (f : Nat → α) (i : Nat) (x : α) (h : f i = x) : setAt f i x = f := by
  funext j
  simp only [setAt]
  split
  · next e => rw [e, h]
  · rfl

/-- A step of a program that assigns no translator to another one. -/
theorem TInv.step (fmt : K → Txt) (c : ProcClass K P) (h : TInv m v) {op : TOp K P} (hl : TLegal v op)
    (hs : ∀ t t', op = .assign t t' → t = t') :
    ∃ m', m.step fmt c op = .ok (m', (v.step fmt c op).2) ∧ TInv m' (v.step fmt c op).1 := by
  have alive : ∀ t, v t ≠ none → ∃ as ps, m.objs t = some as ∧ v t = some ps ∧ Holds m.heap as ps ∧ as ≠ [] := by
    intro t ht
    cases e : v t with
    | none => exact absurd e ht
    | some ps =>
      obtain ⟨as, h1, h2, _, h3⟩ := h.held t ps e
      exact ⟨as, ps, h1, rfl, h2, h3⟩
  cases op with
  | make t => exact ⟨_, rfl, by simpa [TVals.step, TVals.stepOn] using h.make hl TMem.initial (by simp [TMem.initial])⟩
  | copy t t' =>
    obtain ⟨as, ps, h1, h2, h3, h4⟩ := alive t' hl.2
    refine ⟨_, by simp only [TMem.step, TMem.obj, h1, Res.bind, h3.procs, Res.map]; rfl, ?_⟩
    have : ps.map (Proc.clone c) ≠ [] := by
      intro e
      rw [List.map_eq_nil_iff] at e; subst e
      cases as with
      | nil => exact h4 rfl
      | cons _ _ => exact h3
    simpa [TVals.step, TVals.stepOn, TOp.source, h2] using h.make hl.1 _ this
  | assign t t' =>
    obtain rfl := hs t t' rfl
    obtain ⟨as, ps, h1, h2, h3, h4⟩ := alive t hl.1
    refine ⟨m, ?_, ?_⟩
    · simp [TMem.step, TMem.obj, h1, Res.map, TVals.step, TVals.stepOn, setAt_same]
    · simpa [TVals.step, TVals.stepOn, TOp.source, h2, setAt_same] using h
  | add t p =>
    obtain ⟨as, ps, h1, h2, h3, h4⟩ := alive t hl
    refine ⟨_, by simp only [TMem.step, TMem.obj, h1, Res.map]; rfl, ?_⟩
    simpa [TVals.step, TVals.stepOn, TOp.source, h2] using h.grow [.user p] (by simp) as ps (.inr ⟨h1, h2⟩)
  | customize t e s =>
    obtain ⟨as, ps, h1, h2, h3, h4⟩ := alive t hl
    obtain ⟨m', d1, d2⟩ := h.customize h1 h2 c e s
    refine ⟨m', by simp only [TMem.step, TMem.obj, h1, Res.bind, d1, Res.map]; rfl, ?_⟩
    simpa [TVals.step, TVals.stepOn, TOp.source, h2] using d2
  | print t e flag =>
    obtain ⟨as, ps, h1, h2, h3, h4⟩ := alive t hl
    refine ⟨m, ?_, by simpa [TVals.step, TVals.stepOn] using h⟩
    simp [TMem.step, TMem.obj, h1, Res.bind, h3.procs, Res.map, TVals.step, TVals.stepOn, TOp.source, h2]
  | destroy t =>
    obtain ⟨as, ps, h1, h2, h3, h4⟩ := alive t hl
    obtain ⟨m', d1, d2⟩ := h.destroy h1
    refine ⟨_, by simp only [TMem.step, TMem.obj, h1, Res.bind, d1, Res.map]; rfl, ?_⟩
    simpa [TVals.step, TVals.stepOn, TOp.source, h2] using d2

theorem TInv.exec (fmt : K → Txt) (c : ProcClass K P) : ∀ (ops : List (TOp K P)) {m : TMem P} {v : TVals P}, TInv m v →
    TProgram fmt c v ops →
    ∃ m', m.exec fmt c ops = .ok (m', (v.exec fmt c ops).2) ∧ TInv m' (v.exec fmt c ops).1
  | [], m, v, h, _ => ⟨m, rfl, h⟩
  | op :: ops, m, v, h, hp => by
    obtain ⟨m', h1, h2⟩ := h.step fmt c hp.1 hp.2.1
    obtain ⟨m'', h3, h4⟩ := TInv.exec fmt c ops h2 hp.2.2
    exact ⟨m'', by simp [TMem.exec, h1, Res.bind, h3, Res.map, TVals.exec], by simpa [TVals.exec] using h4⟩

end VM
