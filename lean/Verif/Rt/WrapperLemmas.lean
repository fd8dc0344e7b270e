import Verif.Spec.Wrapper
/-
Wrappers own their functors.
-/
namespace VM
open Spec
variable {F : Type}

/-- The memory `m` is in the abstract state `s`: every functor that exists waits or belongs to exactly one wrapper. -/
structure WRep (m : WMem F) (s : Wrappers F) : Prop where
  made : m.made = s.made
  bound : ∀ a f, m.functors a = some f → a < m.made
  waiting : ∀ a f, s.waiting a = some f → m.functors a = some f
  null : ∀ w, m.wrappers w = some none ↔ s.has w = some none
  absent : ∀ w, m.wrappers w = none ↔ s.has w = none
  held : ∀ w a, m.wrappers w = some (some a) → ∃ f, m.functors a = some f ∧ s.has w = some (some f)
  free : ∀ w a, m.wrappers w = some (some a) → s.waiting a = none
  one : ∀ w w' a, m.wrappers w = some (some a) → m.wrappers w' = some (some a) → w = w'
  owned : ∀ a f, m.functors a = some f → s.waiting a = some f ∨ ∃ w, m.wrappers w = some (some a)

theorem WRep.empty : WRep (F := F) .empty .none := by
  constructor <;> simp [WMem.empty, Wrappers.none]

theorem putAt_self {α : Type} (f : Nat → α) (i : Nat) (a : α) : putAt f i a i = a := by simp [putAt]

theorem putAt_ne {α : Type} {f : Nat → α} {i j : Nat} (a : α) (h : j ≠ i) : putAt f i a j = f j := by simp [putAt, h]

theorem WRep.new {m : WMem F} {s : Wrappers F} (h : WRep m s) (f : F) :
    WRep { m with functors := putAt m.functors m.made (some f), made := m.made + 1 }
      { s with waiting := putAt s.waiting s.made (some f), made := s.made + 1 } := by
  have hm := h.made
  have hfresh : ∀ a f, m.functors a = some f → a ≠ m.made := fun a f ha he => by
    have := h.bound a f ha; omega
  constructor
  · simp [hm]
  · intro a g hg
    simp only [putAt] at hg
    split at hg
    · show a < m.made + 1; omega
    · exact Nat.lt_succ_of_lt (h.bound a g hg)
  · intro a g hg
    simp only [putAt, ← hm] at hg ⊢
    split at hg <;> rename_i he
    · simp [he, hg]
    · simp [he, h.waiting a g hg]
  · exact h.null
  · exact h.absent
  · intro w a hw
    obtain ⟨g, h1, h2⟩ := h.held w a hw
    exact ⟨g, by simp [putAt, hfresh a g h1, h1], h2⟩
  · intro w a hw
    obtain ⟨g, h1, h2⟩ := h.held w a hw
    have := hfresh a g h1
    simp only [putAt, ← hm, this, if_false]
    exact h.free w a hw
  · exact h.one
  · intro a g hg
    simp only [putAt, ← hm] at hg ⊢
    split at hg <;> rename_i he
    · left; simp [he, hg]
    · rcases h.owned a g hg with h' | h'
      · left; simp [he, h']
      · right; exact h'

theorem WRep.wrap {m : WMem F} {s : Wrappers F} (h : WRep m s) {w p : Nat} {f : F} (hw : s.has w = none)
    (hp : s.waiting p = some f) :
    WRep { m with wrappers := putAt m.wrappers w (some (some p)) }
      { s with waiting := putAt s.waiting p none, has := putAt s.has w (some (some f)) } := by
  have hp' := h.waiting p f hp
  have hnp : ∀ v, m.wrappers v ≠ some (some p) := fun v hv => by
    have := h.free v p hv; rw [hp] at this; cases this
  constructor
  · exact h.made
  · exact h.bound
  · intro a g hg
    simp only [putAt] at hg
    split at hg
    · cases hg
    · exact h.waiting a g hg
  · intro v
    simp only [putAt]
    split
    · simp
    · exact h.null v
  · intro v
    simp only [putAt]
    split
    · simp
    · exact h.absent v
  · intro v a hv
    simp only [putAt] at hv ⊢
    split at hv <;> rename_i he
    · cases hv; exact ⟨f, hp', by simp [he]⟩
    · obtain ⟨g, h1, h2⟩ := h.held v a hv
      exact ⟨g, h1, by simp [he, h2]⟩
  · intro v a hv
    simp only [putAt] at hv ⊢
    split at hv
    · cases hv; simp
    · split
      · rfl
      · exact h.free v a hv
  · intro v v' a hv hv'
    simp only [putAt] at hv hv'
    split at hv <;> split at hv' <;> rename_i h1 h2
    · rw [h1, h2]
    · cases hv; exact absurd hv' (hnp v')
    · cases hv'; exact absurd hv (hnp v)
    · exact h.one v v' a hv hv'
  · intro a g hg
    rcases h.owned a g hg with h' | ⟨v, hv⟩
    · by_cases he : a = p
      · right; exact ⟨w, by simp [putAt, he]⟩
      · left; simp [putAt, he, h']
    · right
      refine ⟨v, ?_⟩
      have : v ≠ w := fun he => by rw [he, (h.absent w).2 hw] at hv; cases hv
      simp [putAt, this, hv]

/-- Destroying what a wrapper has, leaving it without a functor. -/
theorem WRep.delete {m : WMem F} {s : Wrappers F} (h : WRep m s) {w : Nat} {u : Option Nat} (hu : m.wrappers w = some u) :
    ∃ m', m.delete u = .ok m' ∧ m'.wrappers = m.wrappers ∧
      WRep { m' with wrappers := putAt m.wrappers w (some none) } { s with has := putAt s.has w (some none) } := by
  cases u with
  | none =>
    refine ⟨m, rfl, rfl, ?_⟩
    have e1 : putAt m.wrappers w (some none) = m.wrappers := by
      funext v; simp only [putAt]; split
      · next he => rw [he, hu]
      · rfl
    have e2 : putAt s.has w (some none) = s.has := by
      funext v; simp only [putAt]; split
      · next he => rw [he, (h.null w).1 hu]
      · rfl
    rw [e1, e2]; exact h
  | some a =>
    obtain ⟨f, hf, hs⟩ := h.held w a hu
    refine ⟨{ m with functors := putAt m.functors a none }, by simp [WMem.delete, hf], rfl, ?_⟩
    constructor
    · exact h.made
    · intro b g hg
      simp only [putAt] at hg
      split at hg
      · cases hg
      · exact h.bound b g hg
    · intro b g hg
      have hne : b ≠ a := fun he => by
        have hb : s.waiting b = some g := hg
        rw [he, h.free w a hu] at hb; cases hb
      simp only [putAt, hne, if_false]
      exact h.waiting b g hg
    · intro v
      simp only [putAt]
      split
      · simp
      · exact h.null v
    · intro v
      simp only [putAt]
      split
      · simp
      · exact h.absent v
    · intro v b hv
      simp only [putAt] at hv ⊢
      split at hv <;> rename_i he
      · cases hv
      · obtain ⟨g, h1, h2⟩ := h.held v b hv
        have hne : b ≠ a := fun hb => he (h.one v w a (hb ▸ hv) hu)
        exact ⟨g, by simp [hne, h1], by simp [he, h2]⟩
    · intro v b hv
      simp only [putAt] at hv
      split at hv
      · cases hv
      · exact h.free v b hv
    · intro v v' b hv hv'
      simp only [putAt] at hv hv'
      split at hv
      · cases hv
      · split at hv'
        · cases hv'
        · exact h.one v v' b hv hv'
    · intro b g hg
      simp only [putAt] at hg
      split at hg <;> rename_i he
      · cases hg
      · rcases h.owned b g hg with h' | ⟨v, hv⟩
        · exact .inl h'
        · right
          refine ⟨v, ?_⟩
          have : v ≠ w := fun he' => by rw [he', hu] at hv; cases hv; exact he rfl
          simp [putAt, this, hv]

/-- Moving what `w'` has to `w`, which has nothing (or is not there yet). -/
theorem WRep.move {m : WMem F} {s : Wrappers F} (h : WRep m s) {w w' : Nat} {v : Option F} {u : Option Nat}
    (hw : m.wrappers w = none ∨ m.wrappers w = some none) (hu : m.wrappers w' = some u) (hv : s.has w' = some v)
    (hne : w ≠ w') :
    WRep { m with wrappers := putAt (putAt m.wrappers w' (some none)) w (some u) }
      { s with has := putAt (putAt s.has w' (some none)) w (some v) } := by
  have huv : u = none ↔ v = none := by
    constructor
    · rintro rfl; have := (h.null w').1 hu; rw [hv] at this; cases this; rfl
    · rintro rfl; have := (h.null w').2 hv; rw [hu] at this; cases this; rfl
  have hnw : ∀ a, m.wrappers w ≠ some (some a) := fun a ha => by rcases hw with h' | h' <;> rw [h'] at ha <;> cases ha
  constructor
  · exact h.made
  · exact h.bound
  · exact h.waiting
  · intro x
    simp only [putAt]
    split
    · simp [huv]
    · split
      · simp
      · exact h.null x
  · intro x
    simp only [putAt]
    split
    · simp
    · split
      · simp
      · exact h.absent x
  · intro x a hx
    simp only [putAt] at hx ⊢
    split at hx <;> rename_i h1
    · cases hx
      obtain ⟨g, h2, h3⟩ := h.held w' a hu
      rw [hv] at h3; cases h3
      exact ⟨g, h2, by simp [h1]⟩
    · split at hx <;> rename_i h2
      · cases hx
      · obtain ⟨g, h3, h4⟩ := h.held x a hx
        exact ⟨g, h3, by simp [h1, h2, h4]⟩
  · intro x a hx
    simp only [putAt] at hx
    split at hx
    · cases hx; exact h.free w' a hu
    · split at hx
      · cases hx
      · exact h.free x a hx
  · intro x x' a hx hx'
    simp only [putAt] at hx hx'
    split at hx <;> rename_i h1 <;> split at hx' <;> rename_i h2
    · rw [h1, h2]
    · split at hx' <;> rename_i h3
      · cases hx'
      · cases hx; exact absurd (h.one x' w' a hx' hu) h3
    · split at hx <;> rename_i h3
      · cases hx
      · cases hx'; exact absurd (h.one x w' a hx hu) h3
    · split at hx
      · cases hx
      · split at hx'
        · cases hx'
        · exact h.one x x' a hx hx'
  · intro a g hg
    rcases h.owned a g hg with h' | ⟨x, hx⟩
    · exact .inl h'
    · right
      by_cases he : x = w'
      · subst he; rw [hu] at hx; cases hx
        exact ⟨w, by simp [putAt]⟩
      · refine ⟨x, ?_⟩
        have : x ≠ w := fun he' => hnw a (he' ▸ hx)
        simp [putAt, this, he, hx]

/-- A wrapper without a functor disappears. -/
theorem WRep.remove {m : WMem F} {s : Wrappers F} (h : WRep m s) {w : Nat} (hw : m.wrappers w = some none) :
    WRep { m with wrappers := putAt m.wrappers w none } { s with has := putAt s.has w none } := by
  constructor
  · exact h.made
  · exact h.bound
  · exact h.waiting
  · intro x; simp only [putAt]; split
    · simp
    · exact h.null x
  · intro x; simp only [putAt]; split
    · simp
    · exact h.absent x
  · intro x a hx
    simp only [putAt] at hx ⊢
    split at hx <;> rename_i he
    · cases hx
    · obtain ⟨g, h1, h2⟩ := h.held x a hx
      exact ⟨g, h1, by simp [he, h2]⟩
  · intro x a hx
    simp only [putAt] at hx
    split at hx
    · cases hx
    · exact h.free x a hx
  · intro x x' a hx hx'
    simp only [putAt] at hx hx'
    split at hx
    · cases hx
    · split at hx'
      · cases hx'
      · exact h.one x x' a hx hx'
  · intro a g hg
    rcases h.owned a g hg with h' | ⟨x, hx⟩
    · exact .inl h'
    · right
      refine ⟨x, ?_⟩
      have : x ≠ w := fun he => by rw [he, hw] at hx; cases hx
      simp [putAt, this, hx]

theorem putAt_putAt {α : Type} (f : Nat → α) (i : Nat) (a b : α) : putAt (putAt f i a) i b = putAt f i b := by
  funext j; simp only [putAt]; split <;> rfl

theorem putAt_comm {α : Type} (f : Nat → α) {i j : Nat} (a b : α) (h : i ≠ j) :
    putAt (putAt f i a) j b = putAt (putAt f j b) i a := by
  funext k; simp only [putAt]; split <;> split <;> simp_all

theorem WRep.step {m : WMem F} {s t : Wrappers F} {op : WOp F} {c : Option F} (h : WRep m s) (hp : WPasses s op t c) :
    ∃ m', m.step op = some (.ok (m', c)) ∧ WRep m' t := by
  cases hp with
  | new f => exact ⟨_, rfl, h.new f⟩
  | wrap w p f hw hf =>
    have h1 : m.wrappers w = none := (h.absent w).2 hw
    have h2 : p < m.made := h.bound p f (h.waiting p f hf)
    exact ⟨_, by simp [WMem.step, h1, h2], h.wrap hw hf⟩
  | copy w w' v hw hv =>
    have h1 : m.wrappers w = none := (h.absent w).2 hw
    have hne : w ≠ w' := fun he => by rw [he, hv] at hw; cases hw
    cases hu : m.wrappers w' with
    | none => rw [(h.absent w').1 hu] at hv; cases hv
    | some u => exact ⟨_, by simp [WMem.step, h1, hu], h.move (.inl h1) hu hv hne⟩
  | assignSelf w v hv =>
    cases hu : m.wrappers w with
    | none => rw [(h.absent w).1 hu] at hv; cases hv
    | some u => exact ⟨m, by simp [WMem.step, hu], h⟩
  | assign w w' u v hne hu hv =>
    cases ha : m.wrappers w with
    | none => rw [(h.absent w).1 ha] at hu; cases hu
    | some a =>
      cases hb : m.wrappers w' with
      | none => rw [(h.absent w').1 hb] at hv; cases hv
      | some b =>
        obtain ⟨m', hd, hw, h'⟩ := h.delete ha
        have h1 : ({ m' with wrappers := putAt m.wrappers w (some none) } : WMem F).wrappers w' = some b := by
          simp [putAt, hne.symm, hb]
        have h2 : ({ s with has := putAt s.has w (some none) } : Wrappers F).has w' = some v := by
          simp [putAt, hne.symm, hv]
        have h3 := h'.move (.inr (by simp [putAt])) h1 h2 hne
        simp only [putAt_comm _ (some none) (some none) hne, putAt_putAt] at h3
        by_cases hab : a = b
        · subst hab
          have : a = none := by
            cases a with
            | none => rfl
            | some a => exact absurd (h.one w w' a ha hb) hne
          subst this
          cases hd
          exact ⟨_, by simp [WMem.step, ha, hb, hne], h3⟩
        · refine ⟨_, by simp [WMem.step, ha, hb, hne, hab, hd]; rfl, ?_⟩
          rw [hw]; exact h3
  | destroy w u hu =>
    cases ha : m.wrappers w with
    | none => rw [(h.absent w).1 ha] at hu; cases hu
    | some a =>
      obtain ⟨m', hd, hw, h'⟩ := h.delete ha
      have h3 := h'.remove (w := w) (by simp [putAt])
      simp only [putAt_putAt] at h3
      refine ⟨_, by simp [WMem.step, ha, hd]; rfl, ?_⟩
      rw [hw]; exact h3
  | call w f hf =>
    cases ha : m.wrappers w with
    | none => rw [(h.absent w).1 ha] at hf; cases hf
    | some a =>
      cases a with
      | none => rw [(h.null w).1 ha] at hf; cases hf
      | some a =>
        obtain ⟨g, h1, h2⟩ := h.held w a ha
        rw [hf] at h2; cases h2
        exact ⟨m, by simp [WMem.step, ha, h1], h⟩

theorem WRep.run {s t : Wrappers F} {ops : List (WOp F)} {cs : List F} (hp : Program s ops t cs) :
    ∀ {m : WMem F}, WRep m s → ∃ m', m.run ops = some (.ok (m', cs)) ∧ WRep m' t := by
  induction hp with
  | nil => intro m h; exact ⟨m, rfl, h⟩
  | cons h1 _ ih =>
    intro m h
    obtain ⟨m', h2, h3⟩ := h.step h1
    obtain ⟨m'', h4, h5⟩ := ih h3
    exact ⟨m'', by simp [WMem.run, h2, h4], h5⟩

end VM
