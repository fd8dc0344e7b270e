import Verif.Spec.VectorObj
/-
Lemmas for C50.
-/
namespace VM.Ct
open VM.Spec
variable {K : Type}

theorem setAt_same {α : Type} (f : Nat → Option α) (n : Nat) (v : Option α) : setAt f n v n = v := by simp [setAt]

theorem setAt_other {α : Type} (f : Nat → Option α) {n m : Nat} (v : Option α) (h : m ≠ n) : setAt f n v m = f m := by
  simp [setAt, h]

/-- A member `p` of a vector is a reference to a variable of value `v`. -/
def Refers (s : VStore K) (xs : List Nat) (p : Nat) (v : K) : Prop := ∃ x ∈ xs, s.vars x = some p ∧ s.cells p = some v

/-- The vector object has these entries, and depends on these variables only. -/
def Holds (s : VStore K) (xs : List Nat) : VObj K → List K → Prop
  | .one a, l => ∃ x, l = [x] ∧ Refers s xs a x
  | .two a b, l => ∃ x y, l = [x, y] ∧ Refers s xs a x ∧ Refers s xs b y
  | .three x y z, l => ∃ x' y' z', l = [x', y', z'] ∧ x = some x' ∧ y = some y' ∧ z = some z'

/-- The state of the program against the values. -/
structure Rel (s : VStore K) (a : VValues K) (t : Nat → Option (List Nat)) : Prop where
  low : ∀ x p, s.vars x = some p → p < s.next
  inj : ∀ x y p, s.vars x = some p → s.vars y = some p → x = y
  vals : ∀ x, a.vars x = (s.vars x).bind s.cells
  live : ∀ x p, s.vars x = some p → (s.cells p).isSome
  fresh : ∀ p, s.next ≤ p → s.cells p = none
  decl : ∀ n, (s.vecs n).isSome = (a.vecs n).isSome
  holds : ∀ n xs v l, t n = some xs → s.vecs n = some v → a.vecs n = some l → Holds s xs v l

theorem rel_empty : Rel (K := K) .empty .empty fun _ => none := by
  constructor <;> simp [VStore.empty, VValues.empty]

theorem Rel.isSome {s : VStore K} {a : VValues K} {t} (h : Rel s a t) (x : Nat) :
    (a.vars x).isSome = (s.vars x).isSome := by
  rw [h.vals]
  cases hx : s.vars x with
  | none => rfl
  | some p => simpa using h.live x p hx

theorem Holds.mono {s s' : VStore K} {xs : List Nat} {v : VObj K} {l : List K}
    (hr : ∀ p w, Refers s xs p w → Refers s' xs p w) (h : Holds s xs v l) : Holds s' xs v l := by
  cases v with
  | one a => obtain ⟨x, rfl, h⟩ := h; exact ⟨x, rfl, hr _ _ h⟩
  | two a b => obtain ⟨x, y, rfl, h, h'⟩ := h; exact ⟨x, y, rfl, hr _ _ h, hr _ _ h'⟩
  | three x y z => exact h

theorem Holds.call [Num K] {s : VStore K} {xs : List Nat} {v : VObj K} {l : List K} (h : Holds s xs v l) (o : Order K)
    (e : Expr K) : callVec o s.cells v e = eval o l e := by
  cases v with
  | one a =>
    obtain ⟨x, rfl, _, _, _, h⟩ := h
    simp [callVec, VObj.entries, allSome, h]
  | two a b =>
    obtain ⟨x, y, rfl, ⟨_, _, _, h⟩, ⟨_, _, _, h'⟩⟩ := h
    simp [callVec, VObj.entries, allSome, h, h']
  | three x y z =>
    obtain ⟨x', y', z', rfl, rfl, rfl, rfl⟩ := h
    simp [callVec, VObj.entries, allSome]

/-- What the reference parameters are bound to. -/
structure Bound (s s' : VStore K) (ps : List Nat) (l : List K) : Prop where
  vars : s'.vars = s.vars
  vecs : s'.vecs = s.vecs
  le : s.next ≤ s'.next
  old : ∀ p, p < s.next → s'.cells p = s.cells p
  fresh : ∀ p, s'.next ≤ p → s'.cells p = none
  vals : ps.map s'.cells = l.map some

theorem Bound.length {s s' : VStore K} {ps : List Nat} {l : List K} (h : Bound s s' ps l) : ps.length = l.length := by
  have := congrArg List.length h.vals
  simpa using this

theorem bindArgs_spec (a : VValues K) : ∀ (as : List (VArg K)) (s : VStore K),
    (∀ x p, s.vars x = some p → p < s.next) → (∀ x, a.vars x = (s.vars x).bind s.cells) →
    (∀ x p, s.vars x = some p → (s.cells p).isSome) → (∀ p, s.next ≤ p → s.cells p = none) →
    (s.bindArgs as = none ∧ a.args as = none) ∨
    ∃ ps s' l, s.bindArgs as = some (ps, s') ∧ a.args as = some l ∧ Bound s s' ps l := by
  intro as
  induction as with
  | nil =>
    intro s _ _ _ hf
    exact .inr ⟨[], s, [], rfl, rfl, rfl, rfl, Nat.le_refl _, fun _ _ => rfl, hf, rfl⟩
  | cons c as ih =>
    intro s hl hv hs hf
    cases c with
    | name x =>
      cases hx : s.vars x with
      | none => exact .inl ⟨by simp [VStore.bindArgs, hx], by simp [VValues.args, VValues.arg, hv, hx]⟩
      | some p =>
        obtain ⟨w, hw⟩ := Option.isSome_iff_exists.1 (hs x p hx)
        rcases ih s hl hv hs hf with ⟨h1, h2⟩ | ⟨ps, s', l, h1, h2, hb⟩
        · exact .inl ⟨by simp [VStore.bindArgs, hx, h1], by simp [VValues.args, h2]⟩
        · refine .inr ⟨p :: ps, s', w :: l, by simp [VStore.bindArgs, hx, h1], ?_, hb.vars, hb.vecs, hb.le, hb.old,
            hb.fresh, ?_⟩
          · simp [VValues.args, VValues.arg, hv, hx, hw, h2]
          · simp [hb.vals, hb.old p (hl x p hx), hw]
    | temp v =>
      have := ih { s with cells := setAt s.cells s.next (some v), next := s.next + 1 }
        (fun x p h => Nat.lt_succ_of_lt (hl x p h))
        (fun x => by
          rw [hv x]
          cases hx : s.vars x with
          | none => simp
          | some p => simp [setAt_other _ _ (Nat.ne_of_lt (hl x p hx))])
        (fun x p h => by
          have h : s.vars x = some p := h
          simpa [setAt_other _ _ (Nat.ne_of_lt (hl x p h))] using hs x p h)
        (fun p h => by
          have h : s.next + 1 ≤ p := h
          have hp : p ≠ s.next := by omega
          exact (setAt_other _ _ hp).trans (hf p (by omega)))
      rcases this with ⟨h1, h2⟩ | ⟨ps, s', l, h1, h2, hb⟩
      · exact .inl ⟨by simp [VStore.bindArgs, h1], by simp [VValues.args, h2]⟩
      · refine .inr ⟨s.next :: ps, s', v :: l, by simp [VStore.bindArgs, h1], by simp [VValues.args, VValues.arg, h2],
          hb.vars, hb.vecs, Nat.le_trans (Nat.le_succ _) hb.le, fun p h => ?_, hb.fresh, ?_⟩
        · rw [hb.old p (Nat.lt_succ_of_lt h)]
          exact setAt_other _ _ (Nat.ne_of_lt h)
        · simp [hb.vals, hb.old s.next (Nat.lt_succ_self _), setAt_same]

/-- Arguments that are all variables. -/
theorem bindArgs_names (as : List (VArg K)) : ∀ (s : VStore K) (ps : List Nat) (s' : VStore K) (xs : List Nat),
    s.bindArgs as = some (ps, s') → onlyNames as = some xs → xs.length = ps.length ∧ s' = s ∧
      ∀ p ∈ ps, ∃ x ∈ xs, s.vars x = some p := by
  induction as with
  | nil =>
    intro s ps s' xs h h'
    simp only [VStore.bindArgs, Option.some.injEq, Prod.mk.injEq] at h
    simp only [onlyNames, Option.some.injEq] at h'
    obtain ⟨rfl, rfl⟩ := h
    subst h'
    simp
  | cons c as ih =>
    intro s ps s' xs h h'
    cases c with
    | temp v => simp [onlyNames] at h'
    | name x =>
      simp only [onlyNames, Option.map_eq_some_iff] at h'
      simp only [VStore.bindArgs, Option.bind_eq_some_iff, Option.map_eq_some_iff, Prod.mk.injEq] at h
      obtain ⟨ys, hy, rfl⟩ := h'
      obtain ⟨p, hp, ⟨qs, s''⟩, hq, rfl, rfl⟩ := h
      obtain ⟨h1, h2, h3⟩ := ih s qs s'' ys hq hy
      refine ⟨by simp [h1], h2, fun q hq => ?_⟩
      rcases List.mem_cons.1 hq with rfl | hq
      · exact ⟨x, by simp, hp⟩
      · obtain ⟨y, hy, h⟩ := h3 q hq
        exact ⟨y, by simp [hy], h⟩

theorem bindArgs_length (as : List (VArg K)) : ∀ (s : VStore K) (ps : List Nat) (s' : VStore K),
    s.bindArgs as = some (ps, s') → ps.length = as.length := by
  induction as with
  | nil => intro s ps s' h; simp only [VStore.bindArgs, Option.some.injEq, Prod.mk.injEq] at h; simp [← h.1]
  | cons c as ih =>
    intro s ps s' h
    cases c with
    | name x =>
      simp only [VStore.bindArgs, Option.bind_eq_some_iff, Option.map_eq_some_iff, Prod.mk.injEq] at h
      obtain ⟨p, _, ⟨qs, s''⟩, hq, rfl, _⟩ := h
      simp [ih s qs s'' hq]
    | temp v =>
      simp only [VStore.bindArgs, Option.map_eq_some_iff, Prod.mk.injEq] at h
      obtain ⟨⟨qs, s''⟩, hq, rfl, _⟩ := h
      simp [ih _ qs s'' hq]

theorem newVec_none {cells : Nat → Option K} {ps : List Nat} (h : newVec cells ps = none) {l : List K}
    (hl : ps.length = l.length) : vectorOf l = none := by
  match ps, h with
  | [], _ => simp at hl; simp [vectorOf, ← hl]
  | _ :: _ :: _ :: _ :: _, _ => simp at hl; simp [vectorOf, ← hl]

theorem newVec_some {cells : Nat → Option K} {ps : List Nat} {v : VObj K} (h : newVec cells ps = some v) {l : List K}
    (hl : ps.length = l.length) : vectorOf l = some l := by
  match ps, h with
  | [_], _ => simp at hl; simp [vectorOf, ← hl]
  | [_, _], _ => simp at hl; simp [vectorOf, ← hl]
  | [_, _, _], _ => simp at hl; simp [vectorOf, ← hl]

/-- At the end of the expression in which it is made, a vector has the values of the arguments. -/
theorem newVec_call [Num K] {cells : Nat → Option K} {ps : List Nat} {v : VObj K} (h : newVec cells ps = some v) {l : List K}
    (hl : ps.map cells = l.map some) (o : Order K) (e : Expr K) : callVec o cells v e = eval o l e := by
  match ps, l, h, hl with
  | [a], [x], h, hl =>
    simp only [newVec, Option.some.injEq] at h; subst h
    simp at hl
    simp [callVec, VObj.entries, allSome, hl]
  | [a, b], [x, y], h, hl =>
    simp only [newVec, Option.some.injEq] at h; subst h
    simp at hl
    simp [callVec, VObj.entries, allSome, hl]
  | [a, b, c], [x, y, z], h, hl =>
    simp only [newVec, Option.some.injEq] at h; subst h
    simp at hl
    simp [callVec, VObj.entries, allSome, hl]
  | [_], [], _, hl | [_], _ :: _ :: _, _, hl | [_, _], [], _, hl | [_, _], [_], _, hl | [_, _], _ :: _ :: _ :: _, _, hl
  | [_, _, _], [], _, hl | [_, _, _], [_], _, hl | [_, _, _], [_, _], _, hl | [_, _, _], _ :: _ :: _ :: _ :: _, _, hl =>
    simp at hl

theorem vals_congr {s s' : VStore K} {a : VValues K} (hvars : s'.vars = s.vars)
    (hc : ∀ x p, s.vars x = some p → s'.cells p = s.cells p) (h : ∀ x, a.vars x = (s.vars x).bind s.cells) (x : Nat) :
    a.vars x = (s'.vars x).bind s'.cells := by
  rw [h x, hvars]
  cases hx : s.vars x with
  | none => rfl
  | some p => simp [hc x p hx]

/-- Ending a full expression leaves the variables alone. -/
theorem Rel.endFull {s s' : VStore K} {a : VValues K} {t} (h : Rel s a t) {ps : List Nat} {l : List K}
    (hb : Bound s s' ps l) : Rel (s'.endFull s.next) a t where
  low := fun x p hx => by
    have hx : s'.vars x = some p := hx
    rw [hb.vars] at hx
    exact Nat.lt_of_lt_of_le (h.low x p hx) hb.le
  inj := fun x y p hx hy => by
    have hx : s'.vars x = some p := hx
    have hy : s'.vars y = some p := hy
    rw [hb.vars] at hx hy
    exact h.inj x y p hx hy
  vals := vals_congr (s := s) hb.vars (fun x p hx => by
    have := h.low x p hx
    simp only [VStore.endFull, Nat.not_le.2 this, if_false]
    exact hb.old p this) h.vals
  live := fun x p hx => by
    have hx : s'.vars x = some p := hx
    rw [hb.vars] at hx
    have := h.low x p hx
    simp only [VStore.endFull, Nat.not_le.2 this, if_false, hb.old p this]
    exact h.live x p hx
  fresh := fun p hp => by
    have hp : s'.next ≤ p := hp
    simp only [VStore.endFull]
    split
    · rfl
    · exact hb.fresh p hp
  decl := fun n => by
    simp only [VStore.endFull, hb.vecs]
    exact h.decl n
  holds := fun n xs v l' ht hv hl => by
    have hv : s'.vecs n = some v := hv
    rw [hb.vecs] at hv
    refine (h.holds n xs v l' ht hv hl).mono fun p w ⟨x, hx, h1, h2⟩ => ⟨x, hx, ?_, ?_⟩
    · simp only [VStore.endFull, hb.vars, h1]
    · have := h.low x p h1
      simp only [VStore.endFull, Nat.not_le.2 this, if_false, hb.old p this, h2]

theorem Rel.setVec {s : VStore K} {a : VValues K} {t} (h : Rel s a t) (n : Nat) {v : Option (VObj K)}
    {l : Option (List K)} {xs : Option (List Nat)} (hs : v.isSome = l.isSome)
    (hh : ∀ xs' v' l', xs = some xs' → v = some v' → l = some l' → Holds s xs' v' l') :
    Rel { s with vecs := setAt s.vecs n v } { a with vecs := setAt a.vecs n l } (setAt t n xs) where
  low := h.low
  inj := h.inj
  vals := h.vals
  live := h.live
  fresh := h.fresh
  decl := fun m => by
    by_cases hm : m = n
    · subst hm; simpa [setAt_same] using hs
    · simpa [setAt_other _ _ hm] using h.decl m
  holds := fun m xs' v' l' ht hv hl => by
    by_cases hm : m = n
    · subst hm
      simp only [setAt_same] at ht hv hl
      exact (hh xs' v' l' ht hv hl).mono fun _ _ h => h
    · simp only [setAt_other _ _ hm] at ht hv hl
      exact (h.holds m xs' v' l' ht hv hl).mono fun _ _ h => h

/-- Changing or removing a variable: vectors which refer to it drop out. -/
theorem Rel.without {s s' : VStore K} {a a' : VValues K} {t} (h : Rel s a t) {x p : Nat} (hx : s.vars x = some p)
    (hn : s'.next = s.next) (hvecs : s'.vecs = s.vecs) (havecs : a'.vecs = a.vecs)
    (hvars : ∀ y, y ≠ x → s'.vars y = s.vars y) (hsub : ∀ q, s'.vars x = some q → q = p ∧ (s'.cells p).isSome)
    (hcells : ∀ q, q ≠ p → s'.cells q = s.cells q) (havars : ∀ y, y ≠ x → a'.vars y = a.vars y)
    (hxx : a'.vars x = (s'.vars x).bind s'.cells) : Rel s' a' (without t x) := by
  have hy : ∀ y q, s'.vars y = some q → s.vars y = some q := fun y q h' => by
    by_cases hyx : y = x
    · subst hyx; rw [(hsub q h').1]; exact hx
    · rwa [hvars y hyx] at h'
  have hne : ∀ y q, y ≠ x → s.vars y = some q → q ≠ p := fun y q hyx h' hq => hyx (h.inj y x p (hq ▸ h') hx)
  refine ⟨fun y q h' => hn ▸ h.low y q (hy y q h'), fun y z q h1 h2 => h.inj y z q (hy y q h1) (hy z q h2), fun y => ?_,
    fun y q h' => ?_, fun q hq => ?_, fun n => by rw [hvecs, havecs]; exact h.decl n, fun n xs v l ht hv hl => ?_⟩
  · by_cases hyx : y = x
    · subst hyx; exact hxx
    · rw [havars y hyx, hvars y hyx, h.vals y]
      cases hq : s.vars y with
      | none => rfl
      | some q => simp [hcells q (hne y q hyx hq)]
  · by_cases hyx : y = x
    · subst hyx; obtain ⟨rfl, h2⟩ := hsub q h'; exact h2
    · have h' := hy y q h'
      rw [hcells q (hne y q hyx h')]
      exact h.live y q h'
  · have hq : s.next ≤ q := hn ▸ hq
    rw [hcells q (fun e => absurd (h.low x p hx) (by omega))]
    exact h.fresh q hq
  · simp only [Spec.without] at ht
    rw [hvecs] at hv
    rw [havecs] at hl
    cases htn : t n with
    | none => simp [htn] at ht
    | some ys =>
      simp only [htn] at ht
      split at ht
      · cases ht
      · rename_i hmem
        cases ht
        refine (h.holds n _ v l htn hv hl).mono fun q w ⟨y, hy, h1, h2⟩ => ⟨y, hy, ?_, ?_⟩
        · rw [hvars y (fun e => hmem (e ▸ hy))]; exact h1
        · rw [hcells q (hne y q (fun e => hmem (e ▸ hy)) h1)]; exact h2

theorem step [Num K] {s : VStore K} {a : VValues K} {t} (h : Rel s a t) (o : Order K) (c : VStmt K) :
    (s.exec o c = none ∧ a.exec o c = none) ∨
    ∃ s' a' out out', s.exec o c = some (s', out) ∧ a.exec o c = some (a', out') ∧ Rel s' a' (reliableAfter t c) ∧
      ((∀ n e, c = .call n e → (t n).isSome) → out = out') := by
  cases c with
  | decl x v =>
    cases hx : s.vars x with
    | some p => exact .inl ⟨by simp [VStore.exec, hx], by simp [VValues.exec, h.isSome, hx]⟩
    | none =>
      refine .inr ⟨_, _, _, _, by simp only [VStore.exec, hx]; rfl, by simp only [VValues.exec, h.isSome, hx]; rfl, ?_,
        fun _ => rfl⟩
      have hlt : ∀ y p, s.vars y = some p → p ≠ s.next := fun y p hy => Nat.ne_of_lt (h.low y p hy)
      refine ⟨fun y p hy => ?_, fun y z p hy hz => ?_, fun y => ?_, fun y p hy => ?_, fun p hp => ?_, h.decl,
        fun n xs w l ht hv hl => (h.holds n xs w l ht hv hl).mono fun q w ⟨y, hy, h1, h2⟩ => ⟨y, hy, ?_, ?_⟩⟩
      · simp only [setAt] at hy
        split at hy
        · cases hy; exact Nat.lt_succ_self _
        · exact Nat.lt_succ_of_lt (h.low y p hy)
      · simp only [setAt] at hy hz
        split at hy <;> split at hz
        · simp_all
        · cases hy; exact absurd rfl (hlt z _ hz)
        · cases hz; exact absurd rfl (hlt y _ hy)
        · exact h.inj y z p hy hz
      · by_cases hyx : y = x
        · subst hyx; simp [setAt_same]
        · simp only [setAt_other _ _ hyx, h.vals y]
          cases hq : s.vars y with
          | none => rfl
          | some q => simp [setAt_other _ _ (hlt y q hq)]
      · by_cases hyx : y = x
        · subst hyx; simp only [setAt_same, Option.some.injEq] at hy; subst hy; simp [setAt_same]
        · simp only [setAt_other _ _ hyx] at hy
          simpa [setAt_other _ _ (hlt y p hy)] using h.live y p hy
      · have hp : s.next + 1 ≤ p := hp
        have hp' : p ≠ s.next := by omega
        exact (setAt_other _ _ hp').trans (h.fresh p (by omega))
      · have : y ≠ x := fun e => by subst e; rw [hx] at h1; cases h1
        exact (setAt_other _ _ this).trans h1
      · exact (setAt_other _ _ (hlt y q h1)).trans h2
  | assign x v =>
    cases hx : s.vars x with
    | none => exact .inl ⟨by simp [VStore.exec, hx], by simp [VValues.exec, h.isSome, hx]⟩
    | some p =>
      refine .inr ⟨_, _, _, _, by simp only [VStore.exec, hx]; rfl, by simp only [VValues.exec, h.isSome, hx]; rfl, ?_,
        fun _ => rfl⟩
      refine h.without hx rfl rfl rfl (fun _ _ => rfl) (fun q hq => ?_) (fun q hq => setAt_other _ _ hq)
        (fun y hy => setAt_other _ _ hy) ?_
      · have hq : s.vars x = some q := hq
        rw [hx] at hq
        cases hq
        exact ⟨rfl, by simp [setAt_same]⟩
      · simp [setAt_same, hx]
  | leave x =>
    cases hx : s.vars x with
    | none => exact .inl ⟨by simp [VStore.exec, hx], by simp [VValues.exec, h.isSome, hx]⟩
    | some p =>
      refine .inr ⟨_, _, _, _, by simp only [VStore.exec, hx]; rfl, by simp only [VValues.exec, h.isSome, hx]; rfl, ?_,
        fun _ => rfl⟩
      refine h.without hx rfl rfl rfl (fun y hy => setAt_other _ _ hy) (fun q hq => ?_) (fun q hq => setAt_other _ _ hq)
        (fun y hy => setAt_other _ _ hy) ?_
      · simp [setAt_same] at hq
      · simp [setAt_same]
  | make n args =>
    have hd := h.decl n
    cases hn : s.vecs n with
    | some v =>
      rw [hn] at hd
      exact .inl ⟨by simp [VStore.exec, hn], by simp [VValues.exec, ← hd]⟩
    | none =>
      rw [hn] at hd
      rcases bindArgs_spec a args s h.low h.vals h.live h.fresh with ⟨h1, h2⟩ | ⟨ps, s', l, h1, h2, hb⟩
      · exact .inl ⟨by simp [VStore.exec, hn, h1], by simp [VValues.exec, h2]⟩
      · cases hv : newVec s'.cells ps with
        | none =>
          exact .inl ⟨by simp [VStore.exec, hn, h1, hv], by simp [VValues.exec, h2, newVec_none hv hb.length]⟩
        | some v =>
          refine .inr ⟨_, _, _, _, by simp only [VStore.exec, hn, h1, Option.bind_some, hv]; rfl,
            by simp only [VValues.exec, ← hd, h2, Option.bind_some, newVec_some hv hb.length]; rfl, ?_, fun _ => rfl⟩
          have hr := h.endFull hb
          have hve : (s'.endFull s.next).vecs = s.vecs := hb.vecs
          rw [← hve]
          refine hr.setVec n rfl fun xs v' l' hx hv' hl' => ?_
          cases hv'
          cases hl'
          have hlen := bindArgs_length args s ps s' h1
          split at hx
          · rename_i h3
            cases hx
            match ps, l, hv, hb.vals, hlen with
            | [a, b, c], [x, y, z], hv, hl, _ =>
              simp only [newVec, Option.some.injEq] at hv; subst hv
              simp at hl
              exact ⟨x, y, z, rfl, hl.1, hl.2.1, hl.2.2⟩
            | [_], _, _, _, hlen | [_, _], _, _, _, hlen => simp [h3] at hlen
            | [_, _, _], [], _, hl, _ | [_, _, _], [_], _, hl, _ | [_, _, _], [_, _], _, hl, _
            | [_, _, _], _ :: _ :: _ :: _ :: _, _, hl, _ => simp at hl
          · rename_i h3
            obtain ⟨_, rfl, hnames⟩ := bindArgs_names args s ps s' xs h1 hx
            have hcell : ∀ q ∈ ps, ∀ w, s'.cells q = some w → Refers (s'.endFull s'.next) xs q w := fun q hq w hw => by
              obtain ⟨y, hy, h4⟩ := hnames q hq
              have := h.low y q h4
              exact ⟨y, hy, h4, by simp only [VStore.endFull, Nat.not_le.2 this, if_false, hw]⟩
            match ps, l, hv, hb.vals, hcell, hlen with
            | [a], [x], hv, hl, hcell, _ =>
              simp only [newVec, Option.some.injEq] at hv; subst hv
              simp at hl
              exact ⟨x, rfl, hcell a (by simp) x hl⟩
            | [a, b], [x, y], hv, hl, hcell, _ =>
              simp only [newVec, Option.some.injEq] at hv; subst hv
              simp at hl
              exact ⟨x, y, rfl, hcell a (by simp) x hl.1, hcell b (by simp) y hl.2⟩
            | [_, _, _], _, _, _, _, hlen => simp at hlen; omega
            | [_], [], _, hl, _, _ | [_], _ :: _ :: _, _, hl, _, _ | [_, _], [], _, hl, _, _ | [_, _], [_], _, hl, _, _
            | [_, _], _ :: _ :: _ :: _, _, hl, _, _ => simp at hl
  | copy n m =>
    have hd := h.decl n
    have hm := h.decl m
    cases hn : s.vecs n with
    | some v =>
      rw [hn] at hd
      exact .inl ⟨by simp [VStore.exec, hn], by simp [VValues.exec, ← hd]⟩
    | none =>
      rw [hn] at hd
      cases hv : s.vecs m with
      | none =>
        rw [hv] at hm
        have : a.vecs m = none := by simpa using hm.symm
        exact .inl ⟨by simp [VStore.exec, hn, hv], by simp [VValues.exec, this]⟩
      | some v =>
        rw [hv] at hm
        obtain ⟨l, hl⟩ := Option.isSome_iff_exists.1 hm.symm
        refine .inr ⟨_, _, _, _, by simp only [VStore.exec, hn, hv]; rfl,
          by simp only [VValues.exec, ← hd, hl]; rfl, ?_, fun _ => rfl⟩
        refine h.setVec n rfl fun xs v' l' hx hv' hl' => ?_
        cases hv'
        cases hl'
        exact h.holds m xs v l hx hv hl
  | drop n =>
    have hd := h.decl n
    cases hn : s.vecs n with
    | none =>
      rw [hn] at hd
      exact .inl ⟨by simp [VStore.exec, hn], by simp [VValues.exec, ← hd]⟩
    | some v =>
      rw [hn] at hd
      refine .inr ⟨_, _, _, _, by simp only [VStore.exec, hn]; rfl, by simp only [VValues.exec, ← hd]; rfl, ?_,
        fun _ => rfl⟩
      exact h.setVec n rfl fun xs v' l' hx => by cases hx
  | call n e =>
    have hd := h.decl n
    cases hn : s.vecs n with
    | none =>
      rw [hn] at hd
      have : a.vecs n = none := by simpa using hd.symm
      exact .inl ⟨by simp [VStore.exec, hn], by simp [VValues.exec, this]⟩
    | some v =>
      rw [hn] at hd
      obtain ⟨l, hl⟩ := Option.isSome_iff_exists.1 hd.symm
      refine .inr ⟨_, _, _, _, by simp only [VStore.exec, hn]; rfl, by simp only [VValues.exec, hl]; rfl, h,
        fun hr => ?_⟩
      obtain ⟨xs, hx⟩ := Option.isSome_iff_exists.1 (hr n e rfl)
      rw [(h.holds n xs v l hx hn hl).call]
  | callNow args e =>
    rcases bindArgs_spec a args s h.low h.vals h.live h.fresh with ⟨h1, h2⟩ | ⟨ps, s', l, h1, h2, hb⟩
    · exact .inl ⟨by simp [VStore.exec, h1], by simp [VValues.exec, h2]⟩
    · cases hv : newVec s'.cells ps with
      | none =>
        exact .inl ⟨by simp [VStore.exec, h1, hv], by simp [VValues.exec, h2, newVec_none hv hb.length]⟩
      | some v =>
        refine .inr ⟨_, _, _, _, by simp only [VStore.exec, h1, Option.bind_some, hv]; rfl,
          by simp only [VValues.exec, h2, Option.bind_some, newVec_some hv hb.length]; rfl, h.endFull hb, fun _ => ?_⟩
        rw [newVec_call hv hb.vals]

theorem run_compiles [Num K] (o : Order K) (cs : List (VStmt K)) : ∀ {s : VStore K} {a : VValues K} {t}, Rel s a t →
    (s.run o cs).isSome = (a.run o cs).isSome := by
  induction cs with
  | nil => intros; rfl
  | cons c cs ih =>
    intro s a t h
    rcases step h o c with ⟨h1, h2⟩ | ⟨s', a', out, out', h1, h2, h', _⟩
    · simp [VStore.run, VValues.run, h1, h2]
    · simp [VStore.run, VValues.run, h1, h2, ih h']

theorem run_eq [Num K] (o : Order K) (cs : List (VStmt K)) : ∀ {s : VStore K} {a : VValues K} {t}, Rel s a t →
    Reliable t cs → s.run o cs = a.run o cs := by
  induction cs with
  | nil => intros; rfl
  | cons c cs ih =>
    intro s a t h hr
    rcases step h o c with ⟨h1, h2⟩ | ⟨s', a', out, out', h1, h2, h', ho⟩
    · simp [VStore.run, VValues.run, h1, h2]
    · simp [VStore.run, VValues.run, h1, h2, ih h' hr.2, ho hr.1]

theorem run_three [Num K] (o : Order K) (cs : List (VStmt K)) : ∀ {s : VStore K} {a : VValues K} {t}, Rel s a t →
    (∀ n, (a.vecs n).isSome → t n = some []) → StoresThree cs → s.run o cs = a.run o cs := by
  induction cs with
  | nil => intros; rfl
  | cons c cs ih =>
    intro s a t h ht hr
    rcases step h o c with ⟨h1, h2⟩ | ⟨s', a', out, out', h1, h2, h', ho⟩
    · simp [VStore.run, VValues.run, h1, h2]
    · have key : (∀ n, (a'.vecs n).isSome → reliableAfter t c n = some []) ∧ StoresThree cs ∧
          ∀ n e, c = .call n e → (t n).isSome := by
        cases c with
        | make n args =>
          obtain ⟨h3, hr⟩ := hr
          refine ⟨fun m hm => ?_, hr, fun _ _ h => by cases h⟩
          simp only [VValues.exec] at h2
          split at h2
          · cases h2
          · simp only [Option.map_eq_some_iff, Prod.mk.injEq] at h2
            obtain ⟨l, _, rfl, _⟩ := h2
            by_cases hmn : m = n
            · subst hmn; simp [reliableAfter, h3, setAt_same]
            · simp only [setAt_other _ _ hmn, reliableAfter] at hm ⊢
              exact ht m hm
        | copy n m =>
          refine ⟨fun k hk => ?_, hr, fun _ _ h => by cases h⟩
          simp only [VValues.exec] at h2
          split at h2
          · cases h2
          · simp only [Option.map_eq_some_iff, Prod.mk.injEq] at h2
            obtain ⟨l, hl, rfl, _⟩ := h2
            by_cases hkn : k = n
            · subst hkn; simp only [reliableAfter, setAt_same]; exact ht m (by simp [hl])
            · simp only [setAt_other _ _ hkn, reliableAfter] at hk ⊢
              exact ht k hk
        | drop n =>
          refine ⟨fun k hk => ?_, hr, fun _ _ h => by cases h⟩
          simp only [VValues.exec] at h2
          split at h2
          · simp only [Option.some.injEq, Prod.mk.injEq] at h2
            obtain ⟨rfl, _⟩ := h2
            by_cases hkn : k = n
            · subst hkn; simp [setAt_same] at hk
            · simp only [setAt_other _ _ hkn, reliableAfter] at hk ⊢
              exact ht k hk
          · cases h2
        | assign x v =>
          refine ⟨fun k hk => ?_, hr, fun _ _ h => by cases h⟩
          simp only [VValues.exec] at h2
          split at h2
          · simp only [Option.some.injEq, Prod.mk.injEq] at h2
            obtain ⟨rfl, _⟩ := h2
            simp [reliableAfter, Spec.without, ht k hk]
          · cases h2
        | leave x =>
          refine ⟨fun k hk => ?_, hr, fun _ _ h => by cases h⟩
          simp only [VValues.exec] at h2
          split at h2
          · simp only [Option.some.injEq, Prod.mk.injEq] at h2
            obtain ⟨rfl, _⟩ := h2
            simp [reliableAfter, Spec.without, ht k hk]
          · cases h2
        | decl x v =>
          refine ⟨fun k hk => ?_, hr, fun _ _ h => by cases h⟩
          simp only [VValues.exec] at h2
          split at h2
          · cases h2
          · simp only [Option.some.injEq, Prod.mk.injEq] at h2
            obtain ⟨rfl, _⟩ := h2
            exact ht k hk
        | call n e =>
          simp only [VValues.exec, Option.map_eq_some_iff, Prod.mk.injEq] at h2
          obtain ⟨l, hl, rfl, _⟩ := h2
          exact ⟨ht, hr, fun m e' h => by cases h; simp [ht n (by simp [hl])]⟩
        | callNow args e =>
          simp only [VValues.exec, Option.map_eq_some_iff, Prod.mk.injEq] at h2
          obtain ⟨l, hl, rfl, _⟩ := h2
          exact ⟨ht, hr, fun _ _ h => by cases h⟩
      simp [VStore.run, VValues.run, h1, h2, ih h' key.1 key.2.1, ho key.2.2]

/-- A temporary gets an address that is cleared at the end of the expression. -/
theorem bindArgs_temp (as : List (VArg K)) : ∀ (s : VStore K) (ps : List Nat) (s' : VStore K),
    s.bindArgs as = some (ps, s') → onlyNames as = none → ∃ p ∈ ps, s.next ≤ p := by
  induction as with
  | nil => intro s ps s' _ h; simp [onlyNames] at h
  | cons c as ih =>
    intro s ps s' h h'
    cases c with
    | name x =>
      simp only [VStore.bindArgs, Option.bind_eq_some_iff, Option.map_eq_some_iff, Prod.mk.injEq] at h
      obtain ⟨p, _, ⟨qs, s''⟩, hq, rfl, _⟩ := h
      simp only [onlyNames, Option.map_eq_none_iff] at h'
      obtain ⟨q, hq, hle⟩ := ih s qs s'' hq h'
      exact ⟨q, by simp [hq], hle⟩
    | temp v =>
      simp only [VStore.bindArgs, Option.map_eq_some_iff, Prod.mk.injEq] at h
      obtain ⟨⟨qs, s''⟩, hq, rfl, _⟩ := h
      exact ⟨s.next, by simp, Nat.le_refl _⟩

theorem dangling [Num K] (o : Order K) (s : VStore K) (n : Nat) (args : List (VArg K)) (e : Expr K)
    (h2 : args.length ≤ 2) (ht : onlyNames args = none) :
    s.run o [.make n args, .call n e] = none ∨ s.run o [.make n args, .call n e] = some [.ub] := by
  cases hn : s.vecs n with
  | some v => exact .inl (by simp [VStore.run, VStore.exec, hn])
  | none =>
    cases hb : s.bindArgs args with
    | none => exact .inl (by simp [VStore.run, VStore.exec, hn, hb])
    | some r =>
      obtain ⟨ps, s'⟩ := r
      have hl := bindArgs_length args s ps s' hb
      obtain ⟨p, hp, hle⟩ := bindArgs_temp args s ps s' hb ht
      refine .inr ?_
      match ps, hl, hp with
      | [a], _, hp =>
        have : p = a := by simpa using hp
        subst this
        simp [VStore.run, VStore.exec, hn, hb, newVec, setAt_same, callVec, VObj.entries, VStore.endFull, hle, allSome]
      | [a, b], _, hp =>
        have hp : p = a ∨ p = b := by simpa using hp
        rcases hp with rfl | rfl
        · simp [VStore.run, VStore.exec, hn, hb, newVec, setAt_same, callVec, VObj.entries, VStore.endFull, hle, allSome]
        · by_cases ha : s.next ≤ a
          · simp [VStore.run, VStore.exec, hn, hb, newVec, setAt_same, callVec, VObj.entries, VStore.endFull, ha, allSome]
          · cases hc : s'.cells a <;>
            simp [VStore.run, VStore.exec, hn, hb, newVec, setAt_same, callVec, VObj.entries, VStore.endFull, ha, hle,
              allSome, hc]
      | _ :: _ :: _ :: _, hl, _ => simp at hl; omega

end VM.Ct
