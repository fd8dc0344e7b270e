import Verif.Ct.ConvertLemmas
import Verif.Rt.HeapMakes
/-
The state of a program with expression objects corresponds to independent values.
-/
namespace VM
variable {K : Type}
open Expr Act Run Prog
open Spec hiding look

/-- Changes a map of the owning pointers at one place. -/
abbrev at' {α : Type} (f : Ptr → α) (p : Ptr) (v : α) : Ptr → α := fun q => if q = p then v else f q

@[simp] theorem at_eq {α : Type} (f : Ptr → α) (p : Ptr) (v : α) (q : Ptr) :
    at' f p v q = if q = p then v else f q := rfl

theorem at_same {α : Type} {f : Ptr → α} {p : Ptr} {v : α} (h : f p = v) : at' f p v = f := by
  funext q; by_cases hq : q = p
  · simp [hq, h]
  · simp [hq]

theorem at_at {α : Type} {f : Ptr → α} {p : Ptr} {u v : α} : at' (at' f p u) p v = at' f p v := by
  funext q; by_cases hq : q = p <;> simp [hq]

theorem at_comm {α : Type} {f : Ptr → α} {p q : Ptr} {u v : α} (h : p ≠ q) :
    at' (at' f p u) q v = at' (at' f q v) p u := by
  funext r
  by_cases h1 : r = p
  · subst h1; simp [h]
  · by_cases h2 : r = q
    · subst h2; simp [h1]
    · simp [h1, h2]

/-- Every pointer owns the tree of its expression, with the nodes `fp p`; the trees are disjoint; all that is
allocated belongs to one of them or to the garbage `G`. -/
structure Inv (fl : Nat → Bool) (h : Heap K) (ptr : Ptr → Option Nat) (A : Ptr → Option (Expr K)) (fp : Ptr → List Nat)
    (G : List Nat) : Prop where
  wf : h.WF
  unset : ∀ p, A p = none → ptr p = none ∧ fp p = []
  owns : ∀ p e, A p = some e → ∃ a, ptr p = some a ∧ Own h.cells a e (fp p)
  nodup : ∀ p, (fp p).Nodup
  disj : ∀ p q, p ≠ q → ∀ b ∈ fp p, b ∉ fp q
  cover : ∀ b, h.cells b ≠ none → b ∈ G ∨ ∃ p, b ∈ fp p
  fails : h.fails = fl

variable {h h1 : Heap K} {ptr : Ptr → Option Nat} {A : Ptr → Option (Expr K)} {fp : Ptr → List Nat}
  {G F L : List Nat} {a : Nat} {e : Expr K} {objs : Nat → Option Kind} {fl : Nat → Bool}

theorem Inv.alloc (H : Inv fl h ptr A fp G) {p : Ptr} {b : Nat} (hb : b ∈ fp p) : h.cells b ≠ none := by
  cases hA : A p with
  | none => rw [(H.unset p hA).2] at hb; cases hb
  | some e =>
    obtain ⟨a, -, h2⟩ := H.owns p e hA
    exact h2.alloc _ b hb

/-- Something is left behind. -/
theorem Inv.leak (H : Inv fl h ptr A fp G) (E : Adds h h1 L) : Inv fl h1 ptr A fp (L ++ G) where
  wf := E.wf'
  unset := H.unset
  owns p e he := by
    obtain ⟨a, h2, h3⟩ := H.owns p e he
    exact ⟨a, h2, h3.adds E⟩
  nodup := H.nodup
  disj := H.disj
  cover b hb := by
    by_cases hn : h.next ≤ b
    · exact .inl (List.mem_append.2 (.inl ((E.mem b hn).1 hb)))
    · rw [E.old b (by omega)] at hb
      rcases H.cover b hb with h2 | h2
      · exact .inl (List.mem_append.2 (.inr h2))
      · exact .inr h2
  fails := E.fails.trans H.fails

theorem Heap.free_nil : h.free [] = h := Heap.ext' (fun a => by simp [free]) rfl rfl

/-- One of the requests from `n` up to `m` fails. -/
def Fails (fl : Nat → Bool) (n m : Nat) : Prop := ∃ a, n ≤ a ∧ a < m ∧ fl a = true

theorem Fails.from {n n' m : Nat} (H : Fails fl n m) (h : n' ≤ n) : Fails fl n' m := by
  obtain ⟨a, h1, h2⟩ := H
  exact ⟨a, Nat.le_trans h h1, h2⟩

theorem Inv.scarce (H : Inv fl h ptr A fp G) (hs : h.Scarce h1) : Fails fl h.next h1.next := by
  obtain ⟨a, h1, h2, h3⟩ := hs
  exact ⟨a, h1, h2, by rw [← H.fails]; exact h3⟩

/-- A pointer is cleared, a new tree is put in its place. -/
theorem Inv.put (H : Inv fl h ptr A fp G) (E : Adds h h1 (F ++ L)) (HO : Own h1.cells a e F) (p : Ptr) :
    Inv fl (h1.free (fp p)) (at' ptr p (some a)) (at' A p (some e)) (at' fp p F) (L ++ G) := by
  have hF : ∀ q b, b ∈ fp q → b ∉ F := fun q b hb hb' =>
    absurd (E.fresh b (List.mem_append.2 (.inl hb'))) (Nat.not_le.2 (H.wf.lt (H.alloc hb)))
  refine ⟨?_, ?_, ?_, ?_, ?_, ?_, E.fails.trans H.fails⟩
  · intro b hb
    simp only [Heap.free]
    split
    · rfl
    · exact E.wf' b hb
  · intro q hq
    by_cases hqp : q = p
    · simp [hqp] at hq
    · simp only [at_eq, hqp, if_false] at hq ⊢
      exact H.unset q hq
  · intro q f hf
    by_cases hqp : q = p
    · subst hqp
      simp only [at_eq, if_true, Option.some.injEq] at hf ⊢
      subst hf
      exact ⟨a, rfl, HO.free fun b h1 h2 => hF q b h2 h1⟩
    · simp only [at_eq, hqp, if_false] at hf ⊢
      obtain ⟨a', h2, h3⟩ := H.owns q f hf
      exact ⟨a', h2, (h3.adds E).free fun b hb => H.disj q p hqp b hb⟩
  · intro q
    by_cases hqp : q = p
    · simpa [hqp] using (List.nodup_append.1 E.nodup).1
    · simpa [hqp] using H.nodup q
  · intro q r hqr b hb
    by_cases hq : q = p
    · have hr : r ≠ p := fun hr => hqr (hq.trans hr.symm)
      simp only [at_eq, hq, hr, if_true, if_false] at hb ⊢
      exact fun h2 => hF r b h2 hb
    · simp only [at_eq, hq, if_false] at hb
      by_cases hr : r = p
      · simpa [hr] using hF q b hb
      · simpa [hr] using H.disj q r hqr b hb
  · intro b hb
    by_cases hbp : b ∈ fp p
    · simp [Heap.free, hbp] at hb
    · rw [Heap.free_out hbp] at hb
      by_cases hn : h.next ≤ b
      · rcases List.mem_append.1 ((E.mem b hn).1 hb) with h2 | h2
        · exact .inr ⟨p, by simpa using h2⟩
        · exact .inl (List.mem_append.2 (.inl h2))
      · rw [E.old b (by omega)] at hb
        rcases H.cover b hb with h2 | ⟨q, h2⟩
        · exact .inl (List.mem_append.2 (.inr h2))
        · refine .inr ⟨q, ?_⟩
          by_cases hq : q = p
          · subst hq; exact absurd h2 hbp
          · simpa [hq] using h2

/-- A pointer is cleared. -/
theorem Inv.drop (H : Inv fl h ptr A fp G) (p : Ptr) :
    Inv fl (h.free (fp p)) (at' ptr p none) (at' A p none) (at' fp p []) G := by
  refine ⟨?_, ?_, ?_, ?_, ?_, ?_, H.fails⟩
  · intro b hb
    simp only [Heap.free]
    split
    · rfl
    · exact H.wf b hb
  · intro q hq
    by_cases hqp : q = p
    · simp [hqp]
    · simp only [at_eq, hqp, if_false] at hq ⊢
      exact H.unset q hq
  · intro q f hf
    by_cases hqp : q = p
    · simp [hqp] at hf
    · simp only [at_eq, hqp, if_false] at hf ⊢
      obtain ⟨a', h2, h3⟩ := H.owns q f hf
      exact ⟨a', h2, h3.free fun b hb => H.disj q p hqp b hb⟩
  · intro q
    by_cases hqp : q = p
    · simp [hqp]
    · simpa [hqp] using H.nodup q
  · intro q r hqr b hb
    by_cases hq : q = p
    · simp [hq] at hb
    · simp only [at_eq, hq, if_false] at hb
      by_cases hr : r = p
      · simp [hr]
      · simpa [hr] using H.disj q r hqr b hb
  · intro b hb
    by_cases hbp : b ∈ fp p
    · simp [Heap.free, hbp] at hb
    · rw [Heap.free_out hbp] at hb
      rcases H.cover b hb with h2 | ⟨q, h2⟩
      · exact .inl h2
      · refine .inr ⟨q, ?_⟩
        by_cases hq : q = p
        · subst hq; exact absurd h2 hbp
        · simpa [hq] using h2

theorem look_bind {σ α β : Type} {f : σ → α} {k : α → Run σ β} {s : σ} :
    ((look fun s => Res.ok (f s)) >>= k) s = k (f s) s := rfl

theorem setObj_eq (s : State K) (i : Nat) (k : Option Kind) :
    setObj i k s = .ok () ⟨s.heap, s.ptr, fun j => if j = i then k else s.objs j⟩ := rfl

theorem reset_none {s : State K} {p : Ptr} {v : Option Nat} (hp : s.ptr p = none) :
    reset p v s = .ok () ⟨s.heap, at' s.ptr p v, s.objs⟩ := by
  rw [reset, bind_ok (a := none) (s' := s) (look_ok (by rw [hp]))]
  rfl

theorem heap_ok {α : Type} {m : Act K α} {s : State K} {v : α} (hm : m s.heap = .ok v h) :
    heap m s = .ok v ⟨h, s.ptr, s.objs⟩ := by simp [heap, hm]

theorem heap_throw {α : Type} {m : Act K α} {s : State K} {x : Exc} (hm : m s.heap = .throw x h) :
    heap m s = .throw x ⟨h, s.ptr, s.objs⟩ := by simp [heap, hm]

theorem reset_some {s : State K} {p : Ptr} {v : Option Nat} (hp : s.ptr p = some a)
    (hd : VM.delete a s.heap = .ok () h) : reset p v s = .ok () ⟨h, at' s.ptr p v, s.objs⟩ := by
  rw [reset, bind_ok (a := some a) (s' := s) (look_ok (by rw [hp]))]
  simp only
  rw [bind_ok (heap_ok hd)]
  rfl

/-- Assignment to a pointer deletes what it owned. -/
theorem Inv.reset (H : Inv fl h ptr A fp G) (E : Adds h h1 L) (p : Ptr) (v : Option Nat) :
    reset p v ⟨h1, ptr, objs⟩ = .ok () ⟨h1.free (fp p), at' ptr p v, objs⟩ := by
  cases hA : A p with
  | none =>
    obtain ⟨h2, h3⟩ := H.unset p hA
    rw [reset_none h2, h3, Heap.free_nil]
  | some e =>
    obtain ⟨a, h2, h3⟩ := H.owns p e hA
    exact reset_some h2 (delete_own (h3.adds E) (H.nodup p))

/-! ### Values -/

def own1 : Option (Obj K) → Option (Expr K)
  | some (.expr e) => e
  | some (.bin _ l _) => l
  | some (.un _ e) => e
  | none => none

def own2 : Option (Obj K) → Option (Expr K)
  | some (.bin _ _ r) => r
  | _ => none

/-- What the pointers own. -/
def own (σ : Store K) : Ptr → Option (Expr K)
  | .one i => own1 (σ i)
  | .two i => own2 (σ i)
  | .tmp => none

def kind : Obj K → Kind
  | .expr _ => .expr
  | .bin op _ _ => .bin op
  | .un op _ => .un op

/-- The objects are those of the store. -/
def Kinds (objs : Nat → Option Kind) (σ : Store K) : Prop := ∀ i, objs i = (σ i).map kind


/-- The state represents the store, with the garbage `G`. -/
def Rep (fl : Nat → Bool) (s : State K) (σ : Store K) (G : List Nat) : Prop :=
  (∃ fp, Inv fl s.heap s.ptr (own σ) fp G) ∧ Kinds s.objs σ

theorem own_set (σ : Store K) (i : Nat) (o : Option (Obj K)) :
    own (σ.set i o) = at' (at' (own σ) (.one i) (own1 o)) (.two i) (own2 o) := by
  funext p
  cases p with
  | one j => by_cases h : j = i <;> simp [own, Store.set, h]
  | two j => by_cases h : j = i <;> simp [own, Store.set, h]
  | tmp => simp [own]

theorem Kinds.set {objs : Nat → Option Kind} {σ : Store K} (H : Kinds objs σ) (i : Nat) (o : Option (Obj K)) :
    Kinds (fun j => if j = i then o.map kind else objs j) (σ.set i o) := by
  intro j
  by_cases h : j = i
  · simp [Store.set, h]
  · simp [Store.set, h, H j]


theorem child_operands (e : Expr K) (k : Nat) : child e k = e.operands[k]? := by
  cases e <;> simp only [operands] <;> first | rfl | skip
  · rcases k with _ | _ | k <;> simp [child]
  · rcases k with _ | _ | _ | k <;> simp [child]
  · rcases k with _ | _ | k <;> simp [child]

theorem OwnL.get {c : Nat → Option (Cell K)} {ks F : List Nat} {es : List (Expr K)} (H : OwnL c ks es F) (k : Nat) :
    (es[k]? = none ∧ ks[k]? = none) ∨
      ∃ e b F', es[k]? = some e ∧ ks[k]? = some b ∧ Own c b e F' ∧ ∀ x ∈ F', x ∈ F := by
  induction es generalizing ks F k with
  | nil => cases H; simp
  | cons x es ih =>
    cases H with
    | @cons b _ F1 ks _ F2 h1 h2 =>
      cases k with
      | zero => exact .inr ⟨x, b, F1, by simp, by simp, h1, by simp +contextual⟩
      | succ k =>
        rcases ih h2 k with ⟨g1, g2⟩ | ⟨e, b', F', g1, g2, g3, g4⟩
        · exact .inl ⟨by simpa using g1, by simpa using g2⟩
        · exact .inr ⟨e, b', F', by simpa using g1, by simpa using g2, g3, fun x hx => by simp [g4 x hx]⟩

/-- A path leads to the part of the expression it leads to in the specification. -/
theorem follow_own (ks : List Nat) : ∀ {a : Nat} {e : Expr K} {F : List Nat}, Own h.cells a e F →
    (part e ks = none → follow h a ks = .ub) ∧
      ∀ e', part e ks = some e' → ∃ b F', follow h a ks = .ok b ∧ Own h.cells b e' F' ∧ ∀ x ∈ F', x ∈ F := by
  induction ks with
  | nil =>
    intro a e F H
    refine ⟨fun h => (by simp [part] at h), fun e' he => ?_⟩
    cases he
    exact ⟨a, F, rfl, H, fun _ h => h⟩
  | cons k ks ih =>
    intro a e F H
    cases H with
    | @node _ _ cs F h1 h2 h3 =>
      simp only [part, child_operands, follow, h1]
      rcases h2.get k with ⟨g1, g2⟩ | ⟨e', b, F', g1, g2, g3, g4⟩
      · rw [g1, g2]; simp
      · rw [g1, g2]
        simp only [Option.bind_some]
        refine ⟨(ih g3).1, fun e2 he2 => ?_⟩
        obtain ⟨b2, F2, i1, i2, i3⟩ := (ih g3).2 e2 he2
        exact ⟨b2, F2, i1, i2, fun x hx => by simp [g4 x (i3 x hx)]⟩

/-- Paths stay within the tree. -/
theorem follow_mem {b : Nat} (ks : List Nat) (H : Own h.cells a e F) (hf : follow h a ks = .ok b) : b ∈ F := by
  cases hp : part e ks with
  | none => rw [(follow_own ks H).1 hp] at hf; cases hf
  | some e' =>
    obtain ⟨b', F', h1, h2, h3⟩ := (follow_own ks H).2 e' hp
    rw [hf] at h1
    cases h1
    exact h3 b h2.root_mem

/-- Where a reference leads. -/
theorem target_some {s : State K} {σ : Store K} (H : Inv fl s.heap s.ptr (own σ) fp G) (hk : Kinds s.objs σ)
    {r : Src} (hl : Spec.look σ r = some e) :
    (∃ a p F, s.target r = .ok (.node a) ∧ Own s.heap.cells a e F ∧ (∀ b ∈ F, b ∈ fp p) ∧
      (p = .one r.obj ∧ ((∃ o, σ r.obj = some (.expr o)) ∨ ∃ ks, r.path = 0 :: ks) ∨
        p = .two r.obj ∧ ∃ ks, r.path = 1 :: ks)) ∨
    (∃ op x y, s.target r = .ok (.binObj r.obj) ∧ σ r.obj = some (.bin (some op) (some x) (some y)) ∧
      e = .bin op x y ∧ r.path = []) ∨
    (∃ op x, s.target r = .ok (.unObj r.obj) ∧ σ r.obj = some (.un (some op) (some x)) ∧ e = .un op x ∧
      r.path = []) := by
  obtain ⟨j, path⟩ := r
  simp only [Spec.look] at hl
  have hkj := hk j
  have b1 := H.owns (.one j)
  have b2 := H.owns (.two j)
  simp only [own] at b1 b2
  cases hj : σ j with
  | none => simp [hj] at hl
  | some o =>
    rw [hj] at hkj hl b1 b2
    cases o with
    | expr o =>
      simp only [Option.map_some, kind] at hkj
      cases o with
      | none => simp [Obj.part] at hl
      | some f =>
        simp only [Option.bind_some, Obj.part] at hl
        obtain ⟨a, h1, hb⟩ := b1 f rfl
        obtain ⟨a', F', g1, g2, g3⟩ := (follow_own path hb).2 e hl
        left
        refine ⟨a', .one j, F', ?_, g2, g3, Or.inl ⟨rfl, Or.inl ⟨_, rfl⟩⟩⟩
        simp only [State.target, hkj, h1, g1, Res.map_ok]
    | bin op l u =>
      simp only [Option.map_some, kind] at hkj
      simp only [Option.bind_some] at hl
      match path, hl with
      | [], hl =>
        cases op with
        | none => simp [Obj.part] at hl
        | some op =>
        cases l with
        | none => simp [Obj.part] at hl
        | some x =>
        cases u with
        | none => simp [Obj.part] at hl
        | some y =>
          simp only [Obj.part, Option.some.injEq] at hl
          exact Or.inr (Or.inl ⟨op, x, y, by simp [State.target, hkj], rfl, hl.symm, rfl⟩)
      | 0 :: ks, hl =>
        cases l with
        | none => simp [Obj.part] at hl
        | some x =>
          simp only [Obj.part, Option.bind_some] at hl
          obtain ⟨a, h1, hb⟩ := b1 x rfl
          obtain ⟨a', F', g1, g2, g3⟩ := (follow_own ks hb).2 e hl
          left
          refine ⟨a', .one j, F', ?_, g2, g3, Or.inl ⟨rfl, Or.inr ⟨_, rfl⟩⟩⟩
          simp only [State.target, hkj, h1, g1, Res.map_ok]
      | 1 :: ks, hl =>
        cases u with
        | none => simp [Obj.part] at hl
        | some y =>
          simp only [Obj.part, Option.bind_some] at hl
          obtain ⟨a, h1, hb⟩ := b2 y rfl
          obtain ⟨a', F', g1, g2, g3⟩ := (follow_own ks hb).2 e hl
          left
          refine ⟨a', .two j, F', ?_, g2, g3, Or.inr ⟨rfl, ks, rfl⟩⟩
          simp only [State.target, hkj, h1, g1, Res.map_ok]
      | (k + 2) :: ks, hl => simp [Obj.part] at hl
    | un op l =>
      simp only [Option.map_some, kind] at hkj
      simp only [Option.bind_some] at hl
      match path, hl with
      | [], hl =>
        cases op with
        | none => simp [Obj.part] at hl
        | some op =>
        cases l with
        | none => simp [Obj.part] at hl
        | some x =>
          simp only [Obj.part, Option.some.injEq] at hl
          exact Or.inr (Or.inr ⟨op, x, by simp [State.target, hkj], rfl, hl.symm, rfl⟩)
      | 0 :: ks, hl =>
        cases l with
        | none => simp [Obj.part] at hl
        | some x =>
          simp only [Obj.part, Option.bind_some] at hl
          obtain ⟨a, h1, hb⟩ := b1 x rfl
          obtain ⟨a', F', g1, g2, g3⟩ := (follow_own ks hb).2 e hl
          left
          refine ⟨a', .one j, F', ?_, g2, g3, Or.inl ⟨rfl, Or.inr ⟨_, rfl⟩⟩⟩
          simp only [State.target, hkj, h1, g1, Res.map_ok]
      | (k + 1) :: ks, hl => simp [Obj.part] at hl

theorem target_none {s : State K} {σ : Store K} (H : Inv fl s.heap s.ptr (own σ) fp G) (hk : Kinds s.objs σ)
    {r : Src} (hl : Spec.look σ r = none) :
    s.target r = .ub ∨ (s.target r = .ok .null ∧ Unset σ r) ∨
    (s.target r = .ok (.binObj r.obj) ∧ ∃ op l u, σ r.obj = some (.bin op l u) ∧ (op = none ∨ l = none ∨ u = none)) ∨
    (s.target r = .ok (.unObj r.obj) ∧ ∃ op l, σ r.obj = some (.un op l) ∧ (op = none ∨ l = none)) := by
  obtain ⟨j, path⟩ := r
  simp only [Spec.look] at hl
  have hkj := hk j
  have b1 := H.owns (.one j)
  have b2 := H.owns (.two j)
  have n1 := H.unset (.one j)
  have n2 := H.unset (.two j)
  simp only [own] at b1 b2 n1 n2
  cases hj : σ j with
  | none => left; simp [State.target, hkj, hj]
  | some o =>
    rw [hj] at hkj hl b1 b2 n1 n2
    cases o with
    | expr o =>
      simp only [Option.map_some, kind] at hkj
      cases o with
      | none =>
        have h1 := (n1 rfl).1
        cases path with
        | nil => right; left; exact ⟨by simp [State.target, hkj, h1], hj, rfl⟩
        | cons k ks => left; simp [State.target, hkj, h1]
      | some f =>
        simp only [Option.bind_some, Obj.part] at hl
        obtain ⟨a, h1, hb⟩ := b1 f rfl
        left
        simp only [State.target, hkj, h1, (follow_own path hb).1 hl, Res.map_ub]
    | bin op l u =>
      simp only [Option.map_some, kind] at hkj
      simp only [Option.bind_some] at hl
      match path, hl with
      | [], hl =>
        right; right; left
        refine ⟨by simp [State.target, hkj], op, l, u, rfl, ?_⟩
        cases op with
        | none => simp
        | some op =>
        cases l with
        | none => simp
        | some x =>
        cases u with
        | none => simp
        | some y => simp [Obj.part] at hl
      | 0 :: ks, hl =>
        left
        cases l with
        | none => simp [State.target, hkj, (n1 rfl).1]
        | some x =>
          simp only [Obj.part, Option.bind_some] at hl
          obtain ⟨a, h1, hb⟩ := b1 x rfl
          simp only [State.target, hkj, h1, (follow_own ks hb).1 hl, Res.map_ub]
      | 1 :: ks, hl =>
        left
        cases u with
        | none => simp [State.target, hkj, (n2 rfl).1]
        | some y =>
          simp only [Obj.part, Option.bind_some] at hl
          obtain ⟨a, h1, hb⟩ := b2 y rfl
          simp only [State.target, hkj, h1, (follow_own ks hb).1 hl, Res.map_ub]
      | (k + 2) :: ks, hl => left; simp [State.target, hkj]
    | un op l =>
      simp only [Option.map_some, kind] at hkj
      simp only [Option.bind_some] at hl
      match path, hl with
      | [], hl =>
        right; right; right
        refine ⟨by simp [State.target, hkj], op, l, rfl, ?_⟩
        cases op with
        | none => simp
        | some op =>
        cases l with
        | none => simp
        | some x => simp [Obj.part] at hl
      | 0 :: ks, hl =>
        left
        cases l with
        | none => simp [State.target, hkj, (n1 rfl).1]
        | some x =>
          simp only [Obj.part, Option.bind_some] at hl
          obtain ⟨a, h1, hb⟩ := b1 x rfl
          simp only [State.target, hkj, h1, (follow_own ks hb).1 hl, Res.map_ub]
      | (k + 1) :: ks, hl => left; simp [State.target, hkj]

/-- The pointers of an `rt_binary_expr`. -/
theorem Inv.bin {s : State K} {σ : Store K} (H : Inv fl s.heap s.ptr (own σ) fp G) (hk : Kinds s.objs σ)
    {i : Nat} {op : BOp} {x y : Expr K} (hi : σ i = some (.bin (some op) (some x) (some y))) :
    ∃ l r, s.objs i = some (.bin (some op)) ∧ s.ptr (.one i) = some l ∧
      s.ptr (.two i) = some r ∧ Own s.heap.cells l x (fp (.one i)) ∧ Own s.heap.cells r y (fp (.two i)) := by
  obtain ⟨l, h1, h2⟩ := H.owns (.one i) x (by simp [own, hi, own1])
  obtain ⟨r, h3, h4⟩ := H.owns (.two i) y (by simp [own, hi, own2])
  exact ⟨l, r, by simp [hk i, hi, kind], h1, h3, h2, h4⟩

/-- The pointer of an `rt_unary_expr`. -/
theorem Inv.un {s : State K} {σ : Store K} (H : Inv fl s.heap s.ptr (own σ) fp G) (hk : Kinds s.objs σ)
    {i : Nat} {op : UOp} {x : Expr K} (hi : σ i = some (.un (some op) (some x))) :
    ∃ k, s.objs i = some (.un (some op)) ∧ s.ptr (.one i) = some k ∧ Own s.heap.cells k x (fp (.one i)) := by
  obtain ⟨k, h1, h2⟩ := H.owns (.one i) x (by simp [own, hi, own1])
  exact ⟨k, by simp [hk i, hi, kind], h1, h2⟩

/-- The argument of a function is the expression `e`. -/
inductive RefIs (h : Heap K) : Ref → Expr K → Prop
  | node {a : Nat} {e : Expr K} {F : List Nat} : Own h.cells a e F → RefIs h (.node a) e
  | whole {op : BOp} {l r : Nat} {x y : Expr K} {F G : List Nat} : Own h.cells l x F → Own h.cells r y G →
      RefIs h (.whole op l r) (.bin op x y)
  | single {op : UOp} {k : Nat} {x : Expr K} {F : List Nat} : Own h.cells k x F → RefIs h (.single op k) (.un op x)

/-- The arguments are the expressions of a list. -/
inductive RefsAre (h : Heap K) : List Ref → List (Expr K) → Prop
  | nil : RefsAre h [] []
  | cons {x : Ref} {e : Expr K} {xs : List Ref} {es : List (Expr K)} : RefIs h x e → RefsAre h xs es →
      RefsAre h (x :: xs) (e :: es)

theorem ref_some {s : State K} {σ : Store K} (H : Inv fl s.heap s.ptr (own σ) fp G) (hk : Kinds s.objs σ)
    {r : Src} (hl : Spec.look σ r = some e) : ∃ x, s.ref r = .ok x ∧ RefIs s.heap x e ∧
      ((∃ e, σ r.obj = some (.expr e)) ∨ r.path ≠ [] → ∃ a, x = .node a) := by
  rcases target_some H hk hl with ⟨a, p, F, ht, hb, -⟩ | ⟨op, x, y, ht, hi, rfl, hp⟩ | ⟨op, x, ht, hi, rfl, hp⟩
  · exact ⟨.node a, by simp only [State.ref, ht, Res.bind_ok], .node hb, fun _ => ⟨a, rfl⟩⟩
  · obtain ⟨l, r', h1, h2, h3, h4, h5⟩ := H.bin hk hi
    refine ⟨.whole op l r', ?_, .whole h4 h5, ?_⟩
    · simp only [State.ref, ht, Res.bind_ok, h1, h2, h3]
    · rintro (⟨e, he⟩ | hn)
      · rw [hi] at he; cases he
      · exact absurd hp hn
  · obtain ⟨k, h1, h2, h3⟩ := H.un hk hi
    refine ⟨.single op k, ?_, .single h3, ?_⟩
    · simp only [State.ref, ht, Res.bind_ok, h1, h2]
    · rintro (⟨e, he⟩ | hn)
      · rw [hi] at he; cases he
      · exact absurd hp hn

theorem view_eq {s : State K} {σ : Store K} (H : Inv fl s.heap s.ptr (own σ) fp G) (hk : Kinds s.objs σ)
    (r : Src) : s.view r = shown (Spec.look σ r) := by
  cases hl : Spec.look σ r with
  | some e =>
    obtain ⟨x, h1, h2, -⟩ := ref_some H hk hl
    cases h2 with
    | node h3 => simp only [State.view, h1, Res.bind_ok, load_own h3, shown]
    | whole h3 h4 => simp only [State.view, h1, Res.bind_ok, load_own h3, load_own h4, Res.map_ok, shown]
    | single h3 => simp only [State.view, h1, Res.bind_ok, load_own h3, Res.map_ok, shown]
  | none =>
    rcases target_none H hk hl with ht | ⟨ht, -⟩ | ⟨ht, op, l, u, hi, hm⟩ | ⟨ht, op, l, hi, hm⟩
    · simp only [State.view, State.ref, ht, Res.bind_ub, shown]
    · simp only [State.view, State.ref, ht, Res.bind_ok, Res.bind_ub, shown]
    · have n1 := H.unset (.one r.obj)
      have n2 := H.unset (.two r.obj)
      simp only [own, hi, own1, own2] at n1 n2
      rcases hm with rfl | rfl | rfl
      · simp [State.view, State.ref, ht, Res.bind_ok, hk r.obj, hi, kind, shown]
      · simp [State.view, State.ref, ht, Res.bind_ok, hk r.obj, hi, kind, shown, (n1 rfl).1]
      · simp [State.view, State.ref, ht, Res.bind_ok, hk r.obj, hi, kind, shown, (n2 rfl).1]
    · have n1 := H.unset (.one r.obj)
      simp only [own, hi, own1] at n1
      rcases hm with rfl | rfl
      · simp [State.view, State.ref, ht, Res.bind_ok, hk r.obj, hi, kind, shown]
      · simp [State.view, State.ref, ht, Res.bind_ok, hk r.obj, hi, kind, shown, (n1 rfl).1]

theorem isNull_false [Num K] {s : State K} {σ : Store K} (H : Inv fl s.heap s.ptr (own σ) fp G) (hk : Kinds s.objs σ)
    {rhs : Rhs K} {v : Res (Expr K)} (hr : RhsVal σ rhs v) : s.isNull rhs = false := by
  cases hr with
  | copy h =>
    rcases target_some H hk h with ⟨b, p, f, ht, -⟩ | ⟨op, x, y, ht, -⟩ | ⟨op, x, ht, -⟩ <;> simp [State.isNull, ht]
  | _ => rfl

theorem unset_target {s : State K} {σ : Store K} (H : Inv fl s.heap s.ptr (own σ) fp G) (hk : Kinds s.objs σ)
    {r : Src} (hu : Unset σ r) : s.target r = .ok .null := by
  obtain ⟨h1, h2⟩ := hu
  have h3 := hk r.obj
  have h4 := (H.unset (.one r.obj) (by simp [own, h1, own1])).1
  rw [h1] at h3
  simp only [Option.map_some, kind] at h3
  simp [State.target, h3, h4, h2]

theorem isNull_true {s : State K} {σ : Store K} (H : Inv fl s.heap s.ptr (own σ) fp G) (hk : Kinds s.objs σ)
    {r : Src} (hu : Unset σ r) : s.isNull (.copy r) = true := by
  simp [State.isNull, unset_target H hk hu]

/-! ### Right hand sides -/

section
variable [Num K] {U Lk : Prop} {o : Nat → Bool} {x y z : Ref} {e f g : Expr K}

omit [Num K] in
theorem RefIs.adds (H : RefIs h x e) (E : Adds h h1 L) : RefIs h1 x e := by
  cases H with
  | node a => exact .node (a.adds E)
  | whole a b => exact .whole (a.adds E) (b.adds E)
  | single a => exact .single (a.adds E)

theorem RefIs.clone (H : RefIs h x e) : Makes U Lk h (.ok e) (x.clone : Act K Nat) := by
  cases H with
  | node a => exact clone_makes a
  | whole a b => exact newBin_makes (clone_makes a) (clone_makes b)
  | single a => exact newUn_makes (clone_makes a)

omit [Num K] in
theorem RefIs.read (H : RefIs h x e) : Reads h (x.read : Act K (Expr K)) e := by
  intro h1 A E
  cases H with
  | node a => rw [Ref.read, ask_eq a E]; rfl
  | whole a b =>
    rw [Ref.read, bind_ok (s' := h1) (by rw [ask_eq a E]; exact look_ok rfl),
      bind_ok (s' := h1) (by rw [ask_eq b E]; exact look_ok rfl)]
    rfl
  | single a =>
    rw [Ref.read, bind_ok (s' := h1) (by rw [ask_eq a E]; exact look_ok rfl)]
    rfl

theorem RefIs.diff {v : DVar} (H : RefIs h x e) (hL : hasGrad e = true → (∃ i t, v = .fsym i t) → Lk) :
    Makes U Lk h (diffE v e) (x.diff o v : Act K Nat) := by
  cases H with
  | node a => exact diffA_makes a hL
  | whole a b =>
    rw [diffE]
    exact diffBinA_makes a b (diffA_makes a fun hg => hL (by simp [hasGrad, hg]))
      (diffA_makes b fun hg => hL (by simp [hasGrad, hg]))
  | single a => exact diffUnA_makes a (diffA_makes a) hL

theorem RefIs.subst (hU : U) (Hs : RefIs h x e) (Ht : RefIs h y f) (H : RefIs h z g) :
    Makes U Lk h (substE e f g) (Ref.subst o x y z : Act K Nat) := by
  cases H with
  | node a => exact substA_makes hU a Hs.read Ht.clone
  | whole a b => exact substBinA_makes hU a b Hs.read Ht.clone
  | single a => exact substUnA_makes hU a Hs.read Ht.clone

omit [Num K] in
theorem RefsAre.reads {xs : List Ref} {es : List (Expr K)} (H : RefsAre h xs es) :
    List.Forall₂ (Reads h) (xs.map (Ref.read (K := K))) es := by
  induction H with
  | nil => exact .nil
  | cons a _ ih => exact .cons a.read ih

theorem RefsAre.clones {xs : List Ref} {es : List (Expr K)} (H : RefsAre h xs es) :
    List.Forall₂ (fun rA r => Makes U Lk h (.ok r) rA) (xs.map (Ref.clone (K := K))) es := by
  induction H with
  | nil => exact .nil
  | cons a _ ih => exact .cons a.clone ih

/-- A function that holds copies of two bounds while it runs. -/
theorem withBounds_makes {lo hi : Act K Nat} {k : Nat → Nat → Act K Nat} {r : Res (Expr K)}
    (hl : Makes U Lk h (.ok e) lo) (hu : Makes U Lk h (.ok f) hi)
    (hk : ∀ {h1 A a b F G}, Adds h h1 A → Own h1.cells a e F → Own h1.cells b f G → Makes U Lk h1 r (k a b)) :
    Makes U Lk h r (withBounds lo hi k) := by
  intro h1 A E
  refine hl.step E (.refl E.wf') (fun h => absurd rfl (h _)) ?_
  intro a e1 F1 L1 h2 a1 a2 a3 a4
  cases a1
  refine hu.owning (E.trans a3) a3 a2.one (.refl _) (fun h => absurd rfl (h _)) ?_
  intro b e2 F2 L2 h3 b1 b2 b3 b4
  cases b1
  have E13 := a3.trans b3
  refine (hk (E.trans E13) (a2.adds b3) b2).owning (.refl b3.wf') E13 (C := L1 ++ L2)
    (OwnL.cons b2 (a2.adds b3).one) (by perm_parts) (fun h => h) ?_
  intro c e3 F3 L3 h4 c1 c2 c3 c4
  have E14 := E13.trans c3
  obtain ⟨d1, d2, d3⟩ := E14.del (B := F2 ++ (F3 ++ (L1 ++ (L2 ++ L3)))) ((a2.adds b3).adds c3) (by perm_parts)
  obtain ⟨e1, e2, e3'⟩ := d2.del (B := F3 ++ (L1 ++ (L2 ++ L3))) (d3 (b2.adds c3) (by simp +contextual)) (.refl _)
  rw [bind_ok d1, bind_ok e1]
  exact .ok c1 (e3' (d3 c2 (by simp +contextual)) (by simp +contextual)) e2 (or_nil a4 (or_nil b4 c4))

theorem cloneAll_ends : ∀ {xs : List Ref} {es : List (Expr K)} {h1 : Heap K} {A : List Nat},
    RefsAre h xs es → Adds h h1 A → EndsL U Lk h1 (.ok es) (Ref.cloneAll xs h1)
  | _, _, h1, A, .nil, E => .ok (L := []) rfl .nil (.refl E.wf') (.inr rfl)
  | _, _, h1, A, .cons (x := x) (e := e) (xs := xs) (es := es) hx hxs, E => by
    have h2 := hx.clone (U := U) (Lk := Lk) _ _ E
    revert h2
    rw [Ref.cloneAll]
    cases hm : (x.clone : Act K Nat) h1 with
    | throw _ _ =>
      rintro (_ | ⟨g1, g2⟩)
      rw [bind_throw hm]
      exact .throw (g1.imp (fun g1 => absurd rfl (g1 _)) id) g2
    | ub => rintro (_ | _ | ⟨g1, _⟩); exact absurd rfl (g1 _)
    | ok a h2 =>
      rintro (@⟨_, _, _, F1, L1, g1, g2, g3, g4⟩)
      cases g1
      rw [bind_ok hm]
      have h3 := cloneAll_ends hxs (E.trans g3)
      revert h3
      cases hn : (Ref.cloneAll xs : Act K (List Nat)) h2 with
      | throw z h3 =>
        rintro (_ | @⟨_, _, L', i1, i2⟩)
        have E3 := (g3.trans i2).perm (B := F1 ++ (L1 ++ L')) (by perm_parts)
        obtain ⟨u, hu⟩ := each_delete_own (g2.adds i2).one (List.nodup_append.1 E3.nodup).1
        rw [bind_throw (show owning [a] (Ref.cloneAll xs) h2 = .throw z (h3.free F1) by simp only [owning, hn, hu])]
        exact .throw (i1.imp (fun i1 => absurd rfl (i1 _)) fun h => ⟨h.1, g3.scarce h.2⟩) E3.free
      | ub => rintro (_ | _ | ⟨g1, _⟩); exact absurd rfl (g1 _)
      | ok ks h3 =>
        rintro (@⟨_, _, _, F2, L2, i1, i2, i3, i4⟩)
        cases i1
        rw [bind_ok (show owning [a] (Ref.cloneAll xs) h2 = .ok ks h3 by simp only [owning, hn])]
        exact .ok rfl (.cons (g2.adds i3) i2)
          ((g3.trans i3).perm (B := F1 ++ F2 ++ (L1 ++ L2)) (by perm_parts)) (or_nil g4 i4)

theorem cloneAll_makes {xs : List Ref} {es : List (Expr K)} (H : RefsAre h xs es) :
    Makes U Lk h (.ok (.vec es)) (do let ks ← Ref.cloneAll xs; owning ks (new .vec ks)) := by
  intro h1 A E
  have h2 := cloneAll_ends (U := U) (Lk := Lk) H E
  revert h2
  cases hn : (Ref.cloneAll xs : Act K (List Nat)) h1 with
  | throw _ _ =>
    rintro (_ | ⟨g1, g2⟩)
    rw [bind_throw hn]
    exact .throw (g1.imp (fun g1 => absurd rfl (g1 _)) id) g2
  | ub => rintro (_ | _ | ⟨g1, _⟩); exact absurd rfl (g1 _)
  | ok ks h3 =>
    rintro (@⟨_, _, _, F, L, i1, i2, i3, i4⟩)
    cases i1
    rw [bind_ok hn]
    have hn := new_ends (U := U) (Lk := Lk) (e := .vec es) i3 i2 i4
    rcases new_eq (h := h3) .vec ks with he | ⟨he, hs⟩
    · simp only [owning, he]
      simp only [label, he] at hn
      exact hn
    · have E3 := (i3.trans (Heap.skip_adds i3.wf')).perm (B := F ++ L) (by simp)
      obtain ⟨u, hu⟩ := each_delete_own (i2.adds (Heap.skip_adds i3.wf')) (List.nodup_append.1 E3.nodup).1
      simp only [owning, he, hu]
      exact .throw (.inr ⟨rfl, i3.scarce hs⟩) E3.free

omit [Num K] in
/-- A node whose operands are released if there is no memory for it. -/
theorem owning_new_ends {r : Res (Expr K)} {l : Label K} {ks : List Nat} {es : List (Expr K)} {h1 h3 : Heap K}
    {F L : List Nat} (E : Adds h1 h3 (F ++ L)) (H : OwnL h3.cells ks es F)
    (hn : Ends U Lk h1 r (new l ks h3)) : Ends U Lk h1 r (owning ks (new l ks) h3) := by
  rcases new_eq (h := h3) l ks with he | ⟨he, hs⟩
  · simp only [owning, he]
    rwa [he] at hn
  · have E3 := (E.trans (Heap.skip_adds E.wf')).perm (B := F ++ L) (by simp)
    obtain ⟨u, hu⟩ := each_delete_own (H.adds (Heap.skip_adds E.wf')) (List.nodup_append.1 E3.nodup).1
    simp only [owning, he, hu]
    exact .throw (.inr ⟨rfl, E.scarce hs⟩) E3.free

theorem fromCt_makes : ∀ {c : Ct.CtExpr} {e : Expr K}, Ct.toRt c = some e → Makes U Lk h (.ok e) (fromCt c)
  | .const n, e, hc => by cases hc; exact newConst_makes _
  | .var i, e, hc => by
    cases hc
    exact fun h1 A E => new_ends (e := .var i) (A := []) (L := []) (.refl E.wf') .nil (.inr rfl)
  | .fsym _, e, hc => by cases hc
  | .bin l op r, e, hc => by
    rw [Ct.toRt_bin] at hc
    obtain ⟨x, hx, hc⟩ := Option.bind_eq_some_iff.1 hc
    obtain ⟨y, hy, rfl⟩ := Option.map_eq_some_iff.1 hc
    intro h1 A E
    rw [fromCt]
    refine (fromCt_makes hx).step E (.refl E.wf') (fun h => absurd rfl (h _)) ?_
    intro a e1 F1 L1 h2 a1 a2 a3 a4
    cases a1
    refine (fromCt_makes hy).owning (E.trans a3) a3 a2.one (.refl _) (fun h => absurd rfl (h _)) ?_
    intro b e2 F2 L2 h3 b1 b2 b3 b4
    cases b1
    have H := OwnL.cons (a2.adds b3) (OwnL.cons b2 .nil)
    rw [List.append_nil] at H
    have E2 := (a3.trans b3).perm (B := (F1 ++ F2) ++ (L1 ++ L2)) (by perm_parts)
    exact owning_new_ends E2 H (new_ends (e := .bin op.toRt x y) E2 H (or_nil a4 b4))

omit [Num K] in
theorem refs_some {s : State K} {σ : Store K} (H : Inv fl s.heap s.ptr (own σ) fp G) (hk : Kinds s.objs σ) :
    ∀ {rs : List Src} {es : List (Expr K)}, lookAll σ rs = some es →
      ∃ xs, s.refs rs = .ok xs ∧ RefsAre s.heap xs es
  | [], es, hl => by cases hl; exact ⟨[], rfl, .nil⟩
  | r :: rs, es, hl => by
    simp only [lookAll, Option.bind_eq_some_iff, Option.map_eq_some_iff] at hl
    obtain ⟨e, h1, es', h2, rfl⟩ := hl
    obtain ⟨x, h3, h4, -⟩ := ref_some H hk h1
    obtain ⟨xs, h5, h6⟩ := refs_some H hk h2
    exact ⟨x :: xs, by simp [State.refs, h3, h5], .cons h4 h6⟩

omit [Num K] in
theorem refs_append {s : State K} (rs ts : List Src) :
    s.refs (rs ++ ts) = (s.refs rs).bind fun xs => (s.refs ts).map (xs ++ ·) := by
  induction rs with
  | nil => cases h : s.refs ts <;> simp [State.refs, h]
  | cons r rs ih =>
    simp only [List.cons_append, State.refs, ih]
    cases s.ref r <;> simp
    cases s.refs rs <;> simp
    cases s.refs ts <;> simp

omit [Num K] in
theorem refs_length {s : State K} : ∀ {rs : List Src} {xs : List Ref}, s.refs rs = .ok xs → xs.length = rs.length
  | [], xs, h => by cases h; rfl
  | r :: rs, xs, h => by
    simp only [State.refs] at h
    obtain ⟨x, -, h⟩ := Res.bind_eq_ok.1 h
    obtain ⟨ys, hy, rfl⟩ := Res.map_eq_ok.1 h
    simp [refs_length hy]

omit [Num K] in
theorem lookAll_length {σ : Store K} : ∀ {rs : List Src} {es : List (Expr K)}, lookAll σ rs = some es →
    es.length = rs.length
  | [], es, h => by cases h; rfl
  | r :: rs, es, h => by
    simp only [lookAll, Option.bind_eq_some_iff, Option.map_eq_some_iff] at h
    obtain ⟨e, -, es', h2, rfl⟩ := h
    simp [lookAll_length h2]

theorem act_substMany {ss ts : List Src} {r : Src} {xs ys : List Ref} {x : Ref} (h1 : xs.length = ss.length)
    (h2 : ys.length = ts.length) (hl : ss.length = ts.length) :
    Rhs.act (K := K) o (.substMany ss ts r) (xs ++ (ys ++ [x])) = Ref.substMany o xs ys x >>= simplifiedA o := by
  have e1 : (xs ++ (ys ++ [x])).drop (ss.length + ts.length) = [x] := by
    rw [← List.append_assoc, ← h1, ← h2, ← List.length_append, List.drop_left]
  have e2 : (xs ++ (ys ++ [x])).take ss.length = xs := by rw [← h1, List.take_left]
  have e3 : ((xs ++ (ys ++ [x])).drop ss.length).take ts.length = ys := by
    rw [← h1, List.drop_left, ← h2, List.take_left]
  unfold Rhs.act
  simp only [e1, e2, e3]
  rw [if_pos hl]

/-- What admits that a right hand side leaks. -/
def Leaky (σ : Store K) (rhs : Rhs K) : Prop :=
  ∃ i t r e, rhs = .diff (.fsym i t) r ∧ Spec.look σ r = some e ∧ hasGrad e = true

/-- The computation of a right hand side. -/
theorem act_makes {s : State K} {σ : Store K} (H : Inv fl s.heap s.ptr (own σ) fp G) (hk : Kinds s.objs σ)
    {rhs : Rhs K} (hr : RhsVal σ rhs (.ok e)) :
    ∃ xs, s.refs rhs.args = .ok xs ∧ Makes True (Leaky σ rhs) s.heap (.ok e) (rhs.act o xs) := by
  have hw := H.wf
  have one : ∀ {r : Src} {e : Expr K}, Spec.look σ r = some e → ∃ x, s.refs [r] = .ok [x] ∧ RefIs s.heap x e := by
    intro r e hl
    obtain ⟨x, h1, h2, -⟩ := ref_some H hk hl
    exact ⟨x, by simp [State.refs, h1], h2⟩
  generalize hv : (Res.ok e) = v at hr
  cases hr with
  | const c => exact ⟨[], rfl, newConst_makes c⟩
  | var i => exact ⟨[], rfl, fun h1 A E => new_ends (e := .var i) (A := []) (L := []) (.refl E.wf') .nil (.inr rfl)⟩
  | fsym i t =>
    exact ⟨[], rfl, fun h1 A E => new_ends (e := .fsym i t) (A := []) (L := []) (.refl E.wf') .nil (.inr rfl)⟩
  | conv hc =>
    cases hv
    exact ⟨[], rfl, fromCt_makes hc⟩
  | copy hl =>
    obtain ⟨x, h1, h2⟩ := one hl
    exact ⟨[x], h1, h2.clone⟩
  | bin hl hr =>
    obtain ⟨x, h1, h2, -⟩ := ref_some H hk hl
    obtain ⟨y, h3, h4, -⟩ := ref_some H hk hr
    exact ⟨[x, y], by simp [Rhs.args, State.refs, h1, h3], newBin_makes h2.clone h4.clone⟩
  | un hl =>
    obtain ⟨x, h1, h2⟩ := one hl
    exact ⟨[x], h1, newUn_makes h2.clone⟩
  | integ hl hu hx =>
    obtain ⟨l, h1, h2, -⟩ := ref_some H hk hl
    obtain ⟨u, h3, h4, -⟩ := ref_some H hk hu
    obtain ⟨x, h5, h6, -⟩ := ref_some H hk hx
    refine ⟨[l, u, x], by simp [Rhs.args, State.refs, h1, h3, h5], ?_⟩
    exact withBounds_makes h2.clone h4.clone fun E Ha Hb => newInteg_makes Ha Hb (h6.adds E).clone
  | vec hl =>
    obtain ⟨xs, h1, h2⟩ := refs_some H hk hl
    refine ⟨xs, h1, ?_⟩
    cases xs <;> exact viaTemp_makes (cloneAll_makes h2)
  | simplify hl hs =>
    obtain ⟨x, h1, h2⟩ := one hl
    exact ⟨[x], h1, (simplified_makes trivial h2.clone).conv hs⟩
  | diff hl hd =>
    obtain ⟨x, h1, h2⟩ := one hl
    refine ⟨[x], h1, (simplified_makes trivial (h2.diff ?_)).conv hd⟩
    rintro hg ⟨i, t, rfl⟩
    exact ⟨i, t, _, _, rfl, hl, hg⟩
  | diffThrow => cases hv
  | subst hs ht hx hz =>
    obtain ⟨l, h1, h2, -⟩ := ref_some H hk hs
    obtain ⟨u, h3, h4, -⟩ := ref_some H hk ht
    obtain ⟨x, h5, h6, -⟩ := ref_some H hk hx
    refine ⟨[l, u, x], by simp [Rhs.args, State.refs, h1, h3, h5], ?_⟩
    exact (simplified_makes trivial (RefIs.subst trivial h2 h4 h6)).conv hz
  | @substMany ss ts r xs ys e z hs ht hx hn hz =>
    obtain ⟨xs', h1, h2⟩ := refs_some H hk hs
    obtain ⟨ys', h3, h4⟩ := refs_some H hk ht
    obtain ⟨x, h5, h6, h7⟩ := ref_some H hk hx
    obtain ⟨a, rfl⟩ := h7 hn
    refine ⟨xs' ++ (ys' ++ [.node a]), ?_, ?_⟩
    · rw [Rhs.args, refs_append, h1, Res.bind_ok, refs_append, h3]
      simp [State.refs, h5]
    have n1 := refs_length h1
    have n2 := refs_length h3
    rw [substituteMany] at hz
    split at hz
    · next hl =>
      have hl' : ss.length = ts.length := by rw [← lookAll_length hs, ← lookAll_length ht, hl]
      rw [act_substMany n1 n2 hl']
      cases h6 with
      | node h6 => exact (simplified_makes trivial (substManyA_makes trivial h6 h2.reads h4.clones)).conv hz
    · cases hz
  | interval hl hu hx hn hz =>
    obtain ⟨l, h1, h2, -⟩ := ref_some H hk hl
    obtain ⟨u, h3, h4, -⟩ := ref_some H hk hu
    obtain ⟨x, h5, h6, h7⟩ := ref_some H hk hx
    obtain ⟨a, rfl⟩ := h7 hn
    refine ⟨[l, u, .node a], by simp [Rhs.args, State.refs, h1, h3, h5], ?_⟩
    refine withBounds_makes h2.clone h4.clone fun E Ha Hb => ?_
    cases h6 with
    | node h6 => exact (manipA_makes (h6.adds E) Ha Hb).conv hz

theorem create_ok {s : State K} {σ : Store K} (H : Inv fl s.heap s.ptr (own σ) fp G) (hk : Kinds s.objs σ)
    {rhs : Rhs K} (hr : RhsVal σ rhs (.ok e)) :
    (∃ a h' F L, create o rhs s = .ok a ⟨h', s.ptr, s.objs⟩ ∧ Own h'.cells a e F ∧ Adds s.heap h' (F ++ L) ∧
      (Leaky σ rhs ∨ L = [])) ∨
    ∃ h' L, create o rhs s = .throw .badAlloc ⟨h', s.ptr, s.objs⟩ ∧ Adds s.heap h' L ∧ s.heap.Scarce h' := by
  obtain ⟨xs, h1, h2⟩ := act_makes (o := o) H hk hr
  have h3 := h2 _ _ (.refl H.wf)
  revert h3
  rw [create, bind_ok (look_ok (f := fun s : State K => s.refs rhs.args) h1)]
  cases hm : rhs.act o xs s.heap with
  | throw y h' =>
    rintro (_ | @⟨_, _, L, g1, g2⟩)
    obtain ⟨rfl, g3⟩ := g1.resolve_left fun g1 => absurd rfl (g1 _)
    exact .inr ⟨h', L, heap_throw hm, g2, g3⟩
  | ub => rintro (_ | _ | ⟨g1, _⟩); exact absurd rfl (g1 _)
  | ok a h' =>
    rintro (⟨g1, g2, g3, g4⟩)
    cases g1
    exact .inl ⟨a, h', _, _, heap_ok hm, g2, g3, g4⟩

theorem create_throw {s : State K} {σ : Store K} (H : Inv fl s.heap s.ptr (own σ) fp G) (hk : Kinds s.objs σ)
    {rhs : Rhs K} {x : Exc} (hr : RhsVal σ rhs (.throw x)) :
    ∃ y h' L, create o rhs s = .throw y ⟨h', s.ptr, s.objs⟩ ∧ Adds s.heap h' L := by
  generalize hv : (Res.throw x : Res (Expr K)) = v at hr
  cases hr with
  | @diffThrow i r e z hl hd =>
    obtain ⟨x, h1, h2, -⟩ := ref_some H hk hl
    have h3 := h2.diff (o := o) (U := False) (Lk := True) (v := i) (fun _ _ => trivial) _ _ (.refl H.wf)
    revert h3
    rw [hd]
    cases hm : (x.diff o i : Act K Nat) s.heap with
    | ok _ _ => rintro (⟨g1, _⟩); cases g1
    | ub => rintro (_ | _ | ⟨_, g1⟩); exact absurd g1 id
    | throw y h' =>
      rintro (_ | ⟨g1, g2⟩)
      refine ⟨y, h', _, ?_, g2⟩
      rw [create, bind_ok (look_ok (f := fun s : State K => s.refs (Rhs.args (.diff i r))) (a := [x]) (by simp [Rhs.args, State.refs, h1]))]
      exact heap_throw (bind_throw hm)
  | _ => cases hv

/-! ### Statements -/

omit [Num K] in
theorem own_free {σ : Store K} {i : Nat} (hi : σ i = none) : own σ (.one i) = none ∧ own σ (.two i) = none := by
  simp [own, hi, own1, own2]

omit [Num K] in
theorem Kinds.same {objs : Nat → Option Kind} {σ : Store K} (H : Kinds objs σ) {i : Nat} {v : Obj K}
    (hi : objs i = some (kind v)) : Kinds objs (σ.set i (some v)) := by
  intro j
  by_cases hj : j = i
  · simp [Store.set, hj, hi]
  · simp [Store.set, hj, H j]

omit [Num K] in
theorem own_expr {σ : Store K} {i : Nat} {v : Option (Expr K)} (hi : own σ (.two i) = none) :
    own (σ.set i (some (.expr v))) = at' (own σ) (.one i) v := by
  rw [own_set, at_same (p := .two i)]
  · rfl
  · simp [hi, own2]

/-- The loop of `inplace_simplify` on an object. -/
theorem inplaceLoop_sim {i : Nat} : ∀ {n : Nat} {s : State K} {σ : Store K} {e e' : Expr K}, Rep fl s σ G →
    σ i = some (.expr (some e)) → simplifyLoop n e = some (.ok e') →
    (∃ s', inplaceLoop o i n s = .ok () s' ∧ Rep fl s' (σ.set i (some (.expr (some e')))) G) ∨
    ∃ s' L y, inplaceLoop o i n s = .throw .badAlloc s' ∧ Passes e y ∧ Fails fl s.heap.next s'.heap.next ∧
      Rep fl s' (σ.set i (some (.expr (some y)))) (L ++ G) := by
  intro n
  induction n with
  | zero => intro s σ e e' _ _ hs; cases hs
  | succ n ih =>
    intro s σ e e' H hi hs
    obtain ⟨⟨fp, H⟩, hk⟩ := H
    have hki := hk i
    rw [hi, Option.map_some, kind] at hki
    have h2n : own σ (.two i) = none := by simp [own, hi, own2]
    have hself : σ.set i (some (.expr (some e))) = σ := by
      funext j; by_cases hj : j = i <;> simp [Store.set, hj, hi]
    obtain ⟨a, p1, p2⟩ := H.owns (.one i) e (by simp [own, hi, own1])
    rw [inplaceLoop, look_bind (f := fun s : State K => s.ptr (.one i)), p1]
    simp only
    rw [simplifyLoop] at hs
    have hq := ask_eq (q := canSimplify) p2 (.refl H.wf)
    cases hc : canSimplify e with
    | throw x => rw [hc] at hs; cases hs
    | ub => rw [hc] at hs; cases hs
    | ok b =>
      rw [hc] at hs
      simp only [Run.look, hc] at hq
      rw [bind_ok (heap_ok hq)]
      cases b with
      | false =>
        cases hs
        exact .inl ⟨s, rfl, ⟨fp, by rw [hself]; exact H⟩, by rw [hself]; exact hk⟩
      | true =>
        simp only [if_true]
        simp only at hs
        have hm := simplifyA_makes (o := o) (U := True) (Lk := False) trivial p2 _ _ (.refl H.wf)
        revert hm
        cases hsi : simplify e with
        | throw x => rw [hsi] at hs; cases hs
        | ub => rw [hsi] at hs; cases hs
        | ok d =>
          rw [hsi] at hs
          simp only at hs
          cases hm : simplifyA o a s.heap with
          | throw z h' =>
            rintro (_ | @⟨_, _, L, g1, g2⟩)
            obtain ⟨rfl, g3⟩ := g1.resolve_left fun g1 => absurd rfl (g1 _)
            right
            refine ⟨⟨h', s.ptr, s.objs⟩, L, e, ?_, .refl, H.scarce g3, ?_⟩
            · rw [bind_throw (s' := ⟨h', s.ptr, s.objs⟩) (heap_throw (s := ⟨s.heap, s.ptr, s.objs⟩) hm)]
            · rw [hself]; exact ⟨⟨fp, H.leak g2⟩, hk⟩
          | ub => rintro (_ | _ | ⟨g1, _⟩); exact absurd rfl (g1 _)
          | ok a' h' =>
            rintro (@⟨_, _, _, F, L, g1, g2, g3, g4⟩)
            cases g1
            have hL : L = [] := g4.elim False.elim id
            subst hL
            rw [bind_ok (s' := ⟨h', s.ptr, s.objs⟩) (heap_ok (s := ⟨s.heap, s.ptr, s.objs⟩) hm),
              bind_ok (H.reset g3 (.one i) (some a'))]
            have h2 : ∀ y, (σ.set i (some (.expr (some d)))).set i (some (.expr (some y))) =
                σ.set i (some (.expr (some y))) := by
              intro y; funext j; by_cases hj : j = i <;> simp [Store.set, hj]
            rcases ih (s := ⟨h'.free (fp (.one i)), at' s.ptr (.one i) (some a'), s.objs⟩)
              (σ := σ.set i (some (.expr (some d)))) (e := d) (e' := e')
              ⟨⟨_, by rw [own_expr h2n]; exact H.put g3 g2 (.one i)⟩, hk.same hki⟩ (by simp [Store.set]) hs
              with ⟨s', i1, i2⟩ | ⟨s', L, y, i1, i2, i3, i4⟩
            · rw [h2] at i2
              exact .inl ⟨s', i1, i2⟩
            · rw [h2] at i4
              exact .inr ⟨s', L, y, i1, .pass hc hsi i2, i3.from g3.le, i4⟩

theorem TidyRhs.not_leaky {σ : Store K} {rhs : Rhs K} (H : TidyRhs σ rhs) : ¬ Leaky σ rhs := by
  rintro ⟨i, t, r, e, h1, h2, h3⟩
  rw [H.2 i t r e h1 h2] at h3
  cases h3

omit [Num K] in
/-- The parts of the source of an assignment, while its nodes are there. -/
theorem parts_node {s : State K} {op : BOp} {x y : Expr K} (H : Own s.heap.cells a (.bin op x y) F) :
    ∃ l r Fl Fr, s.binParts (.node a) = .ok (op, l, r) ∧ Own s.heap.cells l x Fl ∧ Own s.heap.cells r y Fr ∧
      (∀ b ∈ Fl, b ∈ F) ∧ ∀ b ∈ Fr, b ∈ F := by
  cases H with
  | node h1 h2 h3 =>
    simp only [operands] at h2
    cases h2 with
    | @cons l _ Fl _ _ F2 a1 a2 =>
      cases a2 with
      | @cons r _ Fr _ _ F3 a2 a3 =>
        cases a3
        exact ⟨l, r, Fl, Fr, by simp [State.binParts, h1, label], a1, a2, by simp +contextual, by simp +contextual⟩

omit [Num K] in
theorem heap_makes {s : State K} {m : Act K Nat} (hw : s.heap.WF) (H : Makes True False s.heap (.ok e) m) :
    (∃ a' h' F', heap m s = .ok a' ⟨h', s.ptr, s.objs⟩ ∧ Own h'.cells a' e F' ∧ Adds s.heap h' (F' ++ [])) ∨
    ∃ h' L, heap m s = .throw .badAlloc ⟨h', s.ptr, s.objs⟩ ∧ Adds s.heap h' L ∧ s.heap.Scarce h' := by
  have h3 := H _ _ (.refl hw)
  revert h3
  cases hm : m s.heap with
  | throw y h' =>
    rintro (_ | @⟨_, _, L, g1, g2⟩)
    obtain ⟨rfl, g3⟩ := g1.resolve_left fun g1 => absurd rfl (g1 _)
    exact .inr ⟨h', L, heap_throw hm, g2, g3⟩
  | ub => rintro (_ | _ | ⟨g1, _⟩); exact absurd rfl (g1 _)
  | ok a h' =>
    rintro (@⟨_, _, _, F, L, g1, g2, g3, g4⟩)
    cases g1
    have hL : L = [] := g4.elim False.elim id
    subst hL
    exact .inl ⟨a, h', F, heap_ok hm, g2, g3⟩

omit [Num K] in
theorem heap_clone {s : State K} (hw : s.heap.WF) (H : Own s.heap.cells a e F) :
    (∃ a' h' F', heap (VM.clone a) s = .ok a' ⟨h', s.ptr, s.objs⟩ ∧ Own h'.cells a' e F' ∧ Adds s.heap h' (F' ++ [])) ∨
    ∃ h' L, heap (VM.clone a) s = .throw .badAlloc ⟨h', s.ptr, s.objs⟩ ∧ Adds s.heap h' L ∧ s.heap.Scarce h' :=
  heap_makes hw (clone_makes H)

omit [Num K] in
theorem heap_request (s : State K) : heap request s = .ok () ⟨s.heap.skip, s.ptr, s.objs⟩ ∨
    heap request s = .throw .badAlloc ⟨s.heap.skip, s.ptr, s.objs⟩ ∧ s.heap.Scarce s.heap.skip := by
  rcases request_eq (h := s.heap) with h | ⟨h, hs⟩
  · exact .inl (heap_ok h)
  · exact .inr ⟨heap_throw h, hs⟩

theorem Spec.RhsVal.not_throw {σ : Store K} {rhs : Rhs K} {x : Exc} (h1 : RhsVal σ rhs (.ok e)) : ¬ RhsVal σ rhs (.throw x) := by
  intro h2
  generalize hv : (Res.throw x : Res (Expr K)) = v at h2
  cases h2 with
  | @diffThrow i r e' z hl hd =>
    generalize hw : (Res.ok e : Res (Expr K)) = w at h1
    cases h1 with
    | diff hl' hd' =>
      rw [hl] at hl'
      cases hl'
      rw [VM.diff, hd] at hd'
      cases hd'
    | diffThrow => cases hw
  | _ => cases hv

/-- The result of a statement on the heap, compared with its effect `τ` on independent values; `n` requests had been
made before. -/
inductive Sim (fl : Nat → Bool) (n : Nat) (σ τ : Store K) (c : Stmt K) (G : List Nat) : Out (State K) Unit → Prop
  | ok {s' L} : Rep fl s' τ (L ++ G) → (Tidy σ c → L = []) → ¬ Throwing σ c → Sim fl n σ τ c G (.ok () s')
  | threw {x s' L} : Rep fl s' τ (L ++ G) → Throwing σ c → Sim fl n σ τ c G (.throw x s')
  | noMemory {s' L υ} : Rep fl s' υ (L ++ G) → OutOf σ c υ → Fails fl n s'.heap.next →
       Sim fl n σ τ c G (.throw .badAlloc s')

theorem not_throwing {σ : Store K} {c : Stmt K} (h : ∀ i rhs, c ≠ .init i rhs ∧ c ≠ .assign i rhs) : ¬ Throwing σ c := by
  rintro ⟨i, rhs, x, h1 | h1, -⟩
  · exact (h i rhs).1 h1
  · exact (h i rhs).2 h1

theorem not_throwing_init {σ : Store K} {i : Nat} {rhs : Rhs K} (h : RhsVal σ rhs (.ok e)) : ¬ Throwing σ (.init i rhs) := by
  rintro ⟨i, rhs, x, h1 | h1, h2⟩ <;> cases h1
  exact h.not_throw h2

theorem not_throwing_assign {σ : Store K} {i : Nat} {rhs : Rhs K} (h : RhsVal σ rhs (.ok e)) :
    ¬ Throwing σ (.assign i rhs) := by
  rintro ⟨i, rhs, x, h1 | h1, h2⟩ <;> cases h1
  exact h.not_throw h2

theorem sim_assign {s : State K} {σ : Store K} (H : Inv fl s.heap s.ptr (own σ) fp G) (hk : Kinds s.objs σ) {i : Nat}
    {v : Option (Expr K)} {rhs : Rhs K} (hi : σ i = some (.expr v)) (hr : RhsVal σ rhs (.ok e)) :
    Sim fl s.heap.next σ (σ.set i (some (.expr (some e)))) (.assign i rhs) G (exec o (.assign i rhs) s) := by
  have hki := hk i
  rw [hi, Option.map_some, kind] at hki
  rcases create_ok (o := o) H hk hr with ⟨a, h', F, L, h1, h2, h3, h4⟩ | ⟨h', L, h1, h2, h3⟩
  rotate_left
  · have hx : exec o (.assign i rhs) s = .throw .badAlloc ⟨h', s.ptr, s.objs⟩ := by
      cases rhs <;> rw [exec.eq_def] <;> simp only <;> rw [look_bind (f := fun s : State K => s.objs i), hki] <;>
        exact bind_throw h1
    rw [hx]
    exact .noMemory ⟨⟨fp, H.leak h2⟩, hk⟩ .assign (H.scarce h3)
  have h2n : own σ (.two i) = none := by simp [own, hi, own2]
  have hkk : Kinds s.objs (σ.set i (some (.expr (some e)))) := hk.same hki
  have hL : Tidy σ (.assign i rhs) → L = [] := fun ht => h4.resolve_left (TidyRhs.not_leaky ht)
  have direct : Sim fl s.heap.next σ (σ.set i (some (.expr (some e)))) (.assign i rhs) G
      ((do let a ← create o rhs; reset (.one i) (some a) : Prog K Unit) s) := by
    rw [bind_ok h1, H.reset h3 (.one i) (some a)]
    refine .ok ⟨⟨at' fp (.one i) F, ?_⟩, hkk⟩ hL (not_throwing_assign hr)
    rw [own_expr h2n]
    exact H.put h3 h2 (.one i)
  have viaTmp : Sim fl s.heap.next σ (σ.set i (some (.expr (some e)))) (.assign i rhs) G ((do
        let a ← create o rhs
        reset .tmp (some a)
        let b ← unwinding .tmp (heap (clone a))
        reset (.one i) (some b)
        reset .tmp none : Prog K Unit) s) := by
    have H1 := H.put h3 h2 .tmp
    have ht : fp .tmp = [] := (H.unset .tmp rfl).2
    rw [ht, Heap.free_nil] at H1
    rw [bind_ok h1, bind_ok (H.reset h3 .tmp (some a)), ht, Heap.free_nil]
    rcases heap_clone (s := ⟨h', at' s.ptr .tmp (some a), s.objs⟩) (e := e) (F := F)
      (a := a) H1.wf h2 with ⟨b, h'', F', g1, g2, g3⟩ | ⟨h'', M, g1, g2, g3⟩
    · have H2 := H1.put g3 g2 (.one i)
      have H3 := H2.drop .tmp
      have hA : at' (at' (at' (own σ) .tmp (some e)) (.one i) (some e)) .tmp none =
          own (σ.set i (some (.expr (some e)))) := by
        rw [own_expr h2n]; funext q; cases q <;> simp [own]
      rw [hA] at H3
      rw [bind_ok (show unwinding .tmp (heap (clone a)) _ = .ok b ⟨h'', at' s.ptr .tmp (some a), s.objs⟩ by
          simp only [unwinding, g1]),
        bind_ok (H1.reset g3 (.one i) (some b)), H2.reset (.refl H2.wf) .tmp none]
      exact .ok ⟨⟨_, H3⟩, hkk⟩ hL (not_throwing_assign hr)
    · have H2 := H1.leak g2
      have H3 := H2.drop .tmp
      have hA : at' (at' (own σ) .tmp (some e)) .tmp none = own σ := by
        funext q; cases q <;> simp [own]
      rw [hA] at H3
      have hu := H2.reset (objs := s.objs) (.refl H2.wf) .tmp none
      have hw : unwinding .tmp (heap (clone a)) (⟨h', at' s.ptr .tmp (some a), s.objs⟩ : State K) = .throw .badAlloc
          ⟨h''.free (at' fp .tmp F .tmp), at' (at' s.ptr .tmp (some a)) .tmp none, s.objs⟩ := by
        simp only [unwinding, g1, hu]
      rw [bind_throw hw]
      rw [← List.append_assoc] at H3
      exact .noMemory ⟨⟨_, H3⟩, hk⟩ .assign ((H1.scarce g3).from h3.le)
  cases rhs <;> rw [exec.eq_def] <;> simp only <;> rw [look_bind (f := fun s : State K => s.objs i), hki]
  case leaf e => exact direct
  case conv => exact direct
  case copy r => exact direct
  all_goals exact viaTmp

theorem sim_initBin {s : State K} {σ : Store K} (H : Inv fl s.heap s.ptr (own σ) fp G) (hk : Kinds s.objs σ) {i : Nat}
    {op : BOp} {l r : Src} {x y : Expr K} (hi : σ i = none) (hl : Spec.look σ l = some x) (hr : Spec.look σ r = some y) :
    Sim fl s.heap.next σ (σ.set i (some (.bin (some op) (some x) (some y)))) (.initBin i op l r) G (exec o (.initBin i op l r) s) := by
  obtain ⟨f1, f2⟩ := own_free hi
  obtain ⟨u, u1, u2, -⟩ := ref_some H hk hl
  obtain ⟨w, w1, w2, -⟩ := ref_some H hk hr
  rw [exec, look_bind (f := fun s : State K => s.objs i), hk i, hi]
  simp only [Option.map_none]
  rw [bind_ok (look_ok (f := fun s : State K => s.ref l) u1), bind_ok (look_ok (f := fun s : State K => s.ref r) w1)]
  rcases heap_makes (s := s) H.wf u2.clone with ⟨a, h1, F, a1, a2, a3⟩ | ⟨h1, L, a1, a2, a3⟩
  rotate_left
  · rw [bind_throw a1]
    exact .noMemory ⟨⟨fp, H.leak a2⟩, hk⟩ .initBin (H.scarce a3)
  rw [bind_ok a1]
  rcases heap_makes (s := ⟨h1, s.ptr, s.objs⟩) a3.wf' (w2.adds a3).clone with
    ⟨b, h2, F', b1, b2, b3⟩ | ⟨h2, L, b1, b2, b3⟩
  rotate_left
  · rw [bind_throw b1]
    exact .noMemory ⟨⟨fp, H.leak (a3.trans b2)⟩, hk⟩ .initBin (H.scarce (a3.scarce b3))
  have n1 := (H.unset _ f1).2
  have n2 := (H.unset _ f2).2
  have E := a3.trans b3
  have H1 := H.put (L := []) (a3) a2 (.one i)
  rw [n1, Heap.free_nil] at H1
  have H2 := H1.put b3 b2 (.two i)
  have r1 := H.reset (objs := fun j => if j = i then some (.bin (some op)) else s.objs j) E (.one i) (some a)
  rw [n1, Heap.free_nil] at r1
  have r2 := H1.reset (objs := fun j => if j = i then some (.bin (some op)) else s.objs j) b3 (.two i) (some b)
  rw [bind_ok b1, bind_ok (setObj_eq _ _ _), bind_ok r1, r2]
  exact .ok (L := []) ⟨⟨_, by rw [own_set]; exact H2⟩, hk.set i (some (.bin (some op) (some x) (some y)))⟩ (fun _ => rfl)
    (not_throwing (by simp))

omit [Num K] in
/-- The left operand, or the right operand, of an `rt_binary_expr` is replaced. -/
theorem own_left {σ : Store K} {i : Nat} {p q : Option BOp} {l u v : Option (Expr K)} (hi : σ i = some (.bin p l u)) :
    own (σ.set i (some (.bin q v u))) = at' (own σ) (.one i) v := by
  rw [own_set, at_same (p := .two i)]
  · rfl
  · simp [own, hi, own2]

omit [Num K] in
theorem own_right {σ : Store K} {i : Nat} {p q : Option BOp} {u v w : Option (Expr K)} :
    own (σ.set i (some (.bin q v w))) = at' (own (σ.set i (some (.bin p v u)))) (.two i) w := by
  rw [own_set, own_set, at_at]
  rfl

omit [Num K] in
/-- The parts of the source of an assignment, also after the left operand of the target has been replaced. -/
theorem assignBin_parts {s : State K} {σ : Store K} (H : Inv fl s.heap s.ptr (own σ) fp G) (hk : Kinds s.objs σ) {i : Nat}
    {p : Option BOp} {l u : Option (Expr K)} {r : Src} {op : BOp} {x y : Expr K} (hi : σ i = some (.bin p l u))
    (hl : Spec.look σ r = some (.bin op x y)) (hn : ∀ ks, r ≠ ⟨i, 0 :: ks⟩) :
    ∃ (t : Target) (b0 : BOp) (l0 r0 : Nat) (Fl Fr : List Nat), s.target r = .ok t ∧ s.binParts t = .ok (b0, l0, r0) ∧
      Own s.heap.cells l0 x Fl ∧ Own s.heap.cells r0 y Fr ∧ (∀ b ∈ Fr, b ∉ fp (.one i)) ∧
      ∀ a' h' F, Own h'.cells a' x F → Adds s.heap h' (F ++ []) →
        let s1 : State K := ⟨h'.free (fp (.one i)), at' s.ptr (.one i) (some a'), s.objs⟩
        let s2 : State K := ⟨s1.heap.skip, s1.ptr, fun j => if j = i then some (.bin (some op)) else s.objs j⟩
        ∃ b1 b2 l1 l2, s1.binParts t = .ok (op, b1, l1) ∧ s2.binParts t = .ok (b2, l2, r0) := by
  rcases target_some H hk hl with ⟨a, p, F, ht, hb, hF, hpp⟩ | ⟨op', x', y', ht, hj, he, hpath⟩ | ⟨op', x', ht, hj, he, hpath⟩
  · -- the source survives the assignment to the left operand
    have hne : p ≠ .one i := by
      rintro rfl
      rcases hpp with ⟨hp1, hp2⟩ | ⟨hp1, -⟩
      · simp only [Ptr.one.injEq] at hp1
        rcases hp2 with ⟨o, ho⟩ | ⟨ks, hks⟩
        · rw [← hp1, hi] at ho; cases ho
        · apply hn ks; cases r; simp_all
      · cases hp1
    have hdis : ∀ b ∈ F, b ∉ fp (.one i) := fun b hb => H.disj p (.one i) hne b (hF b hb)
    obtain ⟨l0, r0, Fl, Fr, q1, q2, q3, q4, q5⟩ := parts_node hb
    refine ⟨_, _, _, _, _, _, ht, q1, q2, q3, (fun b hb => hdis b (q5 b hb)), ?_⟩
    intro a' h' F' a2 a3 s1 s2
    have hb1 : Own s1.heap.cells a (.bin op x y) F := (hb.adds a3).free hdis
    have hc : s1.heap.cells a = s.heap.cells a := by
      show (h'.free _).cells a = _
      rw [Heap.free_out (hdis a hb.root_mem), a3.keep (hb.alloc _ a hb.root_mem)]
    have hc2 : s2.heap.cells a = s.heap.cells a := hc
    have e1 : s1.binParts (.node a) = s.binParts (.node a) := by simp only [State.binParts, hc]
    have e2 : s2.binParts (.node a) = s.binParts (.node a) := by simp only [State.binParts, hc2]
    exact ⟨_, _, _, _, by rw [e1, q1], by rw [e2, q1]⟩
  · cases he
    obtain ⟨l0, r0, o1, o2, o3, o4, o5⟩ := H.bin hk hj
    refine ⟨_, op, l0, r0, _, _, ht, (by simp only [State.binParts, o1, o2, o3]), o4, o5,
      (fun b hb => H.disj _ _ (by simp) b hb), ?_⟩
    intro a' h' F' a2 a3 s1 s2
    obtain ⟨l1, q2⟩ : ∃ a, s1.ptr (.one r.obj) = some a := by
      by_cases hj' : r.obj = i <;> simp [s1, hj', o2]
    have q3 : s1.ptr (.two r.obj) = some r0 := by simp [s1, o3]
    have q4 : s1.objs r.obj = some (.bin (some op)) := o1
    refine ⟨l1, op, r0, l1, by simp only [State.binParts, q2, q3, q4], ?_⟩
    have q5 : s2.objs r.obj = some (.bin (some op)) := by
      by_cases hj' : r.obj = i
      · simp [s2, hj']
      · simp [s2, hj', o1]
    have q6 : s2.ptr (.one r.obj) = some l1 := q2
    have q7 : s2.ptr (.two r.obj) = some r0 := q3
    simp only [State.binParts, q5, q6, q7]
  · cases he

theorem sim_assignBin {s : State K} {σ : Store K} (H : Inv fl s.heap s.ptr (own σ) fp G) (hk : Kinds s.objs σ) {i : Nat}
    {p : Option BOp} {l u : Option (Expr K)} {r : Src} {op : BOp} {x y : Expr K} (hi : σ i = some (.bin p l u))
    (hl : Spec.look σ r = some (.bin op x y)) (hn : ∀ ks, r ≠ ⟨i, 0 :: ks⟩) :
    Sim fl s.heap.next σ (σ.set i (some (.bin (some op) (some x) (some y)))) (.assignBin i r) G (exec o (.assignBin i r) s) := by
  have hki := hk i
  rw [hi, Option.map_some, kind] at hki
  obtain ⟨t, b0, l0, r0, Fl, Fr, ht, hp, hx, hy, hd, hq⟩ := assignBin_parts H hk hi hl hn
  rw [exec, look_bind (f := fun s : State K => s.objs i), hki]
  simp only
  rw [bind_ok (look_ok (f := fun s : State K => s.target r) ht),
    bind_ok (look_ok (f := fun s : State K => s.binParts t) hp)]
  rcases heap_clone (s := s) H.wf hx with ⟨a', h', F, a1, a2, a3⟩ | ⟨h', L, a1, a2, a3⟩
  rotate_left
  · rw [bind_throw a1]
    exact .noMemory ⟨⟨fp, H.leak a2⟩, hk⟩ .assignBin (H.scarce a3)
  obtain ⟨b1, b2, l1, l2, q1, q2⟩ := hq a' h' F a2 a3
  have H1 := H.put a3 a2 (.one i)
  have hy1 : Own (h'.free (fp (.one i))).cells r0 y Fr := (hy.adds a3).free hd
  rw [bind_ok a1, bind_ok (H.reset a3 (.one i) (some a')),
    bind_ok (look_ok (f := fun s : State K => s.binParts t) q1)]
  have H1' := H1.leak (Heap.skip_adds H1.wf)
  rw [List.nil_append] at H1'
  rcases heap_request (⟨h'.free (fp (.one i)), at' s.ptr (.one i) (some a'), s.objs⟩ : State K) with e1 | ⟨e1, e2⟩
  rotate_left
  · rw [bind_throw e1]
    refine .noMemory (L := []) (υ := σ.set i (some (.bin p (some x) u))) ⟨⟨at' fp (.one i) F, ?_⟩, hk.same hki⟩ (.assignLeft hi hl)
      ((H1.scarce e2).from a3.le)
    rw [own_left hi]
    exact H1'
  rw [bind_ok e1, bind_ok (setObj_eq _ _ _), bind_ok (look_ok (f := fun s : State K => s.binParts t) q2)]
  rcases heap_clone (s := ⟨(h'.free (fp (.one i))).skip, at' s.ptr (.one i) (some a'),
      fun j => if j = i then some (.bin (some op)) else s.objs j⟩) H1'.wf
      (hy1.adds (Heap.skip_adds H1.wf)) with ⟨b', h'', F', c1, c2, c3⟩ | ⟨h'', L, c1, c2, c3⟩
  · have H2 := H1'.put c3 c2 (.two i)
    rw [bind_ok c1, H1'.reset c3 (.two i) (some b')]
    exact .ok (L := []) ⟨⟨_, by rw [own_set]; exact H2⟩, hk.set i (some (.bin (some op) (some x) (some y)))⟩
      (fun _ => rfl) (not_throwing (by simp))
  · rw [bind_throw c1]
    refine .noMemory (L := L) (υ := σ.set i (some (.bin (some op) (some x) u)))
      ⟨⟨at' fp (.one i) F, ?_⟩, hk.set i (some (.bin (some op) (some x) u))⟩ (.assignOp hi hl) ((H1'.scarce c3).from (Nat.le_trans a3.le (Nat.le_succ _)))
    rw [own_left hi]
    exact H1'.leak c2

theorem sim_assignNum {s : State K} {σ : Store K} (H : Inv fl s.heap s.ptr (own σ) fp G) (hk : Kinds s.objs σ) {i : Nat}
    {p : Option BOp} {l u : Option (Expr K)} {c : K} (hi : σ i = some (.bin p l u)) :
    Sim fl s.heap.next σ (σ.set i (some (.bin (some .uid) (some (.const c)) (some (.const c))))) (.assignNum i c) G
      (exec o (.assignNum i c) s) := by
  have hki := hk i
  rw [hi, Option.map_some, kind] at hki
  rw [exec, look_bind (f := fun s : State K => s.objs i), hki]
  simp only
  rcases heap_makes (s := s) H.wf (newConst_makes c) with ⟨a, h1, F, a1, a2, a3⟩ | ⟨h1, L, a1, a2, a3⟩
  rotate_left
  · rw [bind_throw a1]
    exact .noMemory ⟨⟨fp, H.leak a2⟩, hk⟩ .assignNum (H.scarce a3)
  have H1 := H.put a3 a2 (.one i)
  rw [bind_ok a1, bind_ok (H.reset a3 (.one i) (some a))]
  have H1' := H1.leak (Heap.skip_adds H1.wf)
  rw [List.nil_append] at H1'
  rcases heap_request (⟨h1.free (fp (.one i)), at' s.ptr (.one i) (some a), s.objs⟩ : State K) with e1 | ⟨e1, e2⟩
  rotate_left
  · rw [bind_throw e1]
    refine .noMemory (L := []) (υ := σ.set i (some (.bin p (some (.const c)) u))) ⟨⟨at' fp (.one i) F, ?_⟩, hk.same hki⟩ (.numLeft hi)
      ((H1.scarce e2).from a3.le)
    rw [own_left hi]
    exact H1'
  rw [bind_ok e1, bind_ok (setObj_eq _ _ _)]
  rcases heap_makes (s := ⟨(h1.free (fp (.one i))).skip, at' s.ptr (.one i) (some a),
      fun j => if j = i then some (.bin (some .uid)) else s.objs j⟩) H1'.wf (newConst_makes c) with
    ⟨b', h2, F', b1, b2, b3⟩ | ⟨h2, L, b1, b2, b3⟩
  · have H2 := H1'.put b3 b2 (.two i)
    rw [bind_ok b1, H1'.reset b3 (.two i) (some b')]
    exact .ok (L := []) ⟨⟨_, by rw [own_set]; exact H2⟩, hk.set i (some (.bin (some .uid) (some (.const c)) (some (.const c))))⟩
      (fun _ => rfl) (not_throwing (by simp))
  · rw [bind_throw b1]
    refine .noMemory (L := L) (υ := σ.set i (some (.bin (some .uid) (some (.const c)) u)))
      ⟨⟨at' fp (.one i) F, ?_⟩, hk.set i (some (.bin (some .uid) (some (.const c)) u))⟩ (.numOp hi) ((H1'.scarce b3).from (Nat.le_trans a3.le (Nat.le_succ _)))
    rw [own_left hi]
    exact H1'.leak b2

omit [Num K] in
theorem own_un {σ : Store K} {i : Nat} {p : Option UOp} {v : Option (Expr K)} (hi : own σ (.two i) = none) :
    own (σ.set i (some (.un p v))) = at' (own σ) (.one i) v := by
  rw [own_set, at_same (p := .two i)]
  · rfl
  · simp [hi, own2]

omit [Num K] in
/-- The new operand of a new `rt_unary_expr` object. -/
theorem newUn_rep {s : State K} {σ : Store K} (H : Inv fl s.heap s.ptr (own σ) fp G) (hk : Kinds s.objs σ) {i : Nat}
    {op : UOp} {x : Expr K} (hi : σ i = none) {a : Nat} {h' : Heap K} {F : List Nat} (h2 : Own h'.cells a x F)
    (h3 : Adds s.heap h' (F ++ [])) : ∃ s', (do setObj i (some (.un (some op))); reset (.one i) (some a) : Prog K Unit)
      ⟨h', s.ptr, s.objs⟩ = .ok () s' ∧ Rep fl s' (σ.set i (some (.un (some op) (some x)))) ([] ++ G) := by
  refine ⟨_, by rw [bind_ok (setObj_eq _ _ _), H.reset h3 (.one i) (some a)], ⟨at' fp (.one i) F, ?_⟩,
    hk.set i (some (.un (some op) (some x)))⟩
  rw [own_un (own_free hi).2]
  exact H.put h3 h2 (.one i)

theorem sim_initUn {s : State K} {σ : Store K} (H : Inv fl s.heap s.ptr (own σ) fp G) (hk : Kinds s.objs σ) {i : Nat}
    {op : UOp} {r : Src} {x : Expr K} (hi : σ i = none) (hl : Spec.look σ r = some x) :
    Sim fl s.heap.next σ (σ.set i (some (.un (some op) (some x)))) (.initUn i op r) G (exec o (.initUn i op r) s) := by
  obtain ⟨u, u1, u2, -⟩ := ref_some H hk hl
  rw [exec, look_bind (f := fun s : State K => s.objs i), hk i, hi]
  simp only [Option.map_none]
  rw [bind_ok (look_ok (f := fun s : State K => s.ref r) u1)]
  rcases heap_makes (s := s) H.wf u2.clone with ⟨a, h1, F, a1, a2, a3⟩ | ⟨h1, L, a1, a2, a3⟩
  rotate_left
  · rw [bind_throw a1]
    exact .noMemory ⟨⟨fp, H.leak a2⟩, hk⟩ .initUn (H.scarce a3)
  rw [bind_ok a1]
  have E := Heap.skip_adds a3.wf'
  have E' := (a3.trans E).perm (B := F ++ []) (by simp)
  rcases heap_request (⟨h1, s.ptr, s.objs⟩ : State K) with e1 | ⟨e1, e2⟩
  · obtain ⟨s', q1, q2⟩ := newUn_rep (op := op) H hk hi (a2.adds E) E'
    rw [bind_ok e1, q1]
    exact .ok (L := []) q2 (fun _ => rfl) (not_throwing (by simp))
  · rw [bind_throw e1]
    exact .noMemory ⟨⟨fp, H.leak E'⟩, hk⟩ .initUn (H.scarce (a3.scarce e2))

omit [Num K] in
/-- The request for the operator while the operand is owned. -/
theorem heap_owning {s : State K} {h1 : Heap K} {a : Nat} {x : Expr K} {F : List Nat} {p : Ptr → Option Nat}
    {ob : Nat → Option Kind} (a2 : Own h1.cells a x F) (a3 : Adds s.heap h1 (F ++ [])) :
    (∃ h2, heap (owning [a] request) ⟨h1, p, ob⟩ = .ok () ⟨h2, p, ob⟩ ∧ Own h2.cells a x F ∧
      Adds s.heap h2 (F ++ [])) ∨
    ∃ h2, heap (owning [a] request) ⟨h1, p, ob⟩ = .throw .badAlloc ⟨h2, p, ob⟩ ∧ Adds s.heap h2 [] ∧
      s.heap.Scarce h2 := by
  have E := Heap.skip_adds a3.wf'
  have E' := (a3.trans E).perm (B := F ++ []) (by simp)
  rcases request_eq (h := h1) with e1 | ⟨e1, e2⟩
  · exact .inl ⟨h1.skip, heap_ok (by simp only [owning, e1]), a2.adds E, E'⟩
  · obtain ⟨u, hu⟩ := each_delete_own (a2.adds E).one (List.nodup_append.1 E'.nodup).1
    exact .inr ⟨h1.skip.free F, heap_throw (by simp only [owning, e1, hu]), E'.free, a3.scarce e2⟩

theorem sim_wrapUn {s : State K} {σ : Store K} (H : Inv fl s.heap s.ptr (own σ) fp G) (hk : Kinds s.objs σ) {i : Nat}
    {r : Src} {x : Expr K} (hi : σ i = none) (hl : Spec.look σ r = some x) :
    Sim fl s.heap.next σ (σ.set i (some (.un (some (.fn .id)) (some x)))) (.wrapUn i r) G (exec o (.wrapUn i r) s) := by
  obtain ⟨u, u1, u2, -⟩ := ref_some H hk hl
  rw [exec, look_bind (f := fun s : State K => s.objs i), hk i, hi]
  simp only [Option.map_none]
  rw [bind_ok (look_ok (f := fun s : State K => s.ref r) u1)]
  rcases heap_makes (s := s) H.wf u2.clone with ⟨a, h1, F, a1, a2, a3⟩ | ⟨h1, L, a1, a2, a3⟩
  rotate_left
  · rw [bind_throw a1]
    exact .noMemory ⟨⟨fp, H.leak a2⟩, hk⟩ .wrapUn (H.scarce a3)
  rw [bind_ok a1]
  rcases heap_owning (p := s.ptr) (ob := s.objs) a2 a3 with ⟨h2, e1, e2, e3⟩ | ⟨h2, e1, e2, e3⟩
  · obtain ⟨s', q1, q2⟩ := newUn_rep (op := .fn .id) H hk hi e2 e3
    rw [bind_ok e1, q1]
    exact .ok (L := []) q2 (fun _ => rfl) (not_throwing (by simp))
  · rw [bind_throw e1]
    exact .noMemory ⟨⟨fp, H.leak e2⟩, hk⟩ .wrapUn (H.scarce e3)

omit [Num K] in
/-- The parts of the source of a copy. -/
theorem copyUn_parts {s : State K} {σ : Store K} (H : Inv fl s.heap s.ptr (own σ) fp G) (hk : Kinds s.objs σ)
    {r : Src} {op : UOp} {x : Expr K} (hl : Spec.look σ r = some (.un op x)) :
    ∃ (t : Target) (k : Nat) (F : List Nat), s.target r = .ok t ∧ s.unParts t = .ok (op, k) ∧
      Own s.heap.cells k x F := by
  rcases target_some H hk hl with ⟨a, p, F, ht, hb, -⟩ | ⟨op', x', y', ht, hj, he, hpath⟩ | ⟨op', x', ht, hj, he, -⟩
  · cases hb with
    | node h1 h2 h3 =>
      simp only [operands] at h2
      cases h2 with
      | @cons l _ Fl _ _ F2 a1 a2 =>
        cases a2
        exact ⟨_, l, Fl, ht, by simp [State.unParts, h1, label], a1⟩
  · cases he
  · cases he
    obtain ⟨k, o1, o2, o3⟩ := H.un hk hj
    exact ⟨_, k, _, ht, by simp only [State.unParts, o1, o2], o3⟩

theorem sim_copyUn {s : State K} {σ : Store K} (H : Inv fl s.heap s.ptr (own σ) fp G) (hk : Kinds s.objs σ) {i : Nat}
    {r : Src} {op : UOp} {x : Expr K} (hi : σ i = none) (hl : Spec.look σ r = some (.un op x)) :
    Sim fl s.heap.next σ (σ.set i (some (.un (some op) (some x)))) (.copyUn i r) G (exec o (.copyUn i r) s) := by
  obtain ⟨t, k, Fk, t1, t2, t3⟩ := copyUn_parts H hk hl
  rw [exec, look_bind (f := fun s : State K => s.objs i), hk i, hi]
  simp only [Option.map_none]
  rw [bind_ok (look_ok (f := fun s : State K => s.target r) t1),
    bind_ok (look_ok (f := fun s : State K => s.unParts t) t2)]
  rcases heap_clone (s := s) H.wf t3 with ⟨a, h1, F, a1, a2, a3⟩ | ⟨h1, L, a1, a2, a3⟩
  rotate_left
  · rw [bind_throw a1]
    exact .noMemory ⟨⟨fp, H.leak a2⟩, hk⟩ .copyUn (H.scarce a3)
  rw [bind_ok a1]
  rcases heap_owning (p := s.ptr) (ob := s.objs) a2 a3 with ⟨h2, e1, e2, e3⟩ | ⟨h2, e1, e2, e3⟩
  · obtain ⟨s', q1, q2⟩ := newUn_rep (op := op) H hk hi e2 e3
    rw [bind_ok e1, q1]
    exact .ok (L := []) q2 (fun _ => rfl) (not_throwing (by simp))
  · rw [bind_throw e1]
    exact .noMemory ⟨⟨fp, H.leak e2⟩, hk⟩ .copyUn (H.scarce e3)

theorem sim_numUn {s : State K} {σ : Store K} (H : Inv fl s.heap s.ptr (own σ) fp G) (hk : Kinds s.objs σ) {i : Nat}
    {p : Option UOp} {e : Option (Expr K)} {c : K} (hi : σ i = some (.un p e)) :
    Sim fl s.heap.next σ (σ.set i (some (.un (some (.fn .id)) (some (.const c))))) (.numUn i c) G
      (exec o (.numUn i c) s) := by
  have hki := hk i
  rw [hi, Option.map_some, kind] at hki
  have h2n : own σ (.two i) = none := by simp [own, hi, own2]
  rw [exec, look_bind (f := fun s : State K => s.objs i), hki]
  simp only
  rcases heap_makes (s := s) H.wf (newConst_makes c) with ⟨a, h1, F, a1, a2, a3⟩ | ⟨h1, L, a1, a2, a3⟩
  rotate_left
  · rw [bind_throw a1]
    exact .noMemory ⟨⟨fp, H.leak a2⟩, hk⟩ .numUn (H.scarce a3)
  have H1 := H.put a3 a2 (.one i)
  rw [bind_ok a1, bind_ok (H.reset a3 (.one i) (some a))]
  have H1' := H1.leak (Heap.skip_adds H1.wf)
  rw [List.nil_append] at H1'
  rcases heap_request (⟨h1.free (fp (.one i)), at' s.ptr (.one i) (some a), s.objs⟩ : State K) with e1 | ⟨e1, e2⟩
  · rw [bind_ok e1, setObj_eq]
    exact .ok (L := []) ⟨⟨_, by rw [own_un h2n]; exact H1'⟩, hk.set i (some (.un (some (.fn .id)) (some (.const c))))⟩
      (fun _ => rfl) (not_throwing (by simp))
  · rw [bind_throw e1]
    refine .noMemory (L := []) (υ := σ.set i (some (.un p (some (.const c))))) ⟨⟨at' fp (.one i) F, ?_⟩, hk.same hki⟩
      (.numArg hi) ((H1.scarce e2).from a3.le)
    rw [own_un h2n]
    exact H1'

/-- Every statement does what it does on independent values, unless the memory runs out. -/
theorem exec_sim {s : State K} {σ τ : Store K} {c : Stmt K} (H : Rep fl s σ G) (hx : Exec σ c τ) :
    Sim fl s.heap.next σ τ c G (exec o c s) := by
  obtain ⟨⟨fp, H⟩, hk⟩ := H
  cases hx with
  | @decl i hi =>
    rw [exec, look_bind (f := fun s : State K => s.objs i), hk i, hi]
    refine .ok (L := []) ⟨⟨fp, ?_⟩, hk.set i (some (.expr none))⟩ (fun _ => rfl) (not_throwing (by simp))
    rw [own_set, at_same, at_same] <;> simp [own_free hi, own1, own2, H]
  | @init i rhs e hi hr =>
    rw [exec, look_bind (f := fun s : State K => s.objs i), hk i, hi]
    simp only [Option.map_none]
    rw [look_bind (f := fun s : State K => s.isNull rhs), isNull_false H hk hr]
    simp only [Bool.false_eq_true, if_false]
    rcases create_ok (o := o) H hk hr with ⟨a, h', F, L, h1, h2, h3, h4⟩ | ⟨h', L, h1, h2, h3⟩
    · rw [bind_ok h1, bind_ok (setObj_eq _ _ _), H.reset h3 (.one i) (some a)]
      refine .ok ⟨⟨at' fp (.one i) F, ?_⟩, hk.set i (some (.expr (some e)))⟩
        (fun ht => h4.resolve_left (TidyRhs.not_leaky ht)) (not_throwing_init hr)
      rw [own_expr (own_free hi).2]
      exact H.put h3 h2 (.one i)
    · rw [bind_throw h1]
      exact .noMemory ⟨⟨fp, H.leak h2⟩, hk⟩ .init (H.scarce h3)
  | @initUnset i r hi hu =>
    rw [exec, look_bind (f := fun s : State K => s.objs i), hk i, hi]
    simp only [Option.map_none]
    rw [look_bind (f := fun s : State K => s.isNull (.copy r)), isNull_true H hk hu]
    refine .ok (L := []) ⟨⟨fp, ?_⟩, hk.set i (some (.expr none))⟩ (fun _ => rfl) ?_
    · rw [own_set, at_same, at_same] <;> simp [own_free hi, own1, own2, H]
    · rintro ⟨j, rhs, x, h1 | h1, h2⟩ <;> cases h1
      cases h2
  | @initThrow i rhs x hi hr =>
    obtain ⟨y, h', L, h1, h2⟩ := create_throw (o := o) H hk hr
    rw [exec, look_bind (f := fun s : State K => s.objs i), hk i, hi]
    simp only [Option.map_none]
    rw [look_bind (f := fun s : State K => s.isNull rhs), isNull_false H hk hr]
    simp only [Bool.false_eq_true, if_false]
    rw [bind_throw h1]
    exact .threw ⟨⟨fp, H.leak h2⟩, hk⟩ ⟨i, rhs, x, .inl rfl, hr⟩
  | @assign i v rhs e hi hr => exact sim_assign H hk hi hr
  | @assignThrow i v rhs x hi hr =>
    have hki := hk i
    rw [hi, Option.map_some, kind] at hki
    obtain ⟨y, h', L, h1, h2⟩ := create_throw (o := o) H hk hr
    have hx : exec o (.assign i rhs) s = .throw y ⟨h', s.ptr, s.objs⟩ := by
      cases rhs <;> rw [exec.eq_def] <;> simp only <;> rw [look_bind (f := fun s : State K => s.objs i), hki] <;>
        exact bind_throw h1
    rw [hx]
    exact .threw ⟨⟨fp, H.leak h2⟩, hk⟩ ⟨i, rhs, x, .inr rfl, hr⟩
  | @inplace i x y hi hs =>
    have hki := hk i
    rw [hi, Option.map_some, kind] at hki
    obtain ⟨a, p1, p2⟩ := H.owns (.one i) x (by simp [own, hi, own1])
    have hs' : simplifyLoop (weight x + 1) x = some (.ok y) := by
      rw [simplified] at hs
      split at hs
      · rename_i h; rw [h, hs]
      · cases hs
    rw [exec, look_bind (f := fun s : State K => (s.objs i, s.ptr (.one i))), hki, p1]
    simp only
    rw [bind_ok (a := weight x) (s' := s) (heap_ok (s := s) (by rw [ask_eq p2 (.refl H.wf)]; rfl))]
    rcases inplaceLoop_sim (o := o) (s := s) ⟨⟨fp, H⟩, hk⟩ hi hs' with ⟨s', h1, h2⟩ | ⟨s', L, z, h1, h2, h3, h4⟩
    · rw [h1]
      exact .ok (L := []) h2 (fun _ => rfl) (not_throwing (by simp))
    · rw [h1]
      exact .noMemory h4 (.inplace hi h2) h3
  | @declBin i hi =>
    rw [exec, look_bind (f := fun s : State K => s.objs i), hk i, hi]
    refine .ok (L := []) ⟨⟨fp, ?_⟩, hk.set i (some (.bin none none none))⟩ (fun _ => rfl) (not_throwing (by simp))
    rw [own_set, at_same, at_same] <;> simp [own_free hi, own1, own2, H]
  | @initBin i op l r x y hi hl hr => exact sim_initBin H hk hi hl hr
  | @assignBin i p l u r op x y hi hl hn => exact sim_assignBin H hk hi hl hn
  | @assignNum i p l u c hi => exact sim_assignNum H hk hi
  | @declUn i hi =>
    rw [exec, look_bind (f := fun s : State K => s.objs i), hk i, hi]
    refine .ok (L := []) ⟨⟨fp, ?_⟩, hk.set i (some (.un none none))⟩ (fun _ => rfl) (not_throwing (by simp))
    rw [own_set, at_same, at_same] <;> simp [own_free hi, own1, own2, H]
  | @initUn i op r x hi hl => exact sim_initUn H hk hi hl
  | @wrapUn i r x hi hl => exact sim_wrapUn H hk hi hl
  | @copyUn i r op x hi hl => exact sim_copyUn H hk hi hl
  | @numUn i p e c hi => exact sim_numUn H hk hi
  | @destroy i v hi =>
    have hki := hk i
    rw [hi, Option.map_some] at hki
    have H1 := H.drop (.two i)
    have H2 := H1.drop (.one i)
    have hA : at' (at' (own σ) (.two i) none) (.one i) none = own (σ.set i none) := by
      rw [own_set, at_comm (by simp)]; rfl
    rw [hA] at H2
    rw [exec, look_bind (f := fun s : State K => s.objs i), hki]
    simp only
    rw [bind_ok (H.reset (.refl H.wf) (.two i) none), bind_ok (H1.reset (.refl H1.wf) (.one i) none)]
    exact .ok (L := []) ⟨⟨_, H2⟩, hk.set i none⟩ (fun _ => rfl) (not_throwing (by simp))

/-- With enough memory. -/
theorem exec_enough {s : State K} {σ τ : Store K} {c : Stmt K} (hf : ∀ a, fl a = false) (H : Rep fl s σ G)
    (hx : Exec σ c τ) (ht : ¬ Throwing σ c) : ∃ s', exec o c s = .ok () s' ∧ ∃ L, Rep fl s' τ (L ++ G) := by
  have hs := exec_sim (o := o) H hx
  revert hs
  generalize hr : exec o c s = r
  rintro (@⟨s', L, h2, h3, h4⟩ | @⟨x, s', L, h2, h3⟩ | ⟨_, _, ⟨a, -, -, ha⟩⟩)
  · exact ⟨s', rfl, L, h2⟩
  · exact absurd h3 ht
  · rw [hf a] at ha; cases ha

theorem run_sim {P : Store K → Stmt K → Prop} {s : State K} {σ τ : Store K} {cs : List (Stmt K)}
    (hf : ∀ a, fl a = false) (H : Rep fl s σ G) (hx : ExecAll P σ cs τ) :
    ∃ s' L, run o s cs = .ok s' ∧ Rep fl s' τ (L ++ G) ∧ ((∀ σ c, P σ c → Tidy σ c) → L = []) := by
  induction hx generalizing s G with
  | nil => exact ⟨s, [], rfl, H, fun _ => rfl⟩
  | cons h hp _ ih =>
    have hs := exec_sim (o := o) H h
    revert hs
    generalize hr : exec o _ s = r
    rintro (@⟨s', L, h2, h3, h4⟩ | @⟨x, s', L, h2, h3⟩ | ⟨_, _, ⟨a, -, -, ha⟩⟩)
    · obtain ⟨s'', L', h4, h5, h6⟩ := ih h2
      refine ⟨s'', L' ++ L, by simp only [run, hr, h4], by rw [List.append_assoc]; exact h5, fun ht => ?_⟩
      rw [h6 ht, h3 (ht _ _ hp)]; rfl
    · obtain ⟨s'', L', h6, h7, -⟩ := ih h2
      refine ⟨s'', L' ++ L, by simp only [run, hr, h6], by rw [List.append_assoc]; exact h7, fun ht => ?_⟩
      obtain ⟨i, rhs, x', h4, h5⟩ := h3
      rcases h4 with rfl | rfl
      · exact absurd h5 ((ht _ _ hp).1 x')
      · exact absurd h5 ((ht _ _ hp).1 x')
    · rw [hf a] at ha; cases ha

/-- Without enough memory. -/
theorem client_sim : ∀ {p : Client K} {s : State K} {σ : Store K} {G : List Nat},
    Rep fl s σ G → Safe σ p → ∃ s' L τ, p.run o s = .ok s' ∧ Ran σ p τ ∧ Rep fl s' τ (L ++ G)
  | .done, s, σ, G, H, _ => ⟨s, [], σ, rfl, .done, H⟩
  | .step c p q, s, σ, G, H, hS => by
    obtain ⟨⟨τ, hx⟩, hS⟩ := hS
    have hs := exec_sim (o := o) H hx
    revert hs
    rw [Client.run]
    generalize hr : exec o c s = r
    rintro (@⟨s', L, h2, h3, h4⟩ | @⟨x, s', L, h2, h3⟩ | @⟨s', L, υ, h2, h3, -⟩)
    · obtain ⟨s'', M, υ, g1, g2, g3⟩ := client_sim h2 ((hS τ).1 (.normal hx h4))
      exact ⟨s'', M ++ L, υ, g1, .step (.normal hx h4) g2, by rw [List.append_assoc]; exact g3⟩
    · obtain ⟨s'', M, υ, g1, g2, g3⟩ := client_sim h2 ((hS τ).2 (.threw hx h3))
      exact ⟨s'', M ++ L, υ, g1, .step (.threw hx h3) g2, by rw [List.append_assoc]; exact g3⟩
    · obtain ⟨s'', M, υ', g1, g2, g3⟩ := client_sim h2 ((hS υ).2 (.noMemory h3))
      exact ⟨s'', M ++ L, υ', g1, .step (.noMemory h3) g2, by rw [List.append_assoc]; exact g3⟩

omit [Num K] in
theorem start_rep : Rep fl (State.begin (K := K) fl) Store.empty [] := by
  have ho : own (K := K) Store.empty = fun _ => none := by
    funext p; cases p <;> rfl
  refine ⟨⟨fun _ => [], ?_⟩, fun i => rfl⟩
  rw [ho]
  exact ⟨fun _ _ => rfl, fun _ _ => ⟨rfl, rfl⟩, (fun _ _ h => by cases h), fun _ => .nil,
    (fun _ _ _ _ h => by cases h), fun _ h => absurd rfl h, rfl⟩

omit [Num K] in
theorem start_rep' : Rep (fun _ => false) (State.start (K := K)) Store.empty [] := start_rep

theorem reaches_sim {p q : Client K} {s t : State K} {σ : Store K} (hr : Reaches o p s q t) (H : Rep fl s σ G)
    (hS : Safe σ p) : ∃ τ L, Rep fl t τ (L ++ G) ∧ Safe τ q := by
  induction hr generalizing σ G with
  | refl => exact ⟨σ, [], H, hS⟩
  | @ok c p q s s' r t hx _ ih =>
    obtain ⟨⟨τ, hc⟩, hS⟩ := hS
    have hs := exec_sim (o := o) H hc
    rw [hx] at hs
    cases hs with
    | @ok _ L h1 _ h2 =>
      obtain ⟨υ, M, h3, h4⟩ := ih h1 ((hS τ).1 (.normal hc h2))
      exact ⟨υ, M ++ L, by rw [List.append_assoc]; exact h3, h4⟩
  | @threw c p q s x s' r t hx _ ih =>
    obtain ⟨⟨τ, hc⟩, hS⟩ := hS
    have hs := exec_sim (o := o) H hc
    rw [hx] at hs
    cases hs with
    | @threw _ _ L h1 h2 =>
      obtain ⟨υ, M, h3, h4⟩ := ih h1 ((hS τ).2 (.threw hc h2))
      exact ⟨υ, M ++ L, by rw [List.append_assoc]; exact h3, h4⟩
    | @noMemory _ L τ' h1 h2 h5 =>
      obtain ⟨υ, M, h3, h4⟩ := ih h1 ((hS τ').2 (.noMemory h2))
      exact ⟨υ, M ++ L, by rw [List.append_assoc]; exact h3, h4⟩

/-- A state that a program can reach, and the statement that follows. -/
theorem client_step {p q₁ q₂ : Client K} {c : Stmt K} {s : State K} (h : Safe .empty p)
    (hs : Reaches o p (.begin fl) (.step c q₁ q₂) s) :
    ∃ σ τ G, Rep fl s σ G ∧ Exec σ c τ ∧ Sim fl s.heap.next σ τ c G (exec o c s) := by
  obtain ⟨σ, L, h1, ⟨⟨τ, h2⟩, -⟩⟩ := reaches_sim hs start_rep h
  exact ⟨σ, τ, _, h1, h2, exec_sim h1 h2⟩

/-- A call that throws has no effect on independent values. -/
theorem throwing_eq {σ τ : Store K} {c : Stmt K} (hx : Exec σ c τ) (ht : Throwing σ c) : τ = σ := by
  obtain ⟨i, rhs, x, h1 | h1, h2⟩ := ht <;> subst h1 <;> cases hx
  · rename_i _ h3; exact absurd h2 h3.not_throw
  · cases h2
  · rfl
  · rename_i h3; exact absurd h2 h3.not_throw
  · rfl

omit [Num K] in
theorem set_look {σ : Store K} {i : Nat} {v} {r : Src} (h : r.obj ≠ i) : Spec.look (σ.set i v) r = Spec.look σ r := by
  simp [Spec.look, Store.set, h]

theorem outOf_look {σ τ : Store K} {c : Stmt K} (h : OutOf σ c τ) {r : Src} (hr : r.obj ≠ subject c) :
    Spec.look τ r = Spec.look σ r := by
  cases h <;> first | rfl | exact set_look hr

theorem exec_look {σ τ : Store K} {c : Stmt K} (h : Exec σ c τ) {r : Src} (hr : r.obj ≠ subject c) :
    Spec.look τ r = Spec.look σ r := by
  cases h <;> first | rfl | exact set_look hr

omit [Num K] in
theorem OwnL.find {c : Nat → Option (Cell K)} {ks F : List Nat} {es : List (Expr K)} (H : OwnL c ks es F) {b : Nat}
    (hb : b ∈ F) : ∃ (k : Nat) (e : Expr K) (x : Nat) (F' : List Nat), es[k]? = some e ∧ ks[k]? = some x ∧
      Own c x e F' ∧ b ∈ F' := by
  induction es generalizing ks F with
  | nil => cases H; cases hb
  | cons x es ih =>
    cases H with
    | @cons y _ F1 ks _ F2 h1 h2 =>
      rcases List.mem_append.1 hb with hb | hb
      · exact ⟨0, x, y, F1, by simp, by simp, h1, hb⟩
      · obtain ⟨k, e, z, F', g1, g2, g3, g4⟩ := ih h2 hb
        exact ⟨k + 1, e, z, F', by simpa using g1, by simpa using g2, g3, g4⟩

omit [Num K] in
/-- Every node of a tree is reached by a path. -/
theorem reach (e : Expr K) : ∀ {a b : Nat} {F : List Nat} {h : Heap K}, Own h.cells a e F → b ∈ F →
    ∃ ks, follow h a ks = .ok b := by
  induction e using Expr.ind' with
  | h e ih =>
    intro a b F h H hb
    cases H with
    | @node _ _ cs F h1 h2 h3 =>
      rcases List.mem_cons.1 hb with rfl | hb
      · exact ⟨[], rfl⟩
      · obtain ⟨k, e', x, F', g1, g2, g3, g4⟩ := h2.find hb
        obtain ⟨ks, g5⟩ := ih e' (List.mem_of_getElem? g1) g3 g4
        exact ⟨k :: ks, by simp only [follow, h1, g2, g5]⟩

omit [Num K] in
/-- Every node that is allocated belongs to an object, or to the garbage. -/
theorem Rep.reach {s : State K} {σ : Store K} (H : Rep fl s σ G) {a : Nat} (ha : s.heap.cells a ≠ none) :
    a ∈ G ∨ ∃ r, s.target r = .ok (.node a) := by
  obtain ⟨⟨fp, H⟩, hk⟩ := H
  rcases H.cover a ha with h | ⟨p, hp⟩
  · exact .inl h
  right
  cases h1 : own σ p with
  | none => rw [(H.unset p h1).2] at hp; cases hp
  | some e =>
  obtain ⟨b, h2, h3⟩ := H.owns p e h1
  obtain ⟨ks, g1⟩ := VM.reach e h3 hp
  cases p with
  | tmp => cases h1
  | one i =>
    have hki := hk i
    simp only [own] at h1
    cases hi : σ i with
    | none => simp [hi, own1] at h1
    | some o =>
      rw [hi] at hki
      cases o with
      | expr o => exact ⟨⟨i, ks⟩, by simp only [State.target, hki, Option.map_some, kind, h2, g1, Res.map_ok]⟩
      | bin _ _ _ => exact ⟨⟨i, 0 :: ks⟩, by simp only [State.target, hki, Option.map_some, kind, h2, g1, Res.map_ok]⟩
      | un _ _ => exact ⟨⟨i, 0 :: ks⟩, by simp only [State.target, hki, Option.map_some, kind, h2, g1, Res.map_ok]⟩
  | two i =>
    have hki := hk i
    simp only [own] at h1
    cases hi : σ i with
    | none => simp [hi, own2] at h1
    | some o =>
      rw [hi] at hki
      cases o with
      | expr o => simp [hi, own2] at h1
      | bin _ _ _ => exact ⟨⟨i, 1 :: ks⟩, by simp only [State.target, hki, Option.map_some, kind, h2, g1, Res.map_ok]⟩
      | un _ _ => simp [hi, own2] at h1

omit [Num K] in
theorem Rep.view {s : State K} {σ : Store K} (H : Rep fl s σ G) (r : Src) : s.view r = shown (Spec.look σ r) := by
  obtain ⟨⟨lo, H⟩, hk⟩ := H
  exact view_eq H hk r

/-- Assignment from within the own left operand reads freed memory. -/
theorem exec_own_left {s : State K} {σ : Store K} (hf : ∀ a, fl a = false) (H : Rep fl s σ G) {i : Nat} {b m n}
    {ks : List Nat} {op : BOp} {x y : Expr K} (hi : σ i = some (.bin b m n)) (hl : Spec.look σ ⟨i, 0 :: ks⟩ = some (.bin op x y)) :
    exec o (.assignBin i ⟨i, 0 :: ks⟩) s = .ub := by
  obtain ⟨⟨fp, H⟩, hk⟩ := H
  have hki := hk i
  rw [hi, Option.map_some, kind] at hki
  rcases target_some H hk hl with ⟨a, p, F, ht, hb, hF, hpp⟩ | ⟨op', x', y', ht, hj, he, hpath⟩ |
    ⟨op', x', ht, hj, he, hpath⟩
  · have hp : p = .one i := by
      rcases hpp with ⟨rfl, -⟩ | ⟨-, ks', hks⟩
      · rfl
      · cases hks
    subst hp
    obtain ⟨l0, r0, Fl, Fr, q1, q2, q3, -⟩ := parts_node hb
    obtain ⟨a', h', F', a1, a2, a3⟩ := (heap_clone (s := s) H.wf q2).resolve_right fun ⟨_, _, _, _, h⟩ => by
      obtain ⟨a, -, -, ha⟩ := H.scarce h
      rw [hf a] at ha; cases ha
    have hc : (h'.free (fp (.one i))).cells a = none := by simp [Heap.free, hF a hb.root_mem]
    rw [exec, look_bind (f := fun s : State K => s.objs i), hki]
    simp only
    rw [bind_ok (look_ok (f := fun s : State K => s.target ⟨i, 0 :: ks⟩) ht),
      bind_ok (look_ok (f := fun s : State K => s.binParts (.node a)) q1), bind_ok a1,
      bind_ok (H.reset a3 (.one i) (some a')),
      bind_ub (look_ub (f := fun s : State K => s.binParts (.node a)) (by simp only [State.binParts, hc]))]
  · cases hpath
  · cases hpath

/-- Assignment from an object that holds nothing. -/
theorem exec_unset {s : State K} {σ : Store K} (H : Rep fl s σ G) {i : Nat} {v} {r : Src}
    (hi : σ i = some (.expr v)) (hu : Unset σ r) : exec o (.assign i (.copy r)) s = .ub := by
  obtain ⟨⟨fp, H⟩, hk⟩ := H
  have hki := hk i
  rw [hi, Option.map_some, kind] at hki
  have ht := unset_target H hk hu
  rw [exec.eq_def]
  simp only
  rw [look_bind (f := fun s : State K => s.objs i), hki]
  refine bind_ub ?_
  rw [create, bind_ub (look_ub (f := fun s : State K => s.refs (Rhs.args (.copy r))) (by
    simp [Rhs.args, State.refs, State.ref, ht]))]

end

end VM
