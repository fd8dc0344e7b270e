import Verif.Rt.HeapAlg
/-
Trees on the heap: who owns which nodes, and what copying, reading and deleting do.
-/
namespace VM
variable {K : Type}
open Act Run

namespace Expr

theorem ind' {P : Expr K → Prop} (h : ∀ e, (∀ k ∈ e.operands, P k) → P e) : ∀ e, P e := by
  intro e
  induction e using Expr.ind <;> apply h <;> simp_all [operands]

@[simp] theorem build_operands (e : Expr K) : build e.label e.operands = some e := by
  cases e <;> rfl

end Expr

/-! ### Running code -/

namespace Run
variable {σ α β : Type} {m : Run σ α} {k : α → Run σ β} {s s' : σ}

theorem bind_ok {a : α} (h : m s = .ok a s') : (m >>= k) s = k a s' := by
  show (match m s with | .ok a s' => k a s' | .throw x s' => .throw x s' | .ub => .ub) = _
  rw [h]

theorem bind_throw {x : Exc} (h : m s = .throw x s') : (m >>= k) s = .throw x s' := by
  show (match m s with | .ok a s' => k a s' | .throw x s' => .throw x s' | .ub => .ub) = _
  rw [h]

theorem bind_ub (h : m s = .ub) : (m >>= k) s = .ub := by
  show (match m s with | .ok a s' => k a s' | .throw x s' => .throw x s' | .ub => .ub) = _
  rw [h]

@[simp] theorem pure_eq (a : α) : (pure a : Run σ α) s = .ok a s := rfl

theorem look_ok {f : σ → Res α} {a : α} (h : f s = .ok a) : look f s = .ok a s := by simp [look, h]
theorem look_throw {f : σ → Res α} {x : Exc} (h : f s = .throw x) : look f s = .throw x s := by simp [look, h]
theorem look_ub {f : σ → Res α} (h : f s = .ub) : look f s = .ub := by simp [look, h]

end Run

/-! ### Ownership -/

mutual
/-- The tree of `e` is stored at `a`, its nodes are `F`. -/
inductive Own (c : Nat → Option (Cell K)) : Nat → Expr K → List Nat → Prop
  | node {a : Nat} {e : Expr K} {ks F : List Nat} : c a = some ⟨e.label, ks⟩ → OwnL c ks e.operands F →
      (∀ b ∈ F, b < a) → Own c a e (a :: F)
/-- The same for a list of trees. -/
inductive OwnL (c : Nat → Option (Cell K)) : List Nat → List (Expr K) → List Nat → Prop
  | nil : OwnL c [] [] []
  | cons {k : Nat} {e : Expr K} {F ks es G} : Own c k e F → OwnL c ks es G → OwnL c (k :: ks) (e :: es) (F ++ G)
end

variable {c c' : Nat → Option (Cell K)} {a : Nat} {e : Expr K} {es : List (Expr K)} {ks F G L : List Nat}

theorem Own.root_mem (H : Own c a e F) : a ∈ F := by cases H; simp

theorem Own.le (H : Own c a e F) : ∀ b ∈ F, b ≤ a := by
  cases H with
  | node _ _ h => intro b hb; rcases List.mem_cons.1 hb with rfl | hb
                  · omega
                  · have := h b hb; omega

theorem OwnL.of_mem (H : OwnL c ks es F) : ∀ k ∈ ks, ∃ e ∈ es, ∃ G, Own c k e G ∧ ∀ b ∈ G, b ∈ F := by
  induction es generalizing ks F with
  | nil => cases H; simp
  | cons x es ih =>
    cases H with
    | @cons k _ F ks _ G h1 h2 =>
      intro k' hk
      rcases List.mem_cons.1 hk with rfl | hk
      · exact ⟨x, by simp, F, h1, by simp +contextual⟩
      · obtain ⟨e, he, G', g1, g2⟩ := ih h2 k' hk
        exact ⟨e, by simp [he], G', g1, fun b hb => by simp [g2 b hb]⟩

theorem Own.mono (e : Expr K) : ∀ {a F}, Own c a e F → (∀ b ∈ F, c' b = c b) → Own c' a e F := by
  induction e using Expr.ind' with
  | h e ih =>
    have key : ∀ es : List (Expr K), (∀ k ∈ es, k ∈ e.operands) → ∀ {ks F}, OwnL c ks es F →
        (∀ b ∈ F, c' b = c b) → OwnL c' ks es F := by
      intro es
      induction es with
      | nil => intro _ ks F H _; cases H; exact .nil
      | cons x es ihs =>
        intro hm ks F H hc
        cases H with
        | cons h1 h2 =>
          exact .cons (ih x (hm x (by simp)) h1 fun b hb => hc b (by simp [hb]))
            (ihs (fun k hk => hm k (by simp [hk])) h2 fun b hb => hc b (by simp [hb]))
    intro a F H hc
    cases H with
    | node h1 h2 h3 =>
      exact .node (by rw [hc _ (by simp), h1]) (key _ (fun _ h => h) h2 fun b hb => hc b (by simp [hb])) h3

theorem OwnL.mono (H : OwnL c ks es F) (hc : ∀ b ∈ F, c' b = c b) : OwnL c' ks es F := by
  induction es generalizing ks F with
  | nil => cases H; exact .nil
  | cons x es ihs =>
    cases H with
    | cons h1 h2 =>
      exact .cons (h1.mono _ fun b hb => hc b (by simp [hb])) (ihs h2 fun b hb => hc b (by simp [hb]))

theorem Own.alloc (e : Expr K) : ∀ {a F}, Own c a e F → ∀ b ∈ F, c b ≠ none := by
  induction e using Expr.ind' with
  | h e ih =>
    have key : ∀ es : List (Expr K), (∀ k ∈ es, k ∈ e.operands) → ∀ {ks F}, OwnL c ks es F →
        ∀ b ∈ F, c b ≠ none := by
      intro es
      induction es with
      | nil => intro _ ks F H; cases H; simp
      | cons x es ihs =>
        intro hm ks F H b hb
        cases H with
        | cons h1 h2 =>
          rcases List.mem_append.1 hb with hb | hb
          · exact ih x (hm x (by simp)) h1 b hb
          · exact ihs (fun k hk => hm k (by simp [hk])) h2 b hb
    intro a F H b hb
    cases H with
    | node h1 h2 h3 =>
      rcases List.mem_cons.1 hb with rfl | hb
      · rw [h1]; simp
      · exact key _ (fun _ h => h) h2 b hb

theorem OwnL.alloc (H : OwnL c ks es F) : ∀ b ∈ F, c b ≠ none := by
  induction es generalizing ks F with
  | nil => cases H; simp
  | cons x es ihs =>
    intro b hb
    cases H with
    | cons h1 h2 =>
      rcases List.mem_append.1 hb with hb | hb
      · exact h1.alloc _ b hb
      · exact ihs h2 b hb

/-! ### Growing heaps -/

/-- Nothing is allocated at an address that was never given out. -/
def Heap.WF (h : Heap K) : Prop := ∀ a, h.next ≤ a → h.cells a = none

variable {h h1 h2 h3 : Heap K} {A B : List Nat}

theorem Heap.WF.lt (hw : h.WF) {b : Nat} (hb : h.cells b ≠ none) : b < h.next :=
  Nat.lt_of_not_le fun hn => hb (hw b hn)

/-- From `h` to `h'`: what was there is as it was, and of the addresses given out since then those in `A`
are allocated. -/
structure Adds (h h' : Heap K) (A : List Nat) : Prop where
  wf : h.WF
  wf' : h'.WF
  le : h.next ≤ h'.next
  old : ∀ b, b < h.next → h'.cells b = h.cells b
  mem : ∀ b, h.next ≤ b → (h'.cells b ≠ none ↔ b ∈ A)
  fresh : ∀ b ∈ A, h.next ≤ b
  nodup : A.Nodup
  fails : h'.fails = h.fails

theorem Adds.refl (hw : h.WF) : Adds h h [] :=
  ⟨hw, hw, Nat.le_refl _, fun _ _ => rfl, fun b hb => by simp [hw b hb], by simp, by simp, rfl⟩

theorem Adds.lt (H : Adds h h1 A) : ∀ b ∈ A, b < h1.next := fun b hb =>
  H.wf'.lt ((H.mem b (H.fresh b hb)).2 hb)

theorem Adds.trans (H : Adds h h1 A) (H' : Adds h1 h2 B) : Adds h h2 (A ++ B) where
  wf := H.wf
  wf' := H'.wf'
  le := Nat.le_trans H.le H'.le
  old b hb := by rw [H'.old b (Nat.lt_of_lt_of_le hb H.le), H.old b hb]
  mem b hb := by
    by_cases h1 : b < h1.next
    · rw [H'.old b h1, H.mem b hb, List.mem_append]
      exact ⟨.inl, fun h => h.resolve_right fun hb' => by have := H'.fresh b hb'; omega⟩
    · rw [H'.mem b (by omega), List.mem_append]
      exact ⟨.inr, fun h => h.resolve_left fun hb' => by have := H.lt b hb'; omega⟩
  fresh b hb := by
    rcases List.mem_append.1 hb with hb | hb
    · exact H.fresh b hb
    · exact Nat.le_trans H.le (H'.fresh b hb)
  nodup := List.nodup_append.2 ⟨H.nodup, H'.nodup, fun b hb b' hb' e => by
    have := H.lt b hb; have := H'.fresh b' hb'; omega⟩
  fails := H'.fails.trans H.fails

theorem Adds.perm (H : Adds h h1 A) (hp : A.Perm B) : Adds h h1 B :=
  ⟨H.wf, H.wf', H.le, H.old, fun b hb => by rw [H.mem b hb, hp.mem_iff],
    fun b hb => H.fresh b (hp.mem_iff.2 hb), hp.nodup_iff.1 H.nodup, H.fails⟩

theorem Adds.keep (H : Adds h h1 A) {b : Nat} (hb : h.cells b ≠ none) : h1.cells b = h.cells b :=
  H.old b (H.wf.lt hb)

theorem Own.adds (H : Own h.cells a e F) (E : Adds h h1 A) : Own h1.cells a e F :=
  H.mono _ fun b hb => E.keep (H.alloc _ b hb)

theorem OwnL.adds (H : OwnL h.cells ks es F) (E : Adds h h1 A) : OwnL h1.cells ks es F :=
  H.mono fun b hb => E.keep (H.alloc b hb)

theorem Own.bound (H : Own h.cells a e F) (hw : h.WF) : ∀ b ∈ F, b < h.next := fun b hb =>
  hw.lt (H.alloc _ b hb)

theorem OwnL.bound (H : OwnL h.cells ks es F) (hw : h.WF) : ∀ b ∈ F, b < h.next := fun b hb =>
  hw.lt (H.alloc b hb)

/-! ### New nodes -/

/-- The heap with a new node. -/
def Heap.put (h : Heap K) (l : Label K) (ks : List Nat) : Heap K :=
  ⟨fun a => if a = h.next then some ⟨l, ks⟩ else h.cells a, h.next + 1, h.fails⟩

/-- The heap after a request that failed, or was for something else than a node. -/
def Heap.skip (h : Heap K) : Heap K := ⟨h.cells, h.next + 1, h.fails⟩

/-- One of the requests made between `h` and `h'` fails. -/
def Heap.Scarce (h h' : Heap K) : Prop := ∃ a, h.next ≤ a ∧ a < h'.next ∧ h.fails a = true

theorem new_eq (l : Label K) (ks : List Nat) : new l ks h = .ok h.next (h.put l ks) ∨
    new l ks h = .throw .badAlloc h.skip ∧ h.Scarce h.skip := by
  cases hf : h.fails h.next with
  | true => exact .inr ⟨by simp [new, hf, Heap.skip], h.next, Nat.le_refl _, Nat.lt_succ_self _, hf⟩
  | false => exact .inl (by simp [new, hf, Heap.put])

theorem request_eq : request h = .ok () h.skip ∨ request h = .throw .badAlloc h.skip ∧ h.Scarce h.skip := by
  cases hf : h.fails h.next with
  | true => exact .inr ⟨by simp [request, hf, Heap.skip], h.next, Nat.le_refl _, Nat.lt_succ_self _, hf⟩
  | false => exact .inl (by simp [request, hf, Heap.skip])

theorem Heap.skip_adds (hw : h.WF) : Adds h h.skip [] where
  wf := hw
  wf' b hb := hw b (Nat.le_of_succ_le hb)
  le := Nat.le_succ _
  old _ _ := rfl
  mem b hb := by simp [skip, hw b hb]
  fresh := by simp
  nodup := by simp
  fails := rfl

theorem Adds.scarce (E : Adds h h1 A) : h1.Scarce h2 → h.Scarce h2 := fun ⟨a, h1, h2, h3⟩ =>
  ⟨a, Nat.le_trans E.le h1, h2, by rw [← E.fails]; exact h3⟩

theorem Heap.put_adds (hw : h.WF) (l : Label K) (ks : List Nat) : Adds h (h.put l ks) [h.next] where
  wf := hw
  wf' b hb := by
    have : h.next + 1 ≤ b := hb
    simp only [put]; rw [if_neg (by omega), hw b (by omega)]
  le := Nat.le_succ _
  old b hb := by simp only [put]; rw [if_neg (by omega)]
  mem b hb := by
    simp only [put]
    by_cases h : b = h.next
    · simp [h]
    · simp [h, hw b hb]
  fresh := by simp
  nodup := by simp
  fails := rfl

/-- A new node over trees that are there. -/
theorem Heap.put_own (hw : h.WF) (H : OwnL h.cells ks e.operands F) : Own (h.put e.label ks).cells h.next e (h.next :: F) :=
  .node (by simp [put]) (H.mono fun b hb => by
    have := H.bound hw b hb
    simp only [put]; rw [if_neg (by omega)]) (H.bound hw)

/-! ### Reading, copying, deleting -/

theorem loadN_own (e : Expr K) : ∀ {n a F}, a < n → Own h.cells a e F → loadN h n a = .ok e := by
  induction e using Expr.ind' with
  | h e ih =>
    intro n a F hn H
    obtain ⟨n, rfl⟩ : ∃ m, n = m + 1 := ⟨n - 1, by omega⟩
    have key : ∀ es : List (Expr K), (∀ k ∈ es, k ∈ e.operands) → ∀ {ks F}, OwnL h.cells ks es F →
        (∀ b ∈ F, b < n) → readEach (loadN h n) ks = .ok es := by
      intro es
      induction es with
      | nil => intro _ ks F H _; cases H; rfl
      | cons x es ihs =>
        intro hm ks F H hb
        cases H with
        | cons h1 h2 =>
          rw [readEach, ih x (hm x (by simp)) (hb _ (by simp [h1.root_mem])) h1, Res.bind_ok,
            ihs (fun k hk => hm k (by simp [hk])) h2 fun b hb' => hb b (by simp [hb'])]
          rfl
    cases H with
    | node h1 h2 h3 =>
      rw [loadN, h1]
      simp only
      rw [key _ (fun _ h => h) h2 fun b hb => by have := h3 b hb; omega]
      simp

theorem load_own (H : Own h.cells a e F) : load a h = .ok e := loadN_own e (Nat.lt_succ_self a) H

theorem cell_own (H : Own h.cells a e F) : ∃ ks G, cell a h = .ok ⟨e.label, ks⟩ h ∧ OwnL h.cells ks e.operands G ∧
    F = a :: G ∧ ∀ b ∈ G, b < a := by
  cases H with
  | @node _ _ ks F h1 h2 h3 => exact ⟨ks, F, look_ok (by simp [h1]), h2, rfl, h3⟩

/-- The heap without some nodes. -/
def Heap.free (h : Heap K) (F : List Nat) : Heap K := ⟨fun b => if b ∈ F then none else h.cells b, h.next, h.fails⟩

theorem Heap.ext' {h k : Heap K} (hc : ∀ a, h.cells a = k.cells a) (hn : h.next = k.next)
    (hf : h.fails = k.fails) : h = k := by
  cases h; cases k; simp only at *; subst hn; subst hf; congr; exact funext hc

theorem Heap.free_free (h : Heap K) (F G : List Nat) : (h.free F).free G = h.free (F ++ G) := by
  refine Heap.ext' (fun a => ?_) rfl rfl
  simp only [free, List.mem_append]
  by_cases h1 : a ∈ F <;> by_cases h2 : a ∈ G <;> simp [h1, h2]

theorem Heap.free_out {b : Nat} (hb : b ∉ F) : (h.free F).cells b = h.cells b := by simp [free, hb]

theorem Own.free (H : Own h.cells a e F) (hd : ∀ b ∈ F, b ∉ G) : Own (h.free G).cells a e F :=
  H.mono _ fun b hb => Heap.free_out (hd b hb)

theorem OwnL.free (H : OwnL h.cells ks es F) (hd : ∀ b ∈ F, b ∉ G) : OwnL (h.free G).cells ks es F :=
  H.mono fun b hb => Heap.free_out (hd b hb)

theorem deleteN_own (e : Expr K) : ∀ {n a F} {h : Heap K}, a < n → Own h.cells a e F → F.Nodup →
    deleteN n a h = .ok () (h.free F) := by
  induction e using Expr.ind' with
  | h e ih =>
    intro n a F h hn H hd
    obtain ⟨n, rfl⟩ : ∃ m, n = m + 1 := ⟨n - 1, by omega⟩
    have key : ∀ es : List (Expr K), (∀ k ∈ es, k ∈ e.operands) → ∀ {ks F} {h : Heap K},
        OwnL h.cells ks es F → (∀ b ∈ F, b < n) → F.Nodup → ∃ u, each (deleteN n) ks h = .ok u (h.free F) := by
      intro es
      induction es with
      | nil => intro _ ks F h H _ _; cases H; exact ⟨[], rfl⟩
      | cons x es ihs =>
        intro hm ks F h H hb hd
        cases H with
        | cons h1 h2 =>
          obtain ⟨d1, d2, d3⟩ := List.nodup_append.1 hd
          obtain ⟨u, hu⟩ := ihs (fun k hk => hm k (by simp [hk])) (h2.free fun b hb hb' => d3 b hb' b hb rfl)
            (fun b hb' => hb b (by simp [hb'])) d2
          refine ⟨() :: u, ?_⟩
          rw [each, bind_ok (ih x (hm x (by simp)) (hb _ (by simp [h1.root_mem])) h1 d1), bind_ok hu,
            Heap.free_free]
          rfl
    obtain ⟨ks, G, c1, c2, rfl, c3⟩ := cell_own H
    obtain ⟨d1, d2⟩ := List.nodup_cons.1 hd
    obtain ⟨u, hu⟩ := key _ (fun _ h => h) c2 (fun b hb => by have := c3 b hb; omega) d2
    rw [deleteN, bind_ok c1, bind_ok hu]
    have : (h.free G).cells a ≠ none := by rw [Heap.free_out d1]; exact H.alloc _ a (by simp)
    simp only [release]
    cases hc : (h.free G).cells a with
    | none => exact absurd hc this
    | some c =>
      simp only
      congr 1
      refine Heap.ext' (fun b => ?_) rfl rfl
      simp only [Heap.free, List.mem_cons]
      by_cases h1 : b = a <;> simp [h1]

theorem delete_own (H : Own h.cells a e F) (hd : F.Nodup) : delete a h = .ok () (h.free F) :=
  deleteN_own e (Nat.lt_succ_self a) H hd

theorem each_delete_own {as : List Nat} (H : OwnL h.cells as es F) (hd : F.Nodup) :
    ∃ u, each delete as h = .ok u (h.free F) := by
  induction es generalizing as F h with
  | nil => cases H; exact ⟨[], by rw [each]; exact congrArg (Out.ok []) (Heap.ext' (fun a => by simp [Heap.free]) rfl rfl)⟩
  | cons x es ih =>
    cases H with
    | cons h1 h2 =>
      obtain ⟨d1, d2, d3⟩ := List.nodup_append.1 hd
      obtain ⟨u, hu⟩ := ih (h2.free fun b hb hb' => d3 b hb' b hb rfl) d2
      refine ⟨() :: u, ?_⟩
      rw [each, bind_ok (delete_own h1 d1), bind_ok hu, Heap.free_free]
      rfl

theorem Adds.free (E : Adds h h1 (F ++ B)) : Adds h (h1.free F) B where
  wf := E.wf
  wf' b hb := by
    simp only [Heap.free]
    split
    · rfl
    · exact E.wf' b hb
  le := E.le
  old b hb := by rw [Heap.free_out fun hf => by have := E.fresh b (by simp [hf]); omega, E.old b hb]
  mem b hb := by
    by_cases hf : b ∈ F
    · have := List.nodup_append.1 E.nodup
      simp [Heap.free, hf]
      exact fun hb => this.2.2 b hf b hb rfl
    · rw [Heap.free_out hf, E.mem b hb]; simp [hf]
  fresh b hb := E.fresh b (by simp [hb])
  nodup := (List.nodup_append.1 E.nodup).2.1
  fails := E.fails

/-- Deleting a tree that was made since `h`. -/
theorem Adds.delete (E : Adds h h1 (F ++ B)) (H : Own h1.cells a e F) :
    VM.delete a h1 = .ok () (h1.free F) ∧ Adds h (h1.free F) B :=
  ⟨delete_own H (List.nodup_append.1 E.nodup).1, E.free⟩

end VM
