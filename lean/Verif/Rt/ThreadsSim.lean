import Verif.Rt.ThreadsCode
import Verif.Spec.Threads
import Verif.Rt.HeapSim
/-
Threads with expression objects: each runs as if it were alone.
-/
namespace VM
variable {K ι : Type} {fl : Nat → Bool}
open Run Prog
open Spec hiding look

/-! ### Pointers that are left alone -/

/-- The program does not change the pointer `p`. -/
def Keeps (p : Ptr) {α : Type} (m : Prog K α) : Prop := ∀ s, match m s with
  | .ok _ s' => s'.ptr p = s.ptr p
  | .throw _ s' => s'.ptr p = s.ptr p
  | .ub => True

namespace Keeps
variable {p : Ptr} {α β : Type}

theorem ret (a : α) : Keeps (K := K) p (pure a : Prog K α) := fun _ => rfl

theorem bind {m : Prog K α} {k : α → Prog K β} (hm : Keeps p m) (hk : ∀ a, Keeps p (k a)) : Keeps p (m >>= k) := by
  intro s
  have h1 := hm s
  cases hs : m s with
  | ok a s' =>
    rw [hs] at h1
    rw [bind_ok hs]
    have h2 := hk a s'
    cases hs' : k a s' with
    | ok b s'' => rw [hs'] at h2; exact h2.trans h1
    | throw x s'' => rw [hs'] at h2; exact h2.trans h1
    | ub => trivial
  | throw x s' => rw [hs] at h1; rw [bind_throw hs]; exact h1
  | ub => rw [bind_ub hs]; trivial

theorem heap {m : Act K α} : Keeps p (Prog.heap m) := by
  intro s
  unfold Prog.heap
  cases m s.heap <;> simp

theorem look {f : State K → Res α} : Keeps p (Run.look f) := by
  intro s
  unfold Run.look
  cases f s <;> simp

theorem setObj (i : Nat) (k : Option Kind) : Keeps (K := K) p (Prog.setObj i k) := fun _ => rfl

theorem setPtr {q : Ptr} {v : Option Nat} (hq : p ≠ q) : Keeps (K := K) p (Prog.setPtr q v) := fun s => by
  simp [Prog.setPtr, hq]

theorem reset {q : Ptr} {v : Option Nat} (hq : p ≠ q) : Keeps (K := K) p (Prog.reset q v) := by
  refine bind look fun x => ?_
  cases x with
  | none => exact setPtr hq
  | some a => exact heap.bind fun _ => setPtr hq

theorem ite {m n : Prog K α} {c : Prop} [Decidable c] (hm : Keeps p m) (hn : Keeps p n) : Keeps p (if c then m else n) := by
  split
  · exact hm
  · exact hn

theorem unwinding {q : Ptr} {m : Prog K α} (hq : p ≠ q) (hm : Keeps p m) : Keeps p (Prog.unwinding q m) := by
  intro s
  have h1 := hm s
  unfold Prog.unwinding
  cases hs : m s with
  | ok a s' => rw [hs] at h1; exact h1
  | throw x s' =>
    rw [hs] at h1
    have h2 := reset (K := K) (v := none) hq s'
    simp only
    cases hr : Prog.reset q none s' with
    | ok b s'' => rw [hr] at h2; exact h2.trans h1
    | throw x s'' => trivial
    | ub => trivial
  | ub => trivial

variable [Num K]

theorem create {o : Nat → Bool} (rhs : Rhs K) : Keeps p (VM.create o rhs) := look.bind fun _ => heap

theorem inplaceLoop {o : Nat → Bool} {i : Nat} (hq : p ≠ .one i) : ∀ n, Keeps (K := K) p (VM.inplaceLoop o i n)
  | 0 => look
  | n + 1 => by
    refine bind look fun x => ?_
    cases x with
    | none => exact look
    | some a => exact heap.bind fun _ => ite (heap.bind fun _ => (reset hq).bind fun _ => inplaceLoop hq n) (ret _)

theorem exec {o : Nat → Bool} (c : Stmt K) (h1 : p ≠ .one (subject c)) (h2 : p ≠ .two (subject c)) (h3 : p ≠ .tmp) :
    Keeps p (VM.exec o c) := by
  cases c with
  | decl i =>
    refine bind look fun x => ?_
    cases x with
    | none => exact setObj _ _
    | some _ => exact look
  | init i rhs =>
    refine bind look fun x => ?_
    cases x with
    | none => exact look.bind fun _ => ite (setObj _ _) ((create _).bind fun _ => (setObj _ _).bind fun _ => reset h1)
    | some _ => exact look
  | assign i rhs =>
    refine bind look fun x => ?_
    split
    · split
      · exact (create _).bind fun _ => reset h1
      · exact (create _).bind fun _ => reset h1
      · exact (create _).bind fun _ => reset h1
      · exact (create _).bind fun _ => (reset h3).bind fun _ => (unwinding h3 heap).bind fun _ =>
          (reset h1).bind fun _ => reset h3
    · exact look
  | inplace i =>
    refine bind look fun x => ?_
    split
    · exact heap.bind fun _ => inplaceLoop h1 _
    · exact look
  | declBin i =>
    refine bind look fun x => ?_
    cases x with
    | none => exact setObj _ _
    | some _ => exact look
  | initBin i op l r =>
    refine bind look fun x => ?_
    cases x with
    | none => exact look.bind fun _ => look.bind fun _ => heap.bind fun _ => heap.bind fun _ => (setObj _ _).bind fun _ =>
        (reset h1).bind fun _ => reset h2
    | some _ => exact look
  | assignBin i r =>
    refine bind look fun x => ?_
    split
    · exact look.bind fun _ => look.bind fun _ => heap.bind fun _ => (reset h1).bind fun _ => look.bind fun _ =>
        heap.bind fun _ => (setObj _ _).bind fun _ => look.bind fun _ => heap.bind fun _ => reset h2
    · exact look
  | assignNum i c =>
    refine bind look fun x => ?_
    split
    · exact heap.bind fun _ => (reset h1).bind fun _ => heap.bind fun _ => (setObj _ _).bind fun _ => heap.bind fun _ =>
        reset h2
    · exact look
  | declUn i =>
    refine bind look fun x => ?_
    cases x with
    | none => exact setObj _ _
    | some _ => exact look
  | initUn i op r =>
    refine bind look fun x => ?_
    cases x with
    | none => exact look.bind fun _ => heap.bind fun _ => heap.bind fun _ => (setObj _ _).bind fun _ => reset h1
    | some _ => exact look
  | wrapUn i r =>
    refine bind look fun x => ?_
    cases x with
    | none => exact look.bind fun _ => heap.bind fun _ => heap.bind fun _ => (setObj _ _).bind fun _ => reset h1
    | some _ => exact look
  | copyUn i r =>
    refine bind look fun x => ?_
    cases x with
    | none =>
      exact look.bind fun _ => look.bind fun _ => heap.bind fun _ => heap.bind fun _ => (setObj _ _).bind fun _ => reset h1
    | some _ => exact look
  | numUn i c =>
    refine bind look fun x => ?_
    split
    · exact heap.bind fun _ => (reset h1).bind fun _ => heap.bind fun _ => setObj _ _
    · exact look
  | destroy i =>
    refine bind look fun x => ?_
    cases x with
    | none => exact look
    | some _ => exact (reset h2).bind fun _ => (reset h1).bind fun _ => setObj _ _

/-- A program does not change the pointers of objects it does not work on. -/
theorem client {o : Nat → Bool} {P : Nat → Prop} (h1 : ∀ i, objOf p = some i → ¬ P i) (h2 : p ≠ .tmp) :
    ∀ (c : Client K) {s s' : State K}, OnlyOn P c → c.run o s = .ok s' → s'.ptr p = s.ptr p
  | .done, s, s', _, hr => by cases hr; rfl
  | .step c q q', s, s', ho, hr => by
    have hk : Keeps p (VM.exec o c) := exec c (fun h => h1 (subject c) (by rw [h]; rfl) ho.1)
      (fun h => h1 (subject c) (by rw [h]; rfl) ho.1) h2
    have := hk s
    rw [Client.run] at hr
    cases hs : VM.exec o c s with
    | ok a t => rw [hs] at this hr; exact (client h1 h2 q ho.2.1 hr).trans this
    | throw x t => rw [hs] at this hr; exact (client h1 h2 q' ho.2.2 hr).trans this
    | ub => rw [hs] at hr; cases hr

end Keeps

/-! ### Values of objects that are left alone -/

theorem exec_store [Num K] {σ τ : Store K} {c : Stmt K} (h : Exec σ c τ) {i : Nat} (hi : i ≠ subject c) : τ i = σ i := by
  cases h <;> first | rfl | simp_all [Store.set, subject]

theorem outOf_store [Num K] {σ τ : Store K} {c : Stmt K} (h : OutOf σ c τ) {i : Nat} (hi : i ≠ subject c) : τ i = σ i := by
  cases h <;> first | rfl | simp_all [Store.set, subject]

theorem ran_store [Num K] {P : Nat → Prop} {σ τ : Store K} {p : Client K} (h : Ran σ p τ) (ho : OnlyOn P p) {i : Nat}
    (hi : ¬ P i) : τ i = σ i := by
  induction h with
  | done => rfl
  | @step σ c b τ p q υ h1 _ ih =>
    have hne : i ≠ subject c := fun h => hi (h ▸ ho.1)
    have h2 : τ i = σ i := by
      cases h1 with
      | normal h => exact exec_store h hne
      | threw h => exact exec_store h hne
      | noMemory h => exact outOf_store h hne
    rw [ih (by cases b; exact ho.2.1; exact ho.2.2), h2]

/-! ### Trees that are still there are unchanged -/

theorem own_same {c c' : Nat → Option (Cell K)} (e : Expr K) : ∀ {a : Nat} {F F' : List Nat}, Own c a e F → Own c' a e F' →
    (∀ b ∈ F, c' b = c b ∨ c' b = none) → ∀ b ∈ F, c' b = c b := by
  induction e using Expr.ind' with
  | h e ih =>
    intro a F F' H H' hc
    have key : ∀ es : List (Expr K), (∀ k ∈ es, k ∈ e.operands) → ∀ {ks F F'}, OwnL c ks es F → OwnL c' ks es F' →
        (∀ b ∈ F, c' b = c b ∨ c' b = none) → ∀ b ∈ F, c' b = c b := by
      intro es
      induction es with
      | nil => intro _ ks F F' H _ _; cases H; simp
      | cons x es ihs =>
        intro hm ks F F' H H' hc b hb
        cases H with
        | cons h1 h2 =>
          cases H' with
          | cons h3 h4 =>
            rcases List.mem_append.1 hb with hb | hb
            · exact ih x (hm x (by simp)) h1 h3 (fun b hb => hc b (by simp [hb])) b hb
            · exact ihs (fun k hk => hm k (by simp [hk])) h2 h4 (fun b hb => hc b (by simp [hb])) b hb
    cases H with
    | @node _ _ ks F h1 h2 h3 =>
      cases H' with
      | @node _ _ ks' F' h1' h2' h3' =>
        have h4 : c' a = c a := (hc a (by simp)).resolve_right (by simp [h1'])
        have h5 : ks' = ks := by
          rw [h1', h1] at h4
          simpa using h4
        subst h5
        intro b hb
        rcases List.mem_cons.1 hb with rfl | hb
        · exact h4
        · exact key _ (fun _ h => h) h2 h2' (fun b hb => hc b (by simp [hb])) b hb

/-! ### The memory a thread can reach -/

theorem follow_inside {h : Heap K} : ∀ (ks : List Nat) {e : Expr K} {a b : Nat} {F : List Nat}, Own h.cells a e F →
    follow h a ks = .ok b → b ∈ F
  | [], e, a, b, F, H, hf => by cases hf; exact H.root_mem
  | k :: ks, e, a, b, F, H, hf => by
    cases H with
    | @node _ _ cs F h1 h2 h3 =>
      simp only [follow, h1] at hf
      cases hk : cs[k]? with
      | none => rw [hk] at hf; cases hf
      | some x =>
        rw [hk] at hf
        obtain ⟨e', -, G, g1, g2⟩ := h2.of_mem x (List.mem_of_getElem? hk)
        exact List.mem_cons_of_mem _ (g2 _ (follow_inside ks g1 hf))

/-- Nodes reached through an object belong to its pointers. -/
theorem target_fp {s : State K} {σ : Store K} {fp : Ptr → List Nat} {G : List Nat}
    (H : Inv fl s.heap s.ptr (own σ) fp G) {r : Src} {a : Nat} (ht : s.target r = .ok (.node a)) :
    ∃ p, objOf p = some r.obj ∧ a ∈ fp p := by
  have key : ∀ p ks x, s.ptr p = some x → (follow s.heap x ks).map Target.node = .ok (.node a) → a ∈ fp p := by
    intro p ks x hp hf
    cases hA : own σ p with
    | none => rw [(H.unset p hA).1] at hp; cases hp
    | some e =>
      obtain ⟨y, h1, h2⟩ := H.owns p e hA
      rw [hp] at h1
      cases h1
      cases hfo : follow s.heap x ks with
      | ok b => rw [hfo] at hf; cases hf; exact follow_inside ks h2 hfo
      | throw _ => rw [hfo] at hf; cases hf
      | ub => rw [hfo] at hf; cases hf
  unfold State.target at ht
  split at ht
  · cases ht
  · split at ht
    · cases ht
    · cases ht
    · exact ⟨.one r.obj, rfl, key _ _ _ (by assumption) ht⟩
  · split at ht
    · cases ht
    · split at ht
      · cases ht
      · exact ⟨.one r.obj, rfl, key _ _ _ (by assumption) ht⟩
    · split at ht
      · cases ht
      · exact ⟨.two r.obj, rfl, key _ _ _ (by assumption) ht⟩
    · cases ht
  · split at ht
    · cases ht
    · split at ht
      · cases ht
      · exact ⟨.one r.obj, rfl, key _ _ _ (by assumption) ht⟩
    · cases ht

/-- The nodes of an object's pointers are reached through it. -/
theorem fp_target {s : State K} {σ : Store K} {fp : Ptr → List Nat} {G : List Nat}
    (H : Inv fl s.heap s.ptr (own σ) fp G) (hk : Kinds s.objs σ) {p : Ptr} {a : Nat} (hp : a ∈ fp p) :
    ∃ r, objOf p = some r.obj ∧ s.target r = .ok (.node a) := by
  cases h1 : own σ p with
  | none => rw [(H.unset p h1).2] at hp; cases hp
  | some e =>
  obtain ⟨b, h2, h3⟩ := H.owns p e h1
  obtain ⟨ks, g1⟩ := VM.reach e h3 hp
  cases p with
  | tmp => cases h1
  | one i =>
    have hki := hk i
    simp only [own] at h1
    cases hi : σ i with
    | none => simp [hi, own1] at h1
    | some o =>
      rw [hi] at hki
      cases o with
      | expr o => exact ⟨⟨i, ks⟩, rfl, by simp only [State.target, hki, Option.map_some, kind, h2, g1, Res.map_ok]⟩
      | bin _ _ _ => exact ⟨⟨i, 0 :: ks⟩, rfl, by simp only [State.target, hki, Option.map_some, kind, h2, g1, Res.map_ok]⟩
      | un _ _ => exact ⟨⟨i, 0 :: ks⟩, rfl, by simp only [State.target, hki, Option.map_some, kind, h2, g1, Res.map_ok]⟩
  | two i =>
    have hki := hk i
    simp only [own] at h1
    cases hi : σ i with
    | none => simp [hi, own2] at h1
    | some o =>
      rw [hi] at hki
      cases o with
      | expr o => simp [hi, own2] at h1
      | bin _ _ _ => exact ⟨⟨i, 1 :: ks⟩, rfl, by simp only [State.target, hki, Option.map_some, kind, h2, g1, Res.map_ok]⟩
      | un _ _ => simp [hi, own2] at h1

variable [DecidableEq ι] {who : Nat → Option ι} {t : ι}

/-- The pointer belongs to an object thread `t` may use. -/
def AllowedP (who : Nat → Option ι) (t : ι) (p : Ptr) : Prop := ∃ i, objOf p = some i ∧ Allowed who t i

open Classical in
/-- Its nodes. -/
noncomputable def fpOf (fp : Ptr → List Nat) (who : Nat → Option ι) (t : ι) (p : Ptr) : List Nat :=
  if AllowedP who t p then fp p else []

theorem own_part {σ : Store K} (p : Ptr) (hp : AllowedP who t p) : own (σ.part who t) p = own σ p := by
  obtain ⟨i, h1, h2⟩ := hp
  cases p with
  | one j => cases h1; simp [own, Store.part, h2]
  | two j => cases h1; simp [own, Store.part, h2]
  | tmp => cases h1

theorem own_part' {σ : Store K} (p : Ptr) (hp : ¬ AllowedP who t p) : own (σ.part who t) p = none := by
  cases p with
  | one j =>
    have : ¬ Allowed who t j := fun h => hp ⟨j, rfl, h⟩
    simp [own, Store.part, this, own1]
  | two j =>
    have : ¬ Allowed who t j := fun h => hp ⟨j, rfl, h⟩
    simp [own, Store.part, this, own2]
  | tmp => rfl

theorem sharedWith_ptr (s : State K) (p : Ptr) (hp : AllowedP who t p) : (sharedWith s who t).ptr p = s.ptr p := by
  obtain ⟨i, h1, h2⟩ := hp
  simp [sharedWith, h1, h2]

theorem sharedWith_ptr' (s : State K) (p : Ptr) (hp : ¬ AllowedP who t p) : (sharedWith s who t).ptr p = none := by
  unfold sharedWith
  simp only
  split
  · rename_i i h1
    exact if_neg fun h2 => hp ⟨i, h1, h2⟩
  · rfl

variable {s : State K} {σ : Store K} {fp : Ptr → List Nat} {G : List Nat}

omit [DecidableEq ι] in
theorem reached_iff (H : Inv fl s.heap s.ptr (own σ) fp G) (hk : Kinds s.objs σ) (a : Nat) :
    (∃ r, Allowed who t r.obj ∧ s.target r = .ok (.node a)) ↔ ∃ p, AllowedP who t p ∧ a ∈ fp p := by
  constructor
  · rintro ⟨r, h1, h2⟩
    obtain ⟨p, h3, h4⟩ := target_fp H h2
    exact ⟨p, ⟨_, h3, h1⟩, h4⟩
  · rintro ⟨p, ⟨i, h1, h2⟩, h3⟩
    obtain ⟨r, h4, h5⟩ := fp_target H hk h3
    rw [h1] at h4
    cases h4
    exact ⟨r, h2, h5⟩

omit [DecidableEq ι] in
theorem reached_cells (H : Inv fl s.heap s.ptr (own σ) fp G) (hk : Kinds s.objs σ) {n : Nat} {p : Ptr} {a : Nat}
    (hp : AllowedP who t p) (ha : a ∈ fp p) : (reached s who t n).cells a = s.heap.cells a :=
  if_pos ((reached_iff H hk a).2 ⟨p, hp, ha⟩)

omit [DecidableEq ι] in
theorem reached_only (H : Inv fl s.heap s.ptr (own σ) fp G) (hk : Kinds s.objs σ) {n : Nat} {a : Nat}
    (ha : (reached s who t n).cells a ≠ none) : ∃ p, AllowedP who t p ∧ a ∈ fp p := by
  refine (reached_iff H hk a).1 (Classical.byContradiction fun h => ha ?_)
  exact if_neg h

/-- What a thread sees is a state of its own. -/
theorem reached_rep (H : Inv fl s.heap s.ptr (own σ) fp G) (hk : Kinds s.objs σ) {n : Nat} (hn : s.heap.next ≤ n) :
    Inv fl (reached s who t n) (sharedWith s who t).ptr (own (σ.part who t)) (fpOf fp who t) [] ∧
      Kinds (sharedWith s who t).objs (σ.part who t) := by
  refine ⟨⟨?_, ?_, ?_, ?_, ?_, ?_, H.fails⟩, ?_⟩
  · intro a ha
    have : s.heap.cells a = none := H.wf a (Nat.le_trans hn ha)
    unfold reached
    simp only [this, ite_self]
  · intro p hp
    by_cases hA : AllowedP who t p
    · rw [own_part p hA] at hp
      obtain ⟨h1, h2⟩ := H.unset p hp
      exact ⟨by rw [sharedWith_ptr s p hA, h1], by simp [fpOf, hA, h2]⟩
    · exact ⟨sharedWith_ptr' s p hA, by simp [fpOf, hA]⟩
  · intro p e hp
    by_cases hA : AllowedP who t p
    · rw [own_part p hA] at hp
      obtain ⟨a, h1, h2⟩ := H.owns p e hp
      refine ⟨a, by rw [sharedWith_ptr s p hA, h1], ?_⟩
      rw [fpOf, if_pos hA]
      exact h2.mono _ fun b hb => reached_cells H hk hA hb
    · rw [own_part' p hA] at hp; cases hp
  · intro p
    rw [fpOf]
    split
    · exact H.nodup p
    · exact .nil
  · intro p q hpq b hb
    rw [fpOf] at hb ⊢
    split at hb
    · split
      · exact H.disj p q hpq b hb
      · exact List.not_mem_nil
    · cases hb
  · intro b hb
    obtain ⟨p, h1, h2⟩ := reached_only H hk hb
    exact .inr ⟨p, by rw [fpOf, if_pos h1]; exact h2⟩
  · intro i
    unfold sharedWith Store.part
    simp only
    split
    · exact hk i
    · rfl

/-! ### Reading in a larger memory -/

section
variable {h h' : Heap K}

theorem follow_mono (hc : ∀ a, h.cells a ≠ none → h'.cells a = h.cells a) : ∀ (ks : List Nat) {a b : Nat},
    follow h a ks = .ok b → follow h' a ks = .ok b
  | [], a, b, hf => hf
  | k :: ks, a, b, hf => by
    rw [follow] at hf ⊢
    cases hx : h.cells a with
    | none => rw [hx] at hf; cases hf
    | some c =>
      rw [hc a (by simp [hx]), hx]
      rw [hx] at hf
      simp only at hf ⊢
      cases hk : c.kids[k]? with
      | none => rw [hk] at hf; cases hf
      | some y => rw [hk] at hf; exact follow_mono hc ks hf

theorem loadN_mono (hc : ∀ a, h.cells a ≠ none → h'.cells a = h.cells a) : ∀ (n : Nat) {a : Nat} {e : Expr K},
    loadN h n a = .ok e → loadN h' n a = .ok e
  | 0, a, e, hl => by cases hl
  | n + 1, a, e, hl => by
    have key : ∀ (ks : List Nat) {es : List (Expr K)}, readEach (loadN h n) ks = .ok es → readEach (loadN h' n) ks = .ok es := by
      intro ks
      induction ks with
      | nil => intro es he; exact he
      | cons k ks ih =>
        intro es he
        rw [readEach] at he ⊢
        cases hk : loadN h n k with
        | ok x =>
          rw [hk] at he
          rw [loadN_mono hc n hk]
          simp only [Res.bind_ok] at he ⊢
          cases hks : readEach (loadN h n) ks with
          | ok xs => rw [hks] at he; rw [ih hks]; exact he
          | throw _ => rw [hks] at he; cases he
          | ub => rw [hks] at he; cases he
        | throw _ => rw [hk] at he; cases he
        | ub => rw [hk] at he; cases he
    rw [loadN] at hl ⊢
    cases hx : h.cells a with
    | none => rw [hx] at hl; cases hl
    | some c =>
      rw [hc a (by simp [hx]), hx]
      rw [hx] at hl
      simp only at hl ⊢
      cases hr : readEach (loadN h n) c.kids with
      | ok es => rw [hr] at hl; rw [key _ hr]; exact hl
      | throw _ => rw [hr] at hl; cases hl
      | ub => rw [hr] at hl; cases hl

theorem target_mono (l : Local) (hc : ∀ a, h.cells a ≠ none → h'.cells a = h.cells a) {r : Src} {x : Target}
    (ht : (l.state h).target r = .ok x) : (l.state h').target r = .ok x := by
  have key : ∀ a ks, (follow h a ks).map Target.node = .ok x → (follow h' a ks).map Target.node = .ok x := by
    intro a ks hf
    cases hfo : follow h a ks with
    | ok b => rw [follow_mono hc ks hfo]; rw [hfo] at hf; exact hf
    | throw _ => rw [hfo] at hf; cases hf
    | ub => rw [hfo] at hf; cases hf
  unfold State.target Local.state at ht ⊢
  simp only at ht ⊢
  split at ht
  · cases ht
  · split at ht
    all_goals first | exact key _ _ ht | (cases ht; done) | exact ht
  · split at ht
    · exact ht
    · split at ht
      · cases ht
      · exact key _ _ ht
    · split at ht
      · cases ht
      · exact key _ _ ht
    · cases ht
  · split at ht
    · exact ht
    · split at ht
      · cases ht
      · exact key _ _ ht
    · cases ht

theorem view_mono (l : Local) (hc : ∀ a, h.cells a ≠ none → h'.cells a = h.cells a) {r : Src} {e : Expr K}
    (hv : (l.state h).view r = .ok e) : (l.state h').view r = .ok e := by
  have hl : ∀ {a : Nat} {x : Expr K}, load a h = .ok x → load a h' = .ok x := fun hx => loadN_mono hc _ hx
  unfold State.view State.ref at hv ⊢
  cases ht : (l.state h).target r with
  | ok x =>
    rw [ht] at hv
    rw [target_mono l hc ht]
    cases x with
    | null => cases hv
    | node a => exact hl hv
    | binObj i =>
      simp only [Res.bind_ok] at hv ⊢
      have e1 : (l.state h').objs i = (l.state h).objs i := rfl
      have e2 : (l.state h').ptr = (l.state h).ptr := rfl
      rw [e1, e2]
      split at hv
      · simp only [Res.bind_ok] at hv ⊢
        rename_i op x y _ _ _
        cases h1 : load x (l.state h).heap with
        | ok u =>
          cases h2 : load y (l.state h).heap with
          | ok v =>
            rw [h1, h2] at hv
            rw [show load x (l.state h').heap = .ok u from hl h1, show load y (l.state h').heap = .ok v from hl h2]
            exact hv
          | throw _ => rw [h1, h2] at hv; cases hv
          | ub => rw [h1, h2] at hv; cases hv
        | throw _ => rw [h1] at hv; cases hv
        | ub => rw [h1] at hv; cases hv
      · cases hv
    | unObj i =>
      simp only [Res.bind_ok] at hv ⊢
      have e1 : (l.state h').objs i = (l.state h).objs i := rfl
      have e2 : (l.state h').ptr = (l.state h).ptr := rfl
      rw [e1, e2]
      split at hv
      · simp only [Res.bind_ok] at hv ⊢
        rename_i op x _ _
        cases h1 : load x (l.state h).heap with
        | ok u =>
          rw [h1] at hv
          rw [show load x (l.state h').heap = .ok u from hl h1]
          exact hv
        | throw _ => rw [h1] at hv; cases hv
        | ub => rw [h1] at hv; cases hv
      · cases hv
  | throw _ => rw [ht] at hv; cases hv
  | ub => rw [ht] at hv; cases hv

end

/-- An object as a whole is what its own reference refers to. -/
theorem target_whole {s : State K} {r : Src} {i : Nat}
    (hx : s.target r = .ok (.binObj i) ∨ s.target r = .ok (.unObj i)) : i = r.obj := by
  have key : ∀ t, s.target r = .ok t → t = .binObj i ∨ t = .unObj i → i = r.obj := by
    intro t hx ht
    have hn : ∀ y : Res Nat, y.map Target.node ≠ .ok t := by
      intro y hy
      cases y <;> cases hy
      rcases ht with ht | ht <;> cases ht
    unfold State.target at hx
    split at hx
    · cases hx
    · split at hx
      · cases hx; rcases ht with ht | ht <;> cases ht
      · cases hx
      · exact absurd hx (hn _)
    · split at hx
      · cases hx; rcases ht with ht | ht <;> cases ht; rfl
      · split at hx
        · cases hx
        · exact absurd hx (hn _)
      · split at hx
        · cases hx
        · exact absurd hx (hn _)
      · cases hx
    · split at hx
      · cases hx; rcases ht with ht | ht <;> cases ht; rfl
      · split at hx
        · cases hx
        · exact absurd hx (hn _)
      · cases hx
  rcases hx with hx | hx
  · exact key _ hx (.inl rfl)
  · exact key _ hx (.inr rfl)

/-- What is read through an object depends on its own pointers only. -/
theorem view_local {ptr ptr' : Ptr → Option Nat} {objs objs' : Nat → Option Kind} {h : Heap K} {r : Src}
    (h1 : ptr' (.one r.obj) = ptr (.one r.obj)) (h2 : ptr' (.two r.obj) = ptr (.two r.obj))
    (h3 : objs' r.obj = objs r.obj) : (State.mk h ptr' objs').view r = (State.mk h ptr objs).view r := by
  have ht : (State.mk h ptr' objs').target r = (State.mk h ptr objs).target r := by
    unfold State.target
    simp only [h1, h2, h3]
  unfold State.view State.ref
  rw [ht]
  cases hx : (State.mk h ptr objs).target r with
  | throw _ => rfl
  | ub => rfl
  | ok x =>
    cases x with
    | null => rfl
    | node a => rfl
    | binObj i =>
      obtain rfl := target_whole (.inl hx)
      simp only [Res.bind_ok, h1, h2, h3]
    | unObj i =>
      obtain rfl := target_whole (.inr hx)
      simp only [Res.bind_ok, h1, h3]

/-! ### All threads -/

/-- As long as the nodes of shared objects are unchanged, these show what they showed. -/
theorem shared_view (H : Inv fl s.heap s.ptr (own σ) fp G) (hk : Kinds s.objs σ) {c : Nat → Option (Cell K)}
    (hc : ∀ p i a, objOf p = some i → who i = none → a ∈ fp p → c a = s.heap.cells a) {r : Src} {e : Expr K} {n : Nat}
    (hr : who r.obj = none) (he : Spec.look σ r = some e) : (State.mk ⟨c, n, s.heap.fails⟩ s.ptr s.objs).view r = .ok e := by
  let who' : Nat → Option (Option ι) := fun i => (who i).map some
  have hA : ∀ i, Allowed who' none i ↔ who i = none := by
    intro i
    simp only [Allowed, who']
    cases who i <;> simp
  have hrep := reached_rep (who := who') (t := none) H hk (Nat.le_refl _)
  have hv := Rep.view (s := (sharedWith s who' none).state (reached s who' none s.heap.next)) (G := [])
    ⟨⟨_, hrep.1⟩, hrep.2⟩ r
  have hl : Spec.look (σ.part who' none) r = some e := by
    rw [← he]
    unfold Spec.look Store.part
    rw [if_pos ((hA _).2 hr)]
  rw [hl] at hv
  have h2 := view_mono (sharedWith s who' none) (h' := ⟨c, n, s.heap.fails⟩) (fun a ha => ?_) hv
  · rw [← h2]
    refine view_local ?_ ?_ ?_
    · exact (sharedWith_ptr s _ ⟨_, rfl, (hA _).2 hr⟩).symm
    · exact (sharedWith_ptr s _ ⟨_, rfl, (hA _).2 hr⟩).symm
    · exact (if_pos ((hA _).2 hr)).symm
  · obtain ⟨p, ⟨i, h3, h4⟩, h5⟩ := reached_only H hk ha
    rw [reached_cells H hk ⟨i, h3, h4⟩ h5]
    exact hc p i a h3 ((hA i).1 h4) h5

/-- Threads that work on objects of their own and only read the shared ones: whatever the order of their accesses to
memory, each does what it does alone. -/
theorem threads_sim [Num K] (H : Rep fl s σ G) {P : ι → Client K} {ord : ι → Nat → Bool} {lo hi : ι → Nat}
    {code : ι → Code K Local} (hS : ∀ t, Safe (σ.part who t) (P t)) (hO : ∀ t, OnlyOn (fun i => who i = some t) (P t))
    (hN : Names s who ord P lo hi) (hC : ∀ t, Runs (ord t) (P t) (sharedWith s who t) (code t)) :
    ∃ (τ : ι → Store K) (l : ι → Local) (n : ι → Nat), (∀ t, Ran (σ.part who t) (P t) (τ t)) ∧
      ∀ ts : List ι, ∃ M, (started s lo code).exec ts = some M ∧ ¬ Race M ∧ Fresh M ∧
        (∀ r e k, who r.obj = none → Spec.look σ r = some e → (State.mk ⟨M.cells, k, s.heap.fails⟩ s.ptr s.objs).view r = .ok e) ∧
        ∀ t, n t ≤ ts.count t → (M.threads t).code = .done (l t) ∧ (∀ i, (l t).objs i = none ↔ τ t i = none) ∧
          ∀ r e, Spec.look (τ t) r = some e → ((l t).state ⟨M.cells, (M.threads t).next, M.fails⟩).view r = .ok e := by
  obtain ⟨⟨fp, H⟩, hk⟩ := H
  have hrep := fun t => reached_rep (who := who) (t := t) H hk (hN.unused t)
  have hsim := fun t => client_sim (o := ord t) (s := (sharedWith s who t).state (reached s who t (lo t)))
    (G := []) ⟨⟨_, (hrep t).1⟩, (hrep t).2⟩ (hS t)
  obtain ⟨s', hs'⟩ : ∃ s' : ι → State K, ∀ t, ∃ L τ, (P t).run (ord t) ((sharedWith s who t).state (reached s who t (lo t))) =
      .ok (s' t) ∧ Ran (σ.part who t) (P t) τ ∧ Rep fl (s' t) τ (L ++ []) :=
    ⟨fun t => Classical.choose (hsim t), fun t => Classical.choose_spec (hsim t)⟩
  obtain ⟨L, hL⟩ : ∃ L : ι → List Nat, ∀ t, ∃ τ, (P t).run (ord t) ((sharedWith s who t).state (reached s who t (lo t))) =
      .ok (s' t) ∧ Ran (σ.part who t) (P t) τ ∧ Rep fl (s' t) τ (L t ++ []) :=
    ⟨fun t => Classical.choose (hs' t), fun t => Classical.choose_spec (hs' t)⟩
  obtain ⟨τ, hτ⟩ : ∃ τ : ι → Store K, ∀ t, (P t).run (ord t) ((sharedWith s who t).state (reached s who t (lo t))) =
      .ok (s' t) ∧ Ran (σ.part who t) (P t) (τ t) ∧ Rep fl (s' t) (τ t) (L t ++ []) :=
    ⟨fun t => Classical.choose (hL t), fun t => Classical.choose_spec (hL t)⟩
  have hrun : ∀ t, (code t).run (reached s who t (lo t)) = some (⟨(s' t).ptr, (s' t).objs⟩, (s' t).heap) := by
    intro t
    rw [hC t, (hτ t).1]
  let S : Nat → Prop := fun a => ∃ p i, objOf p = some i ∧ who i = none ∧ a ∈ fp p
  let D : ι → Nat → Prop := fun t a => (∃ p i, objOf p = some i ∧ who i = some t ∧ a ∈ fp p) ∨ (lo t ≤ a ∧ a < hi t)
  have hlt : ∀ p a, a ∈ fp p → a < s.heap.next := fun p a ha => H.wf.lt (H.alloc ha)
  have hinj : ∀ p q a, a ∈ fp p → a ∈ fp q → p = q := fun p q a h1 h2 =>
    Classical.byContradiction fun h => H.disj p q h a h1 h2
  have hA : Areas S D := by
    constructor
    · rintro t a (⟨p, i, h1, h2, h3⟩ | ⟨h1, h2⟩) ⟨q, j, h4, h5, h6⟩
      · cases hinj p q a h3 h6
        rw [h1] at h4; cases h4
        rw [h2] at h5; cases h5
      · have := hlt q a h6
        have := hN.unused t
        omega
    · rintro t u a htu (⟨p, i, h1, h2, h3⟩ | ⟨h1, h2⟩) (⟨q, j, h4, h5, h6⟩ | ⟨h4, h5⟩)
      · cases hinj p q a h3 h6
        rw [h1] at h4; cases h4
        rw [h2] at h5; cases h5
        exact htu rfl
      · have := hlt p a h3
        have := hN.unused u
        omega
      · have := hlt q a h6
        have := hN.unused t
        omega
      · rcases hN.disjoint t u htu with h | h <;> omega
  have hstart : ∀ t, Alone S D (started s lo code) t ⟨(s' t).ptr, (s' t).objs⟩ (s' t).heap
      ((code t).steps (reached s who t (lo t))) (reached s who t (lo t)) := by
    intro t
    refine ⟨rfl, rfl, ?_, ?_, ?_, hrun t, ?_, ?_, Nat.le_refl _, (hrep t).1.wf⟩
    · rintro a (⟨p, i, h1, h2, h3⟩ | ⟨p, i, h1, h2, h3⟩ | ⟨h1, h2⟩)
      · exact (reached_cells H hk ⟨i, h1, .inl h2⟩ h3).symm
      · exact (reached_cells H hk ⟨i, h1, .inr h2⟩ h3).symm
      · have h3 : s.heap.cells a = none := H.wf a (Nat.le_trans (hN.unused t) h1)
        exact h3.trans ((hrep t).1.wf a h1).symm
    · intro a ha
      obtain ⟨p, ⟨i, h1, h2 | h2⟩, h3⟩ := reached_only H hk ha
      · exact .inl ⟨p, i, h1, h2, h3⟩
      · exact .inr (.inl ⟨p, i, h1, h2, h3⟩)
    · rintro a ⟨p, i, h1, h2, h3⟩
      exact Nat.lt_of_lt_of_le (hlt p a h3) (hN.unused t)
    · intro a h1 h2
      exact .inr ⟨h1, Nat.lt_of_lt_of_le h2 (hN.enough t _ (hτ t).1)⟩
    · -- the shared trees are still there, so they are as they were
      rintro a ⟨p, i, h1, h2, h3⟩
      have hp : AllowedP who t p := ⟨i, h1, .inl h2⟩
      have hne : ∀ j, objOf p = some j → ¬ who j = some t := by
        intro j hj; rw [h1] at hj; cases hj; rw [h2]; simp
      have hptr : (s' t).ptr p = (sharedWith s who t).ptr p :=
        Keeps.client hne (by rintro rfl; cases h1) (P t) (hO t) (hτ t).1
      cases hA : own σ p with
      | none => rw [(H.unset p hA).2] at h3; cases h3
      | some e =>
        obtain ⟨x, h4, h5⟩ := H.owns p e hA
        obtain ⟨⟨fp', H'⟩, -⟩ := (hτ t).2.2
        have hA' : own (τ t) p = some e := by
          have hτi : τ t i = σ i := by
            rw [ran_store (hτ t).2.1 (hO t) (i := i) (by rw [h2]; simp), Store.part, if_pos (.inl h2)]
          rw [← hA]
          cases p with
          | one j => cases h1; simp only [own, hτi]
          | two j => cases h1; simp only [own, hτi]
          | tmp => cases h1
        obtain ⟨y, h6, h7⟩ := H'.owns p e hA'
        rw [hptr, sharedWith_ptr s p hp, h4] at h6
        cases h6
        have h8 : Own (reached s who t (lo t)).cells x e (fp p) := h5.mono _ fun b hb => reached_cells H hk hp hb
        exact own_same e h8 h7 (fun b hb => (Code.run_old (hrun t)).2.2 b
          (Nat.lt_of_lt_of_le (hlt p b hb) (hN.unused t))) a h3
  refine ⟨τ, fun t => ⟨(s' t).ptr, (s' t).objs⟩, fun t => (code t).steps (reached s who t (lo t)), fun t => (hτ t).2.1,
    fun ts => ?_⟩
  obtain ⟨M, h1, e1, e2⟩ := Alone.exec hA ts hstart
  have hrace : ¬ Race M := by
    rintro ⟨t, u, a, w, htu, g1, g2⟩
    have g3 := ((e2 t).access g1).2 rfl
    rcases ((e2 u).access g2).1 with h | h
    · exact hA.shared t a g3 h
    · exact hA.disj t u a htu g3 h
  refine ⟨M, e1, hrace, fun t _ _ hc => (e2 t).unused hc, fun r e k hr he => shared_view H hk (fun p i a g1 g2 g3 => ?_) hr he, fun t ht => ?_⟩
  · have hSa : S a := ⟨p, i, g1, g2, g3⟩
    cases ts with
    | nil => cases e1; rfl
    | cons t ts =>
      have hfin := e2 t
      rw [hfin.same a (.inl hSa), ← hfin.keep a hSa, (hstart t).keep a hSa]
      exact ((hstart t).same a (.inl hSa)).symm
  have hfin := e2 t
  have hz : (M.threads t).code.steps (h1 t) = 0 := by have := hfin.steps; simp only at ht; omega
  obtain ⟨hdone, hheap⟩ := Code.steps_zero hfin.run hz
  refine ⟨hdone, fun i => by simp only [(hτ t).2.2.2 i, Option.map_eq_none_iff], fun r e hr => ?_⟩
  have hv := (hτ t).2.2.view r
  rw [hr] at hv
  refine view_mono _ (h := (s' t).heap) (fun a ha => ?_) hv
  have : h1 t = (s' t).heap := hheap
  rw [← this] at ha ⊢
  exact hfin.same a (hfin.only a ha)

/-! ### Names and single threads -/

/-- Names for threads, one after the other. -/
noncomputable def nameFrom [Num K] (s : State K) (who : Nat → Option ι) (ord : ι → Nat → Bool) (P : ι → Client K)
    (dec : Nat → Option ι) : Nat → Nat
  | 0 => s.heap.next
  | k + 1 => match dec k with
    | none => nameFrom s who ord P dec k
    | some t => match (P t).run (ord t) ((sharedWith s who t).state (reached s who t (nameFrom s who ord P dec k))) with
      | .ok s' => max (nameFrom s who ord P dec k) s'.heap.next
      | _ => nameFrom s who ord P dec k

theorem nameFrom_succ [Num K] (s : State K) (who : Nat → Option ι) (ord : ι → Nat → Bool) (P : ι → Client K)
    (dec : Nat → Option ι) (k : Nat) : nameFrom s who ord P dec k ≤ nameFrom s who ord P dec (k + 1) := by
  rw [nameFrom]
  split
  · exact Nat.le_refl _
  · split
    · exact Nat.le_max_left _ _
    · exact Nat.le_refl _

theorem nameFrom_mono [Num K] (s : State K) (who : Nat → Option ι) (ord : ι → Nat → Bool) (P : ι → Client K)
    (dec : Nat → Option ι) {j k : Nat} (h : j ≤ k) : nameFrom s who ord P dec j ≤ nameFrom s who ord P dec k := by
  induction h with
  | refl => exact Nat.le_refl _
  | step _ ih => exact Nat.le_trans ih (nameFrom_succ _ _ _ _ _ _)

theorem names_exist [Num K] (s : State K) (who : Nat → Option ι) (ord : ι → Nat → Bool) (P : ι → Client K)
    {enc : ι → Nat} {dec : Nat → Option ι} (hd : ∀ t, dec (enc t) = some t) : ∃ lo hi, Names s who ord P lo hi := by
  refine ⟨fun t => nameFrom s who ord P dec (enc t), fun t => nameFrom s who ord P dec (enc t + 1), ?_, ?_, ?_⟩
  · exact fun t => nameFrom_mono s who ord P dec (Nat.zero_le _)
  · intro t s' hs
    simp only [nameFrom, hd, hs]
    exact Nat.le_max_right _ _
  · intro t u htu
    have hne : enc t ≠ enc u := by
      intro h
      have := hd t
      rw [h, hd u] at this
      exact htu (Option.some.inj this).symm
    rcases Nat.lt_or_gt_of_ne hne with h | h
    · exact .inl (nameFrom_mono s who ord P dec h)
    · exact .inr (nameFrom_mono s who ord P dec h)

theorem Machine.exec_append {β : Type} (M : Machine ι K β) (ts us : List ι) :
    M.exec (ts ++ us) = (M.exec ts).bind fun M' => M'.exec us := by
  induction ts generalizing M with
  | nil => rfl
  | cons t ts ih =>
    simp only [List.cons_append, Machine.exec]
    cases M.step t with
    | none => rfl
    | some M' => exact ih M'

/-- `n` steps of thread `t` alone lead to `r`. -/
def Machine.Gets {β : Type} (M : Machine ι K β) (t : ι) (n : Nat) : Option (β × Heap K) → Prop
  | none => M.exec (List.replicate n t) = none
  | some r => ∃ M', M.exec (List.replicate n t) = some M' ∧ M'.cells = r.2.cells ∧ M'.fails = M.fails ∧
    ∀ u, u ≠ t → M'.threads u = M.threads u

/-- If only one thread makes steps, it gets where it gets alone. -/
theorem Machine.exec_alone {β : Type} {t : ι} (c : Code K β) : ∀ (M : Machine ι K β), (M.threads t).code = c →
    ∃ n, M.Gets t n (c.run ⟨M.cells, (M.threads t).next, M.fails⟩) := by
  have none' : ∀ {M : Machine ι K β} {r : Option (β × Heap K)},
      (M.threads t).code.step ⟨M.cells, (M.threads t).next, M.fails⟩ = none → r = none → ∃ n, M.Gets t n r := by
    rintro M r hs rfl
    refine ⟨1, ?_⟩
    simp only [Machine.Gets, List.replicate, Machine.exec, Machine.step, hs, Option.map_none, Option.bind_none]
  have more : ∀ {M : Machine ι K β} {d : Code K β} {h' : Heap K} {r : Option (β × Heap K)},
      (M.threads t).code.step ⟨M.cells, (M.threads t).next, M.fails⟩ = some (d, h') → h'.fails = M.fails →
      r = d.run h' →
      (∀ M : Machine ι K β, (M.threads t).code = d → ∃ n, M.Gets t n (d.run ⟨M.cells, (M.threads t).next, M.fails⟩)) →
      ∃ n, M.Gets t n r := by
    intro M d h' r hs hf hr ih
    obtain ⟨n, hn⟩ := ih ⟨h'.cells, M.fails, fun u => if u = t then ⟨d, h'.next⟩ else M.threads u⟩ (by simp)
    have e : (⟨h'.cells, h'.next, M.fails⟩ : Heap K) = h' := by rw [← hf]
    simp only [if_true, e] at hn
    rw [← hr] at hn
    refine ⟨n + 1, ?_⟩
    have one : M.exec (List.replicate (n + 1) t) =
        Machine.exec ⟨h'.cells, M.fails, fun u => if u = t then ⟨d, h'.next⟩ else M.threads u⟩ (List.replicate n t) := by
      simp only [List.replicate, Machine.exec, Machine.step, hs, Option.map_some, Option.bind_some]
    cases r with
    | none => exact one.trans hn
    | some r =>
      obtain ⟨M', g1, g2, g3, g4⟩ := hn
      exact ⟨M', one.trans g1, g2, g3, fun u hu => by rw [g4 u hu]; exact if_neg hu⟩
  induction c with
  | done b => exact fun M _ => ⟨0, M, rfl, rfl, rfl, fun _ _ => rfl⟩
  | undefined => exact fun M hM => none' (by rw [hM]; rfl) rfl
  | read a k ih =>
    intro M hM
    cases hc : M.cells a with
    | none => exact none' (by rw [hM]; simp [Code.step, hc]) (by simp only [Code.run, hc])
    | some x =>
      exact more (h' := ⟨M.cells, (M.threads t).next, M.fails⟩) (by rw [hM]; simp only [Code.step, hc, Option.map_some])
        rfl (by simp only [Code.run, hc]) (ih x)
  | new c k ih =>
    intro M hM
    by_cases hf : M.fails (M.threads t).next = true
    · exact more (h' := ⟨M.cells, (M.threads t).next + 1, M.fails⟩) (by rw [hM]; simp only [Code.step, hf, if_true]) rfl
        (by simp only [Code.run, hf, if_true]) (ih none)
    · exact more (h' := Heap.give ⟨M.cells, (M.threads t).next, M.fails⟩ c) (by rw [hM]; simp only [Code.step, if_neg hf]; rfl)
        (by simp) (by simp only [Code.run, if_neg hf]) (ih _)
  | free a k ih =>
    intro M hM
    cases hc : M.cells a with
    | none => exact none' (by rw [hM]; simp [Code.step, hc]) (by simp only [Code.run, hc])
    | some x =>
      exact more (h' := ⟨fun b => if b = a then none else M.cells b, (M.threads t).next, M.fails⟩)
        (by rw [hM]; simp only [Code.step, hc, Option.map_some]) rfl (by simp only [Code.run, hc]) ih

end VM
