import Mathlib.Data.List.Forall2
import Verif.Rt.HeapLemmas
import Verif.Rt.SubstLemmas
import Verif.Spec.Heap
/-
What the functions of `HeapAlg` do in memory, compared with the functions on expressions.
-/
namespace VM
variable {K : Type}
open Act Run

/-- How a call ended that started with the heap `h` and should give `r`.
* A value: its nodes `F` are new, nothing else is allocated that was not before except `L`, and this only if
  leaks are admitted (`Lk`).
* An exception: only possible if `r` is not a value, or if there is no memory; what is left behind is allocated
  since then.
* Undefined behaviour: only possible if `r` is not a value, and if that is admitted (`U`). -/
inductive Ends (U Lk : Prop) (h : Heap K) (r : Res (Expr K)) : Out (Heap K) Nat → Prop
  | ok {e a h' F L} : r = .ok e → Own h'.cells a e F → Adds h h' (F ++ L) → (Lk ∨ L = []) → Ends U Lk h r (.ok a h')
  | throw {x h' L} : (∀ e, r ≠ .ok e) ∨ x = .badAlloc ∧ h.Scarce h' → Adds h h' L → Ends U Lk h r (.throw x h')
  | ub : (∀ e, r ≠ .ok e) → U → Ends U Lk h r .ub

/-- As `Ends`, for a list of trees. -/
inductive EndsL (U Lk : Prop) (h : Heap K) (r : Res (List (Expr K))) : Out (Heap K) (List Nat) → Prop
  | ok {es ks h' F L} : r = .ok es → OwnL h'.cells ks es F → Adds h h' (F ++ L) → (Lk ∨ L = []) →
      EndsL U Lk h r (.ok ks h')
  | throw {x h' L} : (∀ e, r ≠ .ok e) ∨ x = .badAlloc ∧ h.Scarce h' → Adds h h' L → EndsL U Lk h r (.throw x h')
  | ub : (∀ e, r ≠ .ok e) → U → EndsL U Lk h r .ub

/-- In `h`, and whenever no more than new nodes have been added to `h`, the call `m` gives `r`. -/
def Makes (U Lk : Prop) (h : Heap K) (r : Res (Expr K)) (m : Act K Nat) : Prop :=
  ∀ h1 A, Adds h h1 A → Ends U Lk h1 r (m h1)

/-- Proves that two concatenations have the same parts. -/
macro "perm_parts" : tactic =>
  `(tactic| (rw [List.perm_iff_count]; intro _; simp only [List.count_append, List.count_nil]; omega))

variable {U Lk : Prop} {h h0 h1 h2 h3 : Heap K} {r s : Res (Expr K)} {m f g : Act K Nat} {a : Nat} {e : Expr K}
  {F A B L : List Nat}

theorem Makes.adds (hm : Makes U Lk h r m) (E : Adds h h1 A) : Makes U Lk h1 r m :=
  fun _ _ E' => hm _ _ (E.trans E')

/-- A call in the middle of a computation that started with `h1`. -/
theorem Makes.step' (hm : Makes U Lk h0 r m) (E : Adds h0 h2 B) (E1 : Adds h1 h2 A) {k : Nat → Act K Nat}
    (fail : (∀ e, r ≠ .ok e) → ∀ e, s ≠ .ok e)
    (hk : ∀ a e F L h3, r = .ok e → Own h3.cells a e F → Adds h2 h3 (F ++ L) → (Lk ∨ L = []) →
      Ends U Lk h1 s (k a h3)) : Ends U Lk h1 s ((m >>= k) h2) := by
  have := hm _ _ E
  revert this
  cases hm2 : m h2 with
  | ok a h3 =>
    rintro (⟨h4, h5, h6, h7⟩)
    rw [bind_ok hm2]
    exact hk _ _ _ _ _ h4 h5 h6 h7
  | throw x h3 =>
    rintro (_ | ⟨h4, h5⟩)
    rw [bind_throw hm2]
    exact .throw (h4.imp fail fun h => ⟨h.1, E1.scarce h.2⟩) (E1.trans h5)
  | ub =>
    rintro (_ | _ | ⟨h4, h5⟩)
    rw [bind_ub hm2]
    exact .ub (fail h4) h5

theorem Makes.step (hm : Makes U Lk h0 r m) (E : Adds h0 h1 B) (E1 : Adds h1 h2 A) {k : Nat → Act K Nat}
    (fail : (∀ e, r ≠ .ok e) → ∀ e, s ≠ .ok e)
    (hk : ∀ a e F L h3, r = .ok e → Own h3.cells a e F → Adds h2 h3 (F ++ L) → (Lk ∨ L = []) →
      Ends U Lk h1 s (k a h3)) : Ends U Lk h1 s ((m >>= k) h2) :=
  hm.step' (E.trans E1) E1 fail hk

/-- Deleting, in the middle of a computation, a tree made since its start. -/
theorem Adds.del (E : Adds h h1 A) (H : Own h1.cells a e F) (hp : A.Perm (F ++ B)) :
    VM.delete a h1 = .ok () (h1.free F) ∧ Adds h (h1.free F) B ∧
      ∀ {a' e' F'}, Own h1.cells a' e' F' → (∀ b ∈ F', b ∈ B) → Own (h1.free F).cells a' e' F' := by
  have E' := E.perm hp
  obtain ⟨d1, d2⟩ := E'.delete H
  exact ⟨d1, d2, fun h hb => h.free fun b h1 h2 => (List.nodup_append.1 E'.nodup).2.2 b h2 b (hb b h1) rfl⟩

theorem Makes.conv (hm : Makes U Lk h r m) (hr : r = s) : Makes U Lk h s m := hr ▸ hm

theorem or_nil (h : Lk ∨ A = []) (h' : Lk ∨ B = []) : Lk ∨ A ++ B = [] := by
  rcases h with h | rfl
  · exact .inl h
  · simpa using h'

theorem new_ends {ks : List Nat} (E : Adds h h1 (A ++ L)) (H : OwnL h1.cells ks e.operands A) (hL : Lk ∨ L = []) :
    Ends U Lk h (.ok e) (new e.label ks h1) := by
  rcases new_eq (h := h1) e.label ks with hn | ⟨hn, hs⟩
  · rw [hn]
    exact .ok rfl (Heap.put_own E.wf' H)
      ((E.trans (Heap.put_adds E.wf' _ _)).perm (by simpa using List.perm_append_comm (l₁ := A ++ L) (l₂ := [h1.next])))
      hL
  · rw [hn]
    exact .throw (.inr ⟨rfl, E.scarce hs⟩) (E.trans (Heap.skip_adds E.wf'))

theorem cloneN_ends (e : Expr K) : ∀ {n a F} {h : Heap K}, h.WF → a < n → Own h.cells a e F →
    Ends U Lk h (.ok e) (cloneN n a h) := by
  induction e using Expr.ind' with
  | h e ih =>
    intro n a F h hw hn H
    obtain ⟨n, rfl⟩ : ∃ m, n = m + 1 := ⟨n - 1, by omega⟩
    have key : ∀ es : List (Expr K), (∀ k ∈ es, k ∈ e.operands) → ∀ {ks F} {h : Heap K}, h.WF →
        OwnL h.cells ks es F → (∀ b ∈ F, b < n) → EndsL U Lk h (.ok es) (each (cloneN n) ks h) := by
      intro es
      induction es with
      | nil => intro _ ks F h hw H _; cases H; exact .ok (L := []) rfl .nil (.refl hw) (.inr rfl)
      | cons x es ihs =>
        intro hm ks F h hw H hb
        cases H with
        | @cons k _ F1 ks _ F2 h1 h2 =>
          have r0 := ih x (hm x (by simp)) hw (hb _ (by simp [h1.root_mem])) h1
          revert r0
          rw [each]
          cases hr : cloneN n k h with
          | ok a' h' =>
            rintro (@⟨_, _, _, F', L', r1, r2, r3, r4⟩)
            cases r1
            rw [bind_ok hr]
            have s0 := ihs (fun k hk => hm k (by simp [hk])) r3.wf' (h2.adds r3) fun b hb' => hb b (by simp [hb'])
            revert s0
            cases hs : each (cloneN n) ks h' with
            | ok ks' h'' =>
              rintro (@⟨_, _, _, G', M', s1, s2, s3, s4⟩)
              cases s1
              rw [bind_ok hs]
              exact .ok rfl (.cons (r2.adds s3) s2)
                ((r3.trans s3).perm (B := F' ++ G' ++ (L' ++ M')) (by perm_parts)) (or_nil r4 s4)
            | throw y h'' =>
              rintro (_ | ⟨s1, s2⟩)
              rw [bind_throw hs]
              exact .throw (s1.imp (fun h => absurd rfl (h _)) fun h => ⟨h.1, r3.scarce h.2⟩) (r3.trans s2)
            | ub => rintro (_ | _ | ⟨s1, s2⟩); exact absurd rfl (s1 _)
          | throw y h' =>
            rintro (_ | ⟨r1, r2⟩)
            rw [bind_throw hr]
            exact .throw (r1.imp (fun h => absurd rfl (h _)) id) r2
          | ub => rintro (_ | _ | ⟨r1, r2⟩); exact absurd rfl (r1 _)
    obtain ⟨ks, G, c1, c2, rfl, c3⟩ := cell_own H
    have r0 := key _ (fun _ h => h) hw c2 fun b hb => by have := c3 b hb; omega
    revert r0
    rw [cloneN, bind_ok c1]
    cases hr : each (cloneN n) ks h with
    | ok ks' h' =>
      rintro (@⟨_, _, _, F', L', r1, r2, r3, r4⟩)
      cases r1
      rw [bind_ok hr]
      exact new_ends r3 r2 r4
    | throw y h' =>
      rintro (_ | ⟨r1, r2⟩)
      rw [bind_throw hr]
      exact .throw (r1.imp (fun h => absurd rfl (h _)) id) r2
    | ub => rintro (_ | _ | ⟨r1, r2⟩); exact absurd rfl (r1 _)

/-- `ptr->clone()` -/
theorem clone_makes (H : Own h.cells a e F) : Makes U Lk h (.ok e) (clone a) := fun _ _ E =>
  cloneN_ends e E.wf' (Nat.lt_succ_self a) (H.adds E)

/-- A scope that owns trees made since the start of the computation. -/
theorem Makes.owning [Num K] {as : List Nat} {es : List (Expr K)} (hm : Makes U Lk h0 r m) (E : Adds h0 h2 B)
    (E1 : Adds h1 h2 A) (H : OwnL h2.cells as es F) {C : List Nat} (hp : A.Perm (F ++ C)) {k : Nat → Act K Nat}
    (fail : (∀ e, r ≠ .ok e) → ∀ e, s ≠ .ok e)
    (hk : ∀ a e F L h3, r = .ok e → Own h3.cells a e F → Adds h2 h3 (F ++ L) → (Lk ∨ L = []) →
      Ends U Lk h1 s (k a h3)) : Ends U Lk h1 s ((VM.owning as m >>= k) h2) := by
  have := hm _ _ E
  revert this
  cases hm2 : m h2 with
  | ok a h3 =>
    rintro (⟨h4, h5, h6, h7⟩)
    rw [bind_ok (show VM.owning as m h2 = .ok a h3 by simp only [VM.owning, hm2])]
    exact hk _ _ _ _ _ h4 h5 h6 h7
  | throw x h3 =>
    rintro (_ | @⟨_, _, L', h4, h5⟩)
    have E3 := (E1.trans h5).perm (B := F ++ (C ++ L')) (by rw [← List.append_assoc]; exact hp.append_right _)
    obtain ⟨u, hu⟩ := each_delete_own (H.adds h5) (List.nodup_append.1 E3.nodup).1
    rw [bind_throw (show VM.owning as m h2 = .throw x (h3.free F) by simp only [VM.owning, hm2, hu])]
    exact .throw (h4.imp fail fun h => ⟨h.1, E1.scarce h.2⟩) E3.free
  | ub =>
    rintro (_ | _ | ⟨h4, h5⟩)
    rw [bind_ub (show VM.owning as m h2 = .ub by simp only [VM.owning, hm2])]
    exact .ub (fail h4) h5

/-- One tree. -/
theorem Own.one {c : Nat → Option (Cell K)} (H : Own c a e F) : OwnL c [a] [e] F := by
  have := OwnL.cons H .nil
  rwa [List.append_nil] at this

theorem newConst_makes (c : K) : Makes U Lk h (.ok (.const c)) (newConst c) := by
  intro h1 A E
  exact new_ends (e := .const c) (A := []) (L := []) (.refl E.wf') .nil (.inr rfl)

theorem newUn_makes [Num K] {op : UOp} (hf : Makes U Lk h r f) :
    Makes U Lk h (r.map (.un op)) (newUn op f) := by
  intro h1 A E
  refine hf.step E (.refl E.wf') (by rintro hr e; cases r <;> simp_all) ?_
  intro a e F L h3 h4 h5 h6 h7
  subst h4
  have := OwnL.cons h5 .nil
  rw [List.append_nil] at this
  exact new_ends (e := .un op e) h6 this h7

theorem newBin_makes [Num K] {op : BOp} {b : Bool} (hf : Makes U Lk h r f) (hg : Makes U Lk h s g) :
    Makes U Lk h (r.bind fun l => s.map (.bin op l)) (newBin b op f g) := by
  intro h1 A E
  cases b
  · refine hg.step E (.refl E.wf') (by rintro hr e; cases r <;> cases s <;> simp_all) ?_
    intro a2 e2 F2 L2 h3 g4 g5 g6 g7
    refine hf.step E g6 (by rintro hr e; cases r <;> simp_all) ?_
    intro a1 e1 F1 L1 h4 i4 i5 i6 i7
    subst g4 i4
    have := OwnL.cons i5 (OwnL.cons (g5.adds i6) .nil)
    rw [List.append_nil] at this
    refine new_ends (e := .bin op e1 e2) (L := L2 ++ L1) ((g6.trans i6).perm ?_) this (or_nil g7 i7)
    perm_parts
  · refine hf.step E (.refl E.wf') (by rintro hr e; cases r <;> simp_all) ?_
    intro a1 e1 F1 L1 h4 i4 i5 i6 i7
    refine hg.step E i6 (by rintro hr e; cases r <;> cases s <;> simp_all) ?_
    intro a2 e2 F2 L2 h3 g4 g5 g6 g7
    subst g4 i4
    have := OwnL.cons (i5.adds g6) (OwnL.cons g5 .nil)
    rw [List.append_nil] at this
    refine new_ends (e := .bin op e1 e2) (L := L2 ++ L1) ((i6.trans g6).perm ?_) this (or_nil g7 i7)
    perm_parts
theorem newInteg_makes [Num K] {b : Bool} {lo hi x : Nat} {l u : Expr K} {Fl Fu : List Nat}
    (hl : Own h.cells lo l Fl) (hu : Own h.cells hi u Fu) (hf : Makes U Lk h r f) :
    Makes U Lk h (r.map (.integ l u x)) (newInteg b lo hi x f) := by
  intro h1 A E
  cases b
  · refine (clone_makes hl).step E (.refl E.wf') (fun h => absurd rfl (h _)) ?_
    intro a1 e1 F1 L1 h3 i4 i5 i6 i7
    refine (clone_makes hu).step E i6 (fun h => absurd rfl (h _)) ?_
    intro a2 e2 F2 L2 h4 j4 j5 j6 j7
    refine hf.step E (i6.trans j6) (by rintro hr e; cases r <;> simp_all) ?_
    intro a3 e3 F3 L3 h5 k4 k5 k6 k7
    cases i4; cases j4; subst k4
    have := OwnL.cons ((i5.adds j6).adds k6) (OwnL.cons (j5.adds k6) (OwnL.cons k5 .nil))
    rw [List.append_nil] at this
    exact new_ends (e := .integ l u x e3) (L := L1 ++ (L2 ++ L3)) (((i6.trans j6).trans k6).perm (by perm_parts)) this
      (or_nil i7 (or_nil j7 k7))
  · refine hf.step E (.refl E.wf') (by rintro hr e; cases r <;> simp_all) ?_
    intro a3 e3 F3 L3 h5 k4 k5 k6 k7
    refine (clone_makes hl).step E k6 (fun h => absurd rfl (h _)) ?_
    intro a1 e1 F1 L1 h3 i4 i5 i6 i7
    refine (clone_makes hu).step E (k6.trans i6) (fun h => absurd rfl (h _)) ?_
    intro a2 e2 F2 L2 h4 j4 j5 j6 j7
    cases i4; cases j4; subst k4
    have := OwnL.cons (i5.adds j6) (OwnL.cons j5 (OwnL.cons ((k5.adds i6).adds j6) .nil))
    rw [List.append_nil] at this
    exact new_ends (e := .integ l u x e3) (L := L1 ++ (L2 ++ L3)) (((k6.trans i6).trans j6).perm (by perm_parts)) this
      (or_nil i7 (or_nil j7 k7))

/-- Copy the tree at `a`, made since `h`, then delete it. -/
theorem copy_delete [Num K] (E : Adds h h1 (F ++ L)) (H : Own h1.cells a e F) (hL : Lk ∨ L = []) :
    Ends U Lk h (.ok e) ((do let b ← VM.owning [a] (clone a); delete a; pure b : Act K Nat) h1) := by
  refine (clone_makes H).owning (.refl E.wf') E H.one (.refl _) (fun h => absurd rfl (h _)) ?_
  intro a' e' F' L' h' h2 h3 h4 h5
  cases h2
  obtain ⟨d1, d2, d3⟩ := (E.trans h4).del (B := F' ++ (L ++ L')) (H.adds h4) (by perm_parts)
  rw [bind_ok d1]
  exact .ok rfl (d3 h3 (by simp +contextual)) d2 (or_nil hL h5)

theorem viaTemp_makes [Num K] (hf : Makes U Lk h r f) : Makes U Lk h r (viaTemp f) := by
  intro h1 A E
  refine hf.step E (.refl E.wf') (fun h => h) ?_
  intro a e F L h3 h4 h5 h6 h7
  subst h4
  exact copy_delete h6 h5 h7

/-! ### Reading -/

variable [Num K]

omit [Num K] in
theorem ask_eq {β : Type} {q : Expr K → Res β} (H : Own h.cells a e F) (E : Adds h h1 A) :
    ask q a h1 = look (fun _ => q e) h1 := by
  simp only [ask, look, load_own (H.adds E), Res.bind_ok]

omit [Num K] in
/-- A call that begins with a question. -/
theorem Makes.ask {β : Type} {q : Expr K → Res β} {k : β → Act K Nat} {t : β → Res (Expr K)}
    (H : Own h.cells a e F) (hU : q e = .ub → U) (hk : ∀ v, q e = .ok v → Makes U Lk h (t v) (k v)) :
    Makes U Lk h ((q e).bind t) (ask q a >>= k) := by
  intro h1 A E
  have := ask_eq (q := q) H E
  cases hq : q e with
  | ok v =>
    rw [bind_ok (a := v) (s' := h1) (by rw [this]; simp only [look, hq])]
    exact hk v hq h1 A E
  | throw x =>
    rw [bind_throw (x := x) (s' := h1) (by rw [this]; simp only [look, hq])]
    exact .throw (.inl (by simp)) (.refl E.wf')
  | ub =>
    rw [bind_ub (by rw [this]; simp only [look, hq])]
    exact .ub (by simp) (hU hq)

omit [Num K] in
/-- A call that begins with `is_constant()`. -/
theorem Makes.askConst {k : Bool → Act K Nat} (H : Own h.cells a e F) (hk : Makes U Lk h r (k (isConst e))) :
    Makes U Lk h r (VM.askConst a >>= k) := by
  intro h1 A E
  rw [bind_ok (a := isConst e) (s' := h1) (by rw [VM.askConst, ask_eq H E]; rfl)]
  exact hk h1 A E

omit [Num K] in
/-- A call that begins by looking at a node. -/
theorem Makes.cell {k : Cell K → Act K Nat} (H : Own h.cells a e F)
    (hk : ∀ ks G, OwnL h.cells ks e.operands G → F = a :: G → (∀ b ∈ G, b < a) → Makes U Lk h r (k ⟨e.label, ks⟩)) :
    Makes U Lk h r (Act.cell a >>= k) := by
  intro h1 A E
  cases H with
  | @node _ _ ks G g1 g2 g3 =>
    have hw : Act.cell a h1 = .ok ⟨e.label, ks⟩ h1 := look_ok (by
      rw [E.keep (by rw [g1]; simp), g1])
    rw [bind_ok hw]
    exact hk ks G g2 rfl g3 h1 A E

omit [Num K] in
theorem look_makes (h : Heap K) (hU : r = .ub → U) (hr : ∀ e, r ≠ .ok e) {q : Res Nat} (hq : q = r.map fun _ => 0) :
    Makes U Lk h r (look fun _ => q) := by
  intro h1 A E
  subst hq
  cases r with
  | ok e => exact absurd rfl (hr e)
  | throw x => exact .throw (.inl hr) (.refl E.wf')
  | ub => exact .ub hr (hU rfl)

/-! ### Simplification -/

variable {o : Nat → Bool} {ks ls : List Nat} {es fs : List (Expr K)} {G : List Nat}

omit [Num K] in
theorem OwnL.length (H : OwnL h.cells ks es F) : ks.length = es.length := by
  induction es generalizing ks F with
  | nil => cases H; rfl
  | cons x es ih => cases H with | cons h1 h2 => simp [ih h2]

/-- The loop of the dot product; `acc` was made since `h0`. -/
theorem dotFromA_ends {h0 : Heap K} : ∀ {es fs : List (Expr K)} {ks ls F G : List Nat} {h1 : Heap K} {acc : Nat}
    {e : Expr K} {B L A : List Nat},
    OwnL h.cells ks es F → OwnL h.cells ls fs G → Adds h h0 A → Adds h0 h1 (B ++ L) → Own h1.cells acc e B →
    (Lk ∨ L = []) → Ends U Lk h0 (.ok (dotFrom e es fs)) (dotFromA o acc ks ls h1) := by
  intro es
  induction es with
  | nil =>
    intro fs ks ls F G h1 acc e B L A H1 H2 E E1 H3 hL
    cases H1
    rw [dotFromA.eq_2 _ _ _ _ (by simp), dotFrom.eq_2 _ _ _ (by simp)]
    exact .ok rfl H3 E1 hL
  | cons x es ih =>
    intro fs ks ls F G h1 acc e B L A H1 H2 E E1 H3 hL
    cases H1 with
    | @cons k _ F1 ks _ F2 a1 a2 =>
      cases H2 with
      | nil =>
        rw [dotFromA.eq_2 _ _ _ _ (by simp), dotFrom.eq_2 _ _ _ (by simp)]
        exact .ok rfl H3 E1 hL
      | @cons l y G1 ls fs G2 b1 b2 =>
        rw [dotFromA, dotFrom]
        -- the product
        have m1 : Makes U Lk h (.ok (.bin .mult x y)) (newBin (o k) .mult (clone k) (clone l)) :=
          newBin_makes (clone_makes a1) (clone_makes b1)
        refine m1.owning (E.trans E1) E1 H3.one (.refl _) (fun h => absurd rfl (h _)) ?_
        intro p e1 P L1 h2 c1 c2 c3 c4
        cases c1
        -- the sum
        have m2 : Makes U Lk h2 (.ok (.bin .plus e (.bin .mult x y))) (newBin (o p) .plus (clone acc) (clone p)) :=
          newBin_makes (clone_makes (H3.adds c3)) (clone_makes c2)
        refine m2.owning (.refl c3.wf') (E1.trans c3) (C := L ++ L1) (OwnL.cons c2 (H3.adds c3).one) (by perm_parts)
          (fun h => absurd rfl (h _)) ?_
        intro sm e2 S L2 h3 d1 d2 d3 d4
        cases d1
        refine (clone_makes d2).owning (.refl d3.wf') ((E1.trans c3).trans d3) (C := L ++ (L1 ++ L2))
          (OwnL.cons d2 (OwnL.cons (c2.adds d3) ((H3.adds c3).adds d3).one)) (by perm_parts)
          (fun h => absurd rfl (h _)) ?_
        intro acc' e3 C L3 h4 f1 f2 f3 f4
        cases f1
        have E4 := ((E1.trans c3).trans d3).trans f3
        obtain ⟨g1, g2, g3⟩ := E4.del (B := S ++ (P ++ (C ++ (L ++ (L1 ++ (L2 ++ L3)))))) (((H3.adds c3).adds d3).adds f3)
          (by perm_parts)
        rw [bind_ok g1]
        obtain ⟨i1, i2, i3⟩ := g2.del (g3 (d2.adds f3) (by simp +contextual)) (.refl _)
        rw [bind_ok i1]
        obtain ⟨j1, j2, j3⟩ := i2.del (i3 (g3 ((c2.adds d3).adds f3) (by simp +contextual)) (by simp +contextual)) (.refl _)
        rw [bind_ok j1]
        exact ih a2 b2 E j2 (j3 (i3 (g3 f2 (by simp +contextual)) (by simp +contextual)) (by simp +contextual))
          (or_nil hL (or_nil c4 (or_nil d4 f4)))

theorem dotA_makes (H1 : OwnL h.cells ks es F) (H2 : OwnL h.cells ls fs G) (hU : U) :
    Makes U Lk h (dot es fs) (dotA o ks ls) := by
  cases H1 with
  | nil => exact look_makes h (fun _ => hU) (by simp [dot]) rfl
  | @cons k x F1 ks es F2 a1 a2 =>
    cases H2 with
    | nil => exact look_makes h (fun _ => hU) (by simp [dot]) rfl
    | @cons l y G1 ls fs G2 b1 b2 =>
      rw [dotA, dot, a2.length, b2.length]
      by_cases hl : es.length = fs.length
      · rw [if_pos hl, if_pos hl]
        refine viaTemp_makes fun h1 A E => ?_
        have m1 : Makes U Lk h (.ok (.bin .mult x y)) (newBin (o k) .mult (clone k) (clone l)) :=
          newBin_makes (clone_makes a1) (clone_makes b1)
        refine m1.step E (.refl E.wf') (fun h => absurd rfl (h _)) ?_
        intro p e1 P L1 h2 c1 c2 c3 c4
        cases c1
        exact dotFromA_ends a2 b2 E c3 c2 c4
      · rw [if_neg hl, if_neg hl]
        exact look_makes h (fun _ => hU) (by simp) rfl

omit [Num K] in
theorem Makes.ite {b : Bool} {r r' : Res (Expr K)} {m m' : Act K Nat} (h1 : b = true → Makes U Lk h r m)
    (h2 : b = false → Makes U Lk h r' m') : Makes U Lk h (if b then r else r') (if b then m else m') := by
  cases b
  · exact h2 rfl
  · exact h1 rfl

omit [Num K] in
theorem newBin_const_l [Num K] {op : BOp} {b : Bool} {c : K} (hg : Makes U Lk h s g) :
    Makes U Lk h (s.map (.bin op (.const c))) (newBin b op (newConst c) g) :=
  newBin_makes (newConst_makes c) hg

omit [Num K] in
theorem newBin_const_r [Num K] {op : BOp} {b : Bool} {c : K} (hf : Makes U Lk h r f) :
    Makes U Lk h (r.map fun l => .bin op l (.const c)) (newBin b op f (newConst c)) :=
  newBin_makes hf (newConst_makes c)

theorem simpBinA_makes {b : Bool} {op : BOp} {l r : Nat} {x y : Expr K} {sl sr : Act K Nat} {rl rr : Res (Expr K)}
    (Hl : Own h.cells l x F) (Hr : Own h.cells r y G) (ml : Makes U Lk h rl sl) (mr : Makes U Lk h rr sr) (hU : U) :
    Makes U Lk h (simpBin op x y rl rr) (simpBinA o b op l r sl sr) := by
  cases op with
  | uid => exact newBin_makes (clone_makes Hl) (clone_makes Hr)
  | plus =>
    refine Makes.askConst Hl (.ite (fun _ => ?_) fun _ => .askConst Hr (.ite (fun _ => ?_) fun _ => newBin_makes ml mr))
    · exact .ask Hl (fun _ => hU) fun v _ => .ite (fun _ => mr) fun _ => newBin_const_l mr
    · exact .ask Hr (fun _ => hU) fun v _ => .ite (fun _ => ml) fun _ => newBin_const_r ml
  | minus =>
    refine Makes.askConst Hl (.ite (fun _ => ?_) fun _ => .askConst Hr (.ite (fun _ => ?_) fun _ => newBin_makes ml mr))
    · exact .ask Hl (fun _ => hU) fun v _ => .ite (fun _ => newBin_const_l mr) fun _ => newBin_const_l mr
    · exact .ask Hr (fun _ => hU) fun v _ => .ite (fun _ => ml) fun _ => newBin_const_r ml
  | div =>
    refine Makes.askConst Hl (.ite (fun _ => ?_) fun _ => .askConst Hr (.ite (fun _ => ?_) fun _ => newBin_makes ml mr))
    · exact .ask Hl (fun _ => hU) fun v _ => .ite (fun _ => newConst_makes _) fun _ => newBin_const_l mr
    · exact .ask Hr (fun _ => hU) fun v _ => .ite (fun _ => ml) fun _ => newBin_const_r ml
  | mult =>
    refine Makes.askConst Hl (.ite (fun _ => ?_) fun _ => .askConst Hr (.ite (fun _ => ?_) fun _ => ?_))
    · exact .ask Hl (fun _ => hU) fun v _ => .ite (fun _ => newConst_makes _) fun _ => .ite (fun _ => mr) fun _ =>
        newBin_const_l mr
    · exact .ask Hr (fun _ => hU) fun v _ => .ite (fun _ => newConst_makes _) fun _ => .ite (fun _ => ml) fun _ =>
        newBin_const_r ml
    · refine .cell Hl fun ks G1 o1 _ _ => .cell Hr fun ls G2 o2 _ _ => ?_
      cases x with
      | vec es =>
        cases y with
        | vec fs => exact dotA_makes o1 o2 hU
        | _ => exact newBin_makes ml mr
      | _ => exact newBin_makes ml mr

theorem simplifyN_makes (hU : U) (e : Expr K) : ∀ {n a F} {h : Heap K}, a < n → Own h.cells a e F →
    Makes U Lk h (simplify e) (simplifyN o n a) := by
  induction e using Expr.ind' with
  | h e ih =>
    intro n a F h hn H
    obtain ⟨n, rfl⟩ : ∃ m, n = m + 1 := ⟨n - 1, by omega⟩
    refine .cell H fun ks G H1 hF hlt => ?_
    have hk : ∀ k ∈ ks, k < n := fun k hk => by
      obtain ⟨x, -, Gx, g1, g2⟩ := H1.of_mem k hk
      have := hlt k (g2 k g1.root_mem); omega
    cases e with
    | const c => cases H1; exact clone_makes H
    | var c => cases H1; exact clone_makes H
    | fsym c t => cases H1; exact clone_makes H
    | vec es => exact clone_makes H
    | un op x =>
      cases H1 with
      | @cons k _ F1 ks _ F2 a1 a2 =>
      cases a2
      have ihx := ih x (by simp [Expr.operands]) (hk k (by simp)) a1
      rw [simplify]
      refine .askConst a1 (.ite (fun _ => ?_) fun _ => newUn_makes ihx)
      refine .ask a1 (fun _ => hU) fun v _ => .ite (fun _ => ?_) fun _ => newUn_makes (newConst_makes v)
      intro h1 A E
      cases applyU op v with
      | ok w => exact newConst_makes w h1 A E
      | throw x => exact .throw (.inl (by simp)) (.refl E.wf')
      | ub => exact .ub (by simp) hU
    | integ lo hi i x =>
      cases H1 with
      | @cons k1 _ F1 ks1 _ G1 a1 b1 =>
      cases b1 with
      | @cons k2 _ F2 ks2 _ G2 a2 b2 =>
      cases b2 with
      | @cons k3 _ F3 ks3 _ G3 a3 b3 =>
      cases b3
      have ihx := ih x (by simp [Expr.operands]) (hk k3 (by simp)) a3
      rw [simplify]
      refine .askConst a3 (.ite (fun _ => ?_) fun _ => newInteg_makes a1 a2 ihx)
      exact .ask a3 (fun _ => hU) fun v _ => newInteg_makes a1 a2 (newConst_makes v)
    | bin op x y =>
      cases H1 with
      | @cons k1 _ F1 ks1 _ G1 a1 b1 =>
      cases b1 with
      | @cons k2 _ F2 ks2 _ G2 a2 b2 =>
      cases b2
      have ihx := ih x (by simp [Expr.operands]) (hk k1 (by simp)) a1
      have ihy := ih y (by simp [Expr.operands]) (hk k2 (by simp)) a2
      rw [simplify]
      refine .askConst a1 (.askConst a2 (.ite (fun _ => ?_) fun _ => simpBinA_makes a1 a2 ihx ihy hU))
      exact .ask H (fun _ => hU) fun v _ => newConst_makes v

theorem simplifyA_makes (hU : U) (H : Own h.cells a e F) : Makes U Lk h (simplify e) (simplifyA o a) :=
  simplifyN_makes hU e (Nat.lt_succ_self a) H

/-- The loop of `inplace_simplify` on a tree made since `h0`. -/
theorem loopA_ends (hU : U) {h0 : Heap K} : ∀ {n : Nat} {e : Expr K} {a : Nat} {h1 : Heap K} {F L : List Nat},
    Adds h0 h1 (F ++ L) → Own h1.cells a e F → (Lk ∨ L = []) →
    Ends U Lk h0 ((simplifyLoop n e).getD .ub) (loopA o n a h1) := by
  intro n
  induction n with
  | zero => intro e a h1 F L E H hL; exact .ub (by simp [simplifyLoop]) hU
  | succ n ih =>
    intro e a h1 F L E H hL
    have hq := ask_eq (q := canSimplify) H (.refl E.wf')
    obtain ⟨d1, d2⟩ := E.delete H
    rw [loopA, simplifyLoop]
    cases hc : canSimplify e with
    | throw x =>
      obtain ⟨u, hu⟩ := each_delete_own H.one (List.nodup_append.1 E.nodup).1
      have : owning [a] (ask canSimplify a) h1 = .throw x (h1.free F) := by
        simp only [owning, hq, look, hc, hu]
      rw [bind_throw this]
      exact .throw (.inl (by simp)) d2
    | ub =>
      have : owning [a] (ask canSimplify a) h1 = .ub := by simp only [owning, hq, look, hc]
      rw [bind_ub this]
      exact .ub (by simp) hU
    | ok b =>
      have : owning [a] (ask canSimplify a) h1 = .ok b h1 := by simp only [owning, hq, look, hc]
      rw [bind_ok this]
      cases b with
      | false => exact .ok rfl H E hL
      | true =>
        simp only [if_true]
        refine (simplifyA_makes (U := U) (Lk := Lk) (o := o) hU H).owning (.refl E.wf') E H.one (.refl _) ?_ ?_
        · intro g1
          cases hr : simplify e with
          | ok e' => exact absurd hr (g1 _)
          | _ => simp
        · intro a' e' F' L' h2 g1 g2 g3 g4
          obtain ⟨i1, i2, i3⟩ := (E.trans g3).del (B := F' ++ (L ++ L')) (H.adds g3) (by perm_parts)
          rw [bind_ok i1, g1]
          exact ih i2 (i3 g2 (by simp +contextual)) (or_nil hL g4)

theorem simplifiedA_ends (hU : U) {h0 : Heap K} (E : Adds h0 h1 (F ++ L)) (H : Own h1.cells a e F)
    (hL : Lk ∨ L = []) : Ends U Lk h0 (simplified e) (simplifiedA o a h1) := by
  rw [simplifiedA, bind_ok (a := weight e) (s' := h1) (by rw [ask_eq H (.refl E.wf')]; rfl)]
  have := loopA_ends (o := o) hU (n := weight e + 1) E H hL
  rw [simplified]
  cases hs : simplifyLoop (weight e + 1) e with
  | none => rw [hs] at this; exact this
  | some r => rw [hs] at this; exact this

/-- A function that ends with `inplace_simplify(temp); return temp;`. -/
theorem simplified_makes (hU : U) (hm : Makes U Lk h r m) :
    Makes U Lk h (r.bind simplified) (m >>= simplifiedA o) := by
  intro h1 A E
  refine hm.step E (.refl E.wf') (by rintro hr e; cases r <;> simp_all) ?_
  intro a e F L h3 h4 h5 h6 h7
  subst h4
  exact simplifiedA_ends hU h6 h5 h7

/-! ### Vectors -/

/-- Applies a function to the entries. -/
def mapRes (q : Expr K → Res (Expr K)) : List (Expr K) → Res (List (Expr K))
  | [] => .ok []
  | e :: es => (q e).bind fun d => (mapRes q es).map (d :: ·)

theorem entriesA_ends {q : Expr K → Res (Expr K)} {f : Nat → Act K Nat} : ∀ {es : List (Expr K)} {ks F A : List Nat}
    {h1 : Heap K}, OwnL h.cells ks es F →
    (∀ k ∈ ks, ∀ e ∈ es, ∀ F, Own h.cells k e F → Makes U Lk h (q e) (f k)) → Adds h h1 A →
    EndsL U Lk h1 (mapRes q es) (entriesA f ks h1) := by
  intro es
  induction es with
  | nil =>
    intro ks F A h1 H hf E
    cases H
    exact .ok (L := []) rfl .nil (.refl E.wf') (.inr rfl)
  | cons x es ih =>
    intro ks F A h1 H hf E
    cases H with
    | @cons k _ F1 ks _ F2 a1 a2 =>
      rw [entriesA, mapRes]
      have hm := viaTemp_makes (hf k (by simp) x (by simp) F1 a1) h1 A E
      revert hm
      cases hv : viaTemp (f k) h1 with
      | ok a' h2 =>
        rintro (@⟨e', _, _, F', L', g1, g2, g3, g4⟩)
        rw [bind_ok hv, g1, Res.bind_ok]
        have ih' := ih a2 (fun k hk e he => hf k (by simp [hk]) e (by simp [he])) (E.trans g3)
        revert ih'
        cases hw : entriesA f ks h2 with
        | ok ks' h3 =>
          rintro (@⟨es', _, _, F'', L'', i1, i2, i3, i4⟩)
          rw [bind_ok hw, i1]
          exact .ok (F := F' ++ F'') (L := L' ++ L'') rfl (.cons (g2.adds i3) i2) ((g3.trans i3).perm (by perm_parts))
            (or_nil g4 i4)
        | throw x h3 =>
          rintro (_ | @⟨_, _, L'', i1, i2⟩)
          rw [bind_throw hw]
          exact .throw (i1.imp (fun i1 => by cases hr : mapRes q es <;> simp_all) fun h => ⟨h.1, g3.scarce h.2⟩)
            (g3.trans i2)
        | ub =>
          rintro (_ | _ | ⟨i1, i2⟩)
          rw [bind_ub hw]
          exact .ub (by cases hr : mapRes q es <;> simp_all) i2
      | throw x h2 =>
        rintro (_ | @⟨_, _, L', g1, g2⟩)
        rw [bind_throw hv]
        exact .throw (g1.imp (fun g1 => by cases hr : q ‹_› <;> simp_all) id) g2
      | ub =>
        rintro (_ | _ | ⟨g1, g2⟩)
        rw [bind_ub hv]
        exact .ub (by cases hr : q x <;> simp_all) g2

theorem entriesA_makes {q : Expr K → Res (Expr K)} {f : Nat → Act K Nat} (H : OwnL h.cells ks es F)
    (hf : ∀ k ∈ ks, ∀ e ∈ es, ∀ F, Own h.cells k e F → Makes U Lk h (q e) (f k)) :
    Makes U Lk h ((mapRes q es).map .vec) (do let es ← entriesA f ks; new .vec es) := by
  intro h1 A E
  have := entriesA_ends H hf E
  revert this
  cases hw : entriesA f ks h1 with
  | ok ks' h3 =>
    rintro (@⟨es', _, _, F'', L'', i1, i2, i3, i4⟩)
    rw [bind_ok hw, i1]
    exact new_ends (e := .vec es') i3 i2 i4
  | throw x h3 =>
    rintro (_ | @⟨_, _, L'', i1, i2⟩)
    rw [bind_throw hw]
    exact .throw (i1.imp (fun i1 => by cases hr : mapRes q es <;> simp_all) id) i2
  | ub =>
    rintro (_ | _ | ⟨i1, i2⟩)
    rw [bind_ub hw]
    exact .ub (by cases hr : mapRes q es <;> simp_all) i2

/-! ### Differentiation -/

open Spec (hasGrad hasGradL)

omit [Num K] in
theorem hasGradL_mem (he : e ∈ es) (hg : hasGrad e = true) : hasGradL es = true := by
  induction es with
  | nil => cases he
  | cons x es ih =>
    rw [hasGradL, Bool.or_eq_true]
    rcases List.mem_cons.1 he with rfl | he
    · exact .inl hg
    · exact .inr (ih he)

theorem diffFnA_makes {b : Bool} {fn : Fn} {d : Act K Nat} {rd : Res (Expr K)} (H : Own h.cells a e F)
    (hd : Makes U Lk h rd d) : Makes U Lk h (diffFn fn e rd) (diffFnA b fn a d) := by
  have hc : Makes U Lk h (.ok e) (clone a) := clone_makes H
  cases fn with
  | id => exact hd
  | exp => exact newBin_makes (newUn_makes hc) hd
  | sin => exact newBin_makes (newUn_makes hc) hd
  | cos => exact (newBin_makes (newUn_makes hc) (newBin_const_l hd)).conv (by cases rd <;> rfl)
  | tan => exact (newBin_makes hd (newBin_makes (newUn_makes hc) (newUn_makes hc))).conv (by cases rd <;> rfl)
  | fabs => exact look_makes h (by simp [diffFn]) (by simp [diffFn]) rfl
  | sqrt => exact (newBin_makes hd (newBin_const_l (newUn_makes hc))).conv (by cases rd <;> rfl)
  | log => exact (newBin_makes hd (newUn_makes hc)).conv (by cases rd <;> rfl)
  | log10 => exact (newBin_makes hd (newBin_const_l (newUn_makes hc))).conv (by cases rd <;> rfl)

theorem diffBinA_makes {b : Bool} {op : BOp} {l r : Nat} {x y : Expr K} {sl sr : Act K Nat} {rl rr : Res (Expr K)}
    (Hl : Own h.cells l x F) (Hr : Own h.cells r y G) (ml : Makes U Lk h rl sl) (mr : Makes U Lk h rr sr) :
    Makes U Lk h (diffBin op x y rl rr) (diffBinA b op l r sl sr) := by
  have cl : Makes U Lk h (.ok x) (clone l) := clone_makes Hl
  have cr : Makes U Lk h (.ok y) (clone r) := clone_makes Hr
  cases op with
  | plus => exact newBin_makes ml mr
  | minus => exact newBin_makes ml mr
  | mult => exact (newBin_makes (newBin_makes ml cr) (newBin_makes cl mr)).conv (by cases rl <;> cases rr <;> rfl)
  | div =>
    exact (newBin_makes (newBin_makes (newBin_makes ml cr) (newBin_makes cl mr)) (newBin_makes cr cr)).conv
      (by cases rl <;> cases rr <;> rfl)
  | uid => exact look_makes h (by simp [diffBin]) (by simp [diffBin]) rfl

theorem diffEL_eq (x : DVar) (es : List (Expr K)) : diffEL x es = mapRes (diffE x) es := by
  induction es with
  | nil => rfl
  | cons e es ih => rw [diffEL, mapRes, ih]

/-- The derivative of a unary expression with the argument at `k`. -/
theorem diffUnA_makes {x : DVar} {op : UOp} {y : Expr K} {k : Nat} {F : List Nat} {h : Heap K} {first : Bool} {d' : Act K Nat}
    (a1 : Own h.cells k y F)
    (ihx : (hasGrad y = true → (∃ i t, x = .fsym i t) → Lk) → Makes U Lk h (diffE x y) d')
    (hL : hasGrad (.un op y) = true → (∃ i t, x = .fsym i t) → Lk) :
    Makes U Lk h (diffE x (.un op y)) (diffUnA first x op k d') := by
  cases op with
  | fn fn =>
    have ihx := ihx fun hg => hL (by simp [hasGrad, hg])
    rw [diffE]
    exact diffFnA_makes a1 ihx
  | grad =>
    cases x with
    | var i => exact look_makes h (by simp [diffE]) (by simp [diffE]) rfl
    | fsym i t =>
      have hLk : Lk := hL (by simp [hasGrad]) ⟨i, t, rfl⟩
      have ihx := ihx fun _ _ => hLk
      intro h1 A E
      rw [diffE]
      simp only [diffUnA]
      refine (newConst_makes (Num.lit 0)).step E (.refl E.wf') (fun h => absurd rfl (h _)) ?_
      intro c0 e0 C L0 h2 c1 c2 c3 c4
      cases c1
      refine ihx.step E c3 (by rintro hr e; cases hx : diffE (.fsym i t) y <;> simp_all) ?_
      intro d e1 D L1 h3 d1 d2 d3 d4
      have hq := ask_eq (q := fun e => deepEq e (.const (Num.lit 0))) d2 (.refl d3.wf')
      rw [d1, Res.bind_ok]
      obtain ⟨b, hb⟩ : ∃ b, deepEq e1 (.const (Num.lit 0)) = .ok b := by
        cases e1 <;> simp [deepEq]
      simp only [look, hb] at hq
      rw [bind_ok hq, hb]
      cases b with
      | true =>
        obtain ⟨i1, i2, i3⟩ := (c3.trans d3).del (B := C ++ (L0 ++ L1)) d2 (by perm_parts)
        simp only [if_true]
        rw [bind_ok i1]
        exact .ok rfl (i3 (c2.adds d3) (by simp +contextual)) i2 (.inl hLk)
      | false =>
        obtain ⟨i1, i2, i3⟩ := (c3.trans d3).del (B := D ++ (L0 ++ L1)) (c2.adds d3) (by perm_parts)
        have i2' : Adds h (h3.free C) (A ++ (D ++ (L0 ++ L1))) := E.trans i2
        simp only [Bool.false_eq_true, if_false]
        rw [bind_ok i1]
        have := newUn_makes (op := .grad) ihx (h3.free C) _ i2'
        rw [d1] at this
        revert this
        cases hu : newUn .grad d' (h3.free C) with
        | ok a' h4 =>
          rintro (@⟨_, _, _, F5, L5, g1, g2, g3, g4⟩)
          cases g1
          exact .ok rfl g2 ((i2.trans g3).perm (B := F5 ++ (D ++ (L0 ++ L1) ++ L5)) (by perm_parts)) (.inl hLk)
        | throw x h4 =>
          rintro (_ | ⟨g1, g2⟩)
          exact .throw (g1.imp (fun g1 => absurd rfl (g1 _)) fun h => ⟨h.1, i2.scarce h.2⟩) (i2.trans g2)
        | ub => rintro (_ | _ | ⟨g1, g2⟩); exact absurd rfl (g1 _)
  | divg => exact look_makes h (by simp [diffE]) (by simp [diffE]) rfl
  | pd i => exact look_makes h (by simp [diffE]) (by simp [diffE]) rfl
  | symInt i => exact look_makes h (by simp [diffE]) (by simp [diffE]) rfl

theorem diffN_makes {x : DVar} (e : Expr K) : ∀ {n a F} {h : Heap K}, a < n → Own h.cells a e F →
    (hasGrad e = true → (∃ i t, x = .fsym i t) → Lk) → Makes U Lk h (diffE x e) (diffN o x n a) := by
  induction e using Expr.ind' with
  | h e ih =>
    intro n a F h hn H hL
    obtain ⟨n, rfl⟩ : ∃ m, n = m + 1 := ⟨n - 1, by omega⟩
    refine .cell H fun ks G H1 hF hlt => ?_
    have hk : ∀ k ∈ ks, k < n := fun k hk => by
      obtain ⟨x, -, Gx, g1, g2⟩ := H1.of_mem k hk
      have := hlt k (g2 k g1.root_mem); omega
    cases e with
    | const c => exact newConst_makes _
    | var c => exact newConst_makes _
    | fsym c t =>
      cases x with
      | var i => exact look_makes h (by simp [diffE]) (by simp [diffE]) rfl
      | fsym j u => exact newConst_makes _
    | vec es =>
      rw [diffE, diffEL_eq]
      refine entriesA_makes H1 fun k hk' e he F' hF' => ih e he (hk k hk') hF' fun hg => hL (by
        rw [hasGrad]; exact hasGradL_mem he hg)
    | integ lo hi i x =>
      cases H1 with
      | @cons k1 _ F1 ks1 _ G1 a1 b1 =>
      cases b1 with
      | @cons k2 _ F2 ks2 _ G2 a2 b2 =>
      cases b2 with
      | @cons k3 _ F3 ks3 _ G3 a3 b3 =>
      cases b3
      exact look_makes h (by simp [diffE]) (by simp [diffE]) rfl
    | bin op y z =>
      cases H1 with
      | @cons k1 _ F1 ks1 _ G1 a1 b1 =>
      cases b1 with
      | @cons k2 _ F2 ks2 _ G2 a2 b2 =>
      cases b2
      have ihx := ih y (by simp [Expr.operands]) (hk k1 (by simp)) a1 fun hg => hL (by simp [hasGrad, hg])
      have ihy := ih z (by simp [Expr.operands]) (hk k2 (by simp)) a2 fun hg => hL (by simp [hasGrad, hg])
      rw [diffE]
      exact diffBinA_makes a1 a2 ihx ihy
    | un op y =>
      cases H1 with
      | @cons k _ F1 ks _ F2 a1 a2 =>
      cases a2
      refine diffUnA_makes a1 (ih y (by simp [Expr.operands]) (hk k (by simp)) a1) hL

theorem diffA_makes {x : DVar} (H : Own h.cells a e F) (hL : hasGrad e = true → (∃ i t, x = .fsym i t) → Lk) :
    Makes U Lk h (diffE x e) (diffA o x a) := diffN_makes e (Nat.lt_succ_self a) H hL

/-! ### Substitution -/

/-- Reads an expression, whatever has been added in between. -/
def Reads (h : Heap K) (s : Act K (Expr K)) (e : Expr K) : Prop := ∀ h1 A, Adds h h1 A → s h1 = .ok e h1

omit [Num K] in
theorem Reads.adds {q : Act K (Expr K)} (H : Reads h q e) (E : Adds h h1 A) : Reads h1 q e :=
  fun _ _ E' => H _ _ (E.trans E')

theorem substML_eq (ss rs : List (Expr K)) (es : List (Expr K)) : substML ss rs es = mapRes (substM ss rs) es := by
  induction es with
  | nil => rfl
  | cons e es ih => rw [substML, mapRes, ih]

/-- What the search loop gives: a replacement, or what follows it. -/
def found (t : Res (Expr K)) : Option (Expr K) → Res (Expr K)
  | some r => .ok r
  | none => t

theorem findA_makes (hU : U) {sAs : List (Act K (Expr K))} {rAs : List (Act K Nat)} {ss rs : List (Expr K)}
    {t : Res (Expr K)} {miss : Act K Nat} (H : Own h.cells a e F) (hs : List.Forall₂ (Reads h) sAs ss)
    (hr : List.Forall₂ (fun rA r => Makes U Lk h (.ok r) rA) rAs rs) (ht : Makes U Lk h t miss) :
    Makes U Lk h ((findRepl e ss rs).bind (found t)) (findA a miss sAs rAs) := by
  induction hs generalizing rAs rs with
  | nil => simpa [findRepl, found, findA] using ht
  | @cons sA s sAs ss h1 _ ih =>
    intro h2 A E
    unfold findA
    rw [bind_ok (h1 h2 A E)]
    revert h2 A E
    cases hr with
    | nil =>
      refine (Makes.ask (q := fun e => deepEq e s) H (fun _ => hU) (t := fun b : Bool => if b then .ub else _) fun b _ =>
        .ite (fun _ h1 A E => .ub (by simp) hU) fun _ => ih .nil).conv ?_
      rw [findRepl]
      cases deepEq e s with
      | ok b => cases b <;> rfl
      | _ => rfl
    | @cons rA r rAs rs h3 h4 =>
      refine (Makes.ask (q := fun e => deepEq e s) H (fun _ => hU) (t := fun b : Bool => if b then .ok r else _) fun b _ =>
        .ite (fun _ => h3) fun _ => ih h4).conv ?_
      rw [findRepl]
      cases deepEq e s with
      | ok b => cases b <;> rfl
      | _ => rfl

theorem substN_makes (hU : U) {sAs : List (Act K (Expr K))} {rAs : List (Act K Nat)} {ss rs : List (Expr K)}
    (e : Expr K) : ∀ {n a F} {h : Heap K}, a < n → Own h.cells a e F → List.Forall₂ (Reads h) sAs ss →
    List.Forall₂ (fun rA r => Makes U Lk h (.ok r) rA) rAs rs →
    Makes U Lk h (substM ss rs e) (substN o sAs rAs n a) := by
  induction e using Expr.ind' with
  | h e ih =>
    intro n a F h hn H hs hr
    obtain ⟨n, rfl⟩ : ∃ m, n = m + 1 := ⟨n - 1, by omega⟩
    refine .cell H fun ks G H1 hF hlt => ?_
    have hk : ∀ k ∈ ks, k < n := fun k hk => by
      obtain ⟨x, -, Gx, g1, g2⟩ := H1.of_mem k hk
      have := hlt k (g2 k g1.root_mem); omega
    have key : ∀ {t : Res (Expr K)} {mk : Act K Nat}, Makes U Lk h t mk →
        Makes U Lk h ((findRepl e ss rs).bind (found t)) (findA a mk sAs rAs) := fun ht => findA_makes hU H hs hr ht
    have conv : ∀ {q : Res (Option (Expr K))} {t : Res (Expr K)} {k : Option (Expr K) → Res (Expr K)},
        (∀ r, k (some r) = .ok r) → k none = t → q.bind (found t) = q.bind k := by
      intro q t k k1 k2
      cases q with
      | ok x => cases x with
        | none => exact k2.symm
        | some r => exact (k1 r).symm
      | _ => rfl
    cases e with
    | const c =>
      cases H1
      exact (key (clone_makes H)).conv (by rw [substM]; exact conv (k := fun o => .ok (o.getD _)) (fun _ => rfl) rfl)
    | var c =>
      cases H1
      exact (key (clone_makes H)).conv (by rw [substM]; exact conv (k := fun o => .ok (o.getD _)) (fun _ => rfl) rfl)
    | fsym c t =>
      cases H1
      exact (key (clone_makes H)).conv (by rw [substM]; exact conv (k := fun o => .ok (o.getD _)) (fun _ => rfl) rfl)
    | vec es =>
      rw [substM, substML_eq]
      exact (key (entriesA_makes H1 fun k hk' e he F' hF' => ih e he (hk k hk') hF' hs hr)).conv
        (conv (fun _ => rfl) rfl)
    | integ lo hi i x =>
      cases H1 with
      | @cons k1 _ F1 ks1 _ G1 a1 b1 =>
      cases b1 with
      | @cons k2 _ F2 ks2 _ G2 a2 b2 =>
      cases b2 with
      | @cons k3 _ F3 ks3 _ G3 a3 b3 =>
      cases b3
      rw [substM]
      exact (key (newInteg_makes a1 a2 (ih x (by simp [Expr.operands]) (hk k3 (by simp)) a3 hs hr))).conv
        (conv (fun _ => rfl) rfl)
    | bin op y z =>
      cases H1 with
      | @cons k1 _ F1 ks1 _ G1 a1 b1 =>
      cases b1 with
      | @cons k2 _ F2 ks2 _ G2 a2 b2 =>
      cases b2
      rw [substM]
      exact (key (newBin_makes (ih y (by simp [Expr.operands]) (hk k1 (by simp)) a1 hs hr)
        (ih z (by simp [Expr.operands]) (hk k2 (by simp)) a2 hs hr))).conv (conv (fun _ => rfl) rfl)
    | un op y =>
      cases H1 with
      | @cons k _ F1 ks _ F2 a1 a2 =>
      cases a2
      rw [substM]
      exact (key (newUn_makes (ih y (by simp [Expr.operands]) (hk k (by simp)) a1 hs hr))).conv
        (conv (fun _ => rfl) rfl)

theorem substManyA_makes (hU : U) {sAs : List (Act K (Expr K))} {rAs : List (Act K Nat)} {ss rs : List (Expr K)}
    (H : Own h.cells a e F) (hs : List.Forall₂ (Reads h) sAs ss)
    (hr : List.Forall₂ (fun rA r => Makes U Lk h (.ok r) rA) rAs rs) :
    Makes U Lk h (substM ss rs e) (substManyA o sAs rAs a) :=
  substN_makes hU e (Nat.lt_succ_self a) H hs hr

theorem substA_makes (hU : U) {sA : Act K (Expr K)} {rA : Act K Nat} {s r : Expr K} (H : Own h.cells a e F)
    (hs : Reads h sA s) (hr : Makes U Lk h (.ok r) rA) : Makes U Lk h (substE s r e) (substA o sA rA a) :=
  (substManyA_makes hU H (.cons hs .nil) (.cons hr .nil)).conv (substE_eq_substM s r e).symm

theorem substBinA_makes (hU : U) {sA : Act K (Expr K)} {rA : Act K Nat} {s r : Expr K} {op : BOp} {k l : Nat}
    {x y : Expr K} (Hl : Own h.cells k x F) (Hr : Own h.cells l y G)
    (hs : Reads h sA s) (hr : Makes U Lk h (.ok r) rA) :
    Makes U Lk h (substE s r (.bin op x y)) (substBinA o sA rA op k l) := by
  have ht := newBin_makes (op := op) (b := o k) (substA_makes (o := o) hU Hl hs hr) (substA_makes (o := o) hU Hr hs hr)
  rw [substE]
  intro h1 A E
  rw [substBinA, bind_ok (hs h1 A E),
    bind_ok (a := x) (s' := h1) (by rw [ask_eq Hl E]; rfl), bind_ok (a := y) (s' := h1) (by rw [ask_eq Hr E]; rfl)]
  cases deepEq (.bin op x y) s with
  | ok b =>
    cases b with
    | true => exact hr h1 A E
    | false => exact ht h1 A E
  | throw x => exact .throw (.inl (by simp)) (.refl E.wf')
  | ub => exact .ub (by simp) hU

theorem substUnA_makes (hU : U) {sA : Act K (Expr K)} {rA : Act K Nat} {s r : Expr K} {op : UOp} {k : Nat}
    {x : Expr K} (Hl : Own h.cells k x F) (hs : Reads h sA s) (hr : Makes U Lk h (.ok r) rA) :
    Makes U Lk h (substE s r (.un op x)) (substUnA o sA rA op k) := by
  have ht := newUn_makes (op := op) (substA_makes (o := o) hU Hl hs hr)
  rw [substE]
  intro h1 A E
  rw [substUnA, bind_ok (hs h1 A E), bind_ok (a := x) (s' := h1) (by rw [ask_eq Hl E]; rfl)]
  cases deepEq (.un op x) s with
  | ok b =>
    cases b with
    | true => exact hr h1 A E
    | false => exact ht h1 A E
  | throw x => exact .throw (.inl (by simp)) (.refl E.wf')
  | ub => exact .ub (by simp) hU

/-! ### Substitution of intervals -/

theorem manipN_makes {lo hi x : Nat} {l u : Expr K} {Fl Fu : List Nat} (e : Expr K) :
    ∀ {n a F} {h : Heap K}, a < n → Own h.cells a e F → Own h.cells lo l Fl → Own h.cells hi u Fu →
    Makes U Lk h (manipulate (symIntFunctor l u x) e) (manipN o lo hi x n a) := by
  induction e using Expr.ind' with
  | h e ih =>
    intro n a F h hn H hl hu
    obtain ⟨n, rfl⟩ : ∃ m, n = m + 1 := ⟨n - 1, by omega⟩
    refine .cell H fun ks G H1 hF hlt => ?_
    have hk : ∀ k ∈ ks, k < n := fun k hk => by
      obtain ⟨x, -, Gx, g1, g2⟩ := H1.of_mem k hk
      have := hlt k (g2 k g1.root_mem); omega
    cases e with
    | const c => cases H1; exact clone_makes H
    | var c => cases H1; exact clone_makes H
    | fsym c t => cases H1; exact clone_makes H
    | vec es => exact clone_makes H
    | integ _ _ i y =>
      cases H1 with
      | @cons k1 _ F1 ks1 _ G1 a1 b1 =>
      cases b1 with
      | @cons k2 _ F2 ks2 _ G2 a2 b2 =>
      cases b2 with
      | @cons k3 _ F3 ks3 _ G3 a3 b3 =>
      cases b3
      exact newInteg_makes a1 a2 (ih y (by simp [Expr.operands]) (hk k3 (by simp)) a3 hl hu)
    | bin op y z =>
      cases H1 with
      | @cons k1 _ F1 ks1 _ G1 a1 b1 =>
      cases b1 with
      | @cons k2 _ F2 ks2 _ G2 a2 b2 =>
      cases b2
      exact newBin_makes (ih y (by simp [Expr.operands]) (hk k1 (by simp)) a1 hl hu)
        (ih z (by simp [Expr.operands]) (hk k2 (by simp)) a2 hl hu)
    | un op y =>
      cases H1 with
      | @cons k _ F1 ks _ F2 a1 a2 =>
      cases a2
      have ihy := newUn_makes (op := op) (ih y (by simp [Expr.operands]) (hk k (by simp)) a1 hl hu)
      cases op with
      | symInt j => exact newInteg_makes hl hu (clone_makes a1)
      | _ => exact ihy

theorem manipA_makes {lo hi x : Nat} {l u : Expr K} {Fl Fu : List Nat} (H : Own h.cells a e F)
    (hl : Own h.cells lo l Fl) (hu : Own h.cells hi u Fu) :
    Makes U Lk h (manipulate (symIntFunctor l u x) e) (manipA o lo hi x a) :=
  manipN_makes e (Nat.lt_succ_self a) H hl hu

end VM
