import Verif.Rt.HeapSim
import Verif.Rt.SizeLemmas
import Verif.Spec.Work
import Mathlib.Tactic.Ring
import Mathlib.Tactic.Linarith
/-
How many requests for memory the functions of `HeapAlg` make.
-/
namespace VM
open Act Run
open Spec hiding look
variable {K : Type} {h h0 h1 h2 h3 : Heap K} {m f g : Act K Nat} {a n p N M : Nat} {e : Expr K}
  {F G A B L : List Nat}

/-- If the call has ended, no addresses from `n` on have been used. -/
def Upto {α : Type} (n : Nat) : Out (Heap K) α → Prop
  | .ok _ h => h.next ≤ n
  | .throw _ h => h.next ≤ n
  | .ub => True

theorem Upto.bind {α β : Type} {m : Act K α} {k : α → Act K β} (hm : Upto n (m h))
    (hk : ∀ a h', m h = .ok a h' → h'.next ≤ n → Upto p (k a h')) (hn : n ≤ p) : Upto p ((m >>= k) h) := by
  cases hm' : m h with
  | ok a h' => rw [hm'] at hm; rw [bind_ok hm']; exact hk _ _ hm' hm
  | throw x h' => rw [hm'] at hm; rw [bind_throw hm']; exact Nat.le_trans hm hn
  | ub => rw [bind_ub hm']; trivial

theorem Upto.mono {α : Type} {r : Out (Heap K) α} (H : Upto n r) (hn : n ≤ p) : Upto p r := by
  cases r with
  | ok a h => exact Nat.le_trans H hn
  | throw x h => exact Nat.le_trans H hn
  | ub => trivial

theorem new_upto (l : Label K) (ks : List Nat) (h : Heap K) : Upto (h.next + 1) (new l ks h) := by
  rcases new_eq (h := h) l ks with hn | ⟨hn, -⟩ <;> rw [hn] <;> exact Nat.le_refl _

theorem each_upto {α : Type} {q : Nat → Act K α} {ks : List Nat} (hq : ∀ k ∈ ks, ∀ h, Upto h.next (q k h)) :
    ∀ h, Upto h.next (each q ks h) := by
  induction ks with
  | nil => intro h; exact Nat.le_refl _
  | cons k ks ih =>
    intro h
    refine (hq k (by simp) h).bind (fun b h1 _ hl => ?_) (Nat.le_refl _)
    exact ((ih (fun k hk => hq k (by simp [hk])) h1).mono hl).bind (fun bs h2 _ hl => hl) (Nat.le_refl _)

/-- Deleting makes no requests. -/
theorem deleteN_upto (n a : Nat) (h : Heap K) : Upto h.next (deleteN n a h) := by
  induction n generalizing a h with
  | zero => trivial
  | succ n ih =>
    rw [deleteN]
    have hc : Upto h.next (Act.cell a h) := by
      simp only [Act.cell, Run.look]; cases h.cells a <;> first | exact Nat.le_refl _ | trivial
    refine hc.bind (fun c h1 _ hl => ?_) (Nat.le_refl _)
    refine ((each_upto (fun k _ h => ih k h) h1).mono hl).bind (fun bs h2 _ hl => ?_) (Nat.le_refl _)
    simp only [Act.release]
    cases h2.cells a with
    | none => trivial
    | some c => exact hl

theorem Upto.owning [Num K] {β : Type} {as : List Nat} {m : Act K β} (H : Upto n (m h)) : Upto n (VM.owning as m h) := by
  simp only [VM.owning]
  cases hm : m h with
  | ok a h' => rw [hm] at H; exact H
  | ub => trivial
  | throw x h' =>
    rw [hm] at H
    simp only []
    have hd := each_upto (ks := as) (fun k _ h => deleteN_upto (k + 1) k h) h'
    cases hd' : each VM.delete as h' with
    | ok u h'' =>
      rw [show each (fun k => deleteN (k + 1) k) as h' = .ok u h'' from hd'] at hd
      exact Nat.le_trans hd H
    | throw x h'' => trivial
    | ub => trivial

theorem owning_ok [Num K] {β : Type} {as : List Nat} {m : Act K β} {b : β} (hm : owning as m h1 = .ok b h2) :
    m h1 = .ok b h2 := by
  simp only [owning] at hm
  split at hm
  · split at hm <;> cases hm
  · exact hm

/-- In `h`, and whenever no more than new nodes have been added to `h`, the call `m` makes at most `N` requests for
memory, and if it returns it has done no more than add nodes. -/
def Costs {α : Type} (h : Heap K) (N : Nat) (m : Act K α) : Prop :=
  ∀ h1 A, Adds h h1 A → Upto (h1.next + N) (m h1) ∧ ∀ a h2, m h1 = .ok a h2 → ∃ B, Adds h1 h2 B

theorem Costs.mono {α : Type} {m : Act K α} (H : Costs h N m) (hn : N ≤ M) : Costs h M m := fun h1 A E =>
  ⟨(H h1 A E).1.mono (by omega), (H h1 A E).2⟩

theorem Costs.adds {α : Type} {m : Act K α} (H : Costs h N m) (E : Adds h h1 A) : Costs h1 N m :=
  fun _ _ E' => H _ _ (E.trans E')

theorem Costs.of_makes {U Lk : Prop} {r : Res (Expr K)} (H : Makes U Lk h r m)
    (hn : ∀ h1 A, Adds h h1 A → Upto (h1.next + N) (m h1)) : Costs h N m := by
  refine fun h1 A E => ⟨hn h1 A E, fun a h2 hm => ?_⟩
  have := H h1 A E
  rw [hm] at this
  cases this with
  | ok _ _ h3 => exact ⟨_, h3⟩

/-- What a call has made. -/
theorem Makes.inv {U Lk : Prop} {r : Res (Expr K)} (H : Makes U Lk h r m) (E : Adds h h1 A) (hm : m h1 = .ok a h2) :
    ∃ e F L, r = .ok e ∧ Own h2.cells a e F ∧ Adds h1 h2 (F ++ L) := by
  have := H h1 A E
  rw [hm] at this
  cases this with
  | ok h1 h2 h3 => exact ⟨_, _, _, h1, h2, h3⟩

theorem new_costs (l : Label K) (ks : List Nat) : Costs h 1 (new l ks) := by
  refine fun h1 A E => ⟨new_upto _ _ _, fun a h2 hm => ?_⟩
  rcases new_eq (h := h1) l ks with hn | ⟨hn, -⟩
  · rw [hn] at hm; cases hm; exact ⟨_, Heap.put_adds E.wf' l ks⟩
  · rw [hn] at hm; cases hm

theorem Costs.bind {α β : Type} {m : Act K α} {k : α → Act K β} (hm : Costs h N m)
    (hk : ∀ h1 A a h2 B, Adds h h1 A → m h1 = .ok a h2 → Adds h1 h2 B → Costs h2 M (k a)) :
    Costs h (N + M) (m >>= k) := by
  intro h1 A E
  obtain ⟨u1, u2⟩ := hm h1 A E
  refine ⟨u1.bind (fun a h2 hq hl => ?_) (by omega), fun b h3 hq => ?_⟩
  · obtain ⟨B, hB⟩ := u2 a h2 hq
    exact ((hk h1 A a h2 B E hq hB) h2 [] (.refl hB.wf')).1.mono (by omega)
  · cases hm1 : m h1 with
    | ok a h2 =>
      rw [bind_ok hm1] at hq
      obtain ⟨B, hB⟩ := u2 a h2 hm1
      obtain ⟨C, hC⟩ := ((hk h1 A a h2 B E hm1 hB) h2 [] (.refl hB.wf')).2 b h3 hq
      exact ⟨_, hB.trans hC⟩
    | throw x h2 => rw [bind_throw hm1] at hq; cases hq
    | ub => rw [bind_ub hm1] at hq; cases hq

theorem Costs.pure {α : Type} (b : α) : Costs h 0 (Pure.pure b : Act K α) := fun h1 A E =>
  ⟨Nat.le_refl _, fun a h2 hm => by cases hm; exact ⟨[], .refl E.wf'⟩⟩

theorem Costs.owning [Num K] {β : Type} {as : List Nat} {m : Act K β} (H : Costs h N m) : Costs h N (VM.owning as m) :=
  fun h1 A E => ⟨(H h1 A E).1.owning, fun a h2 hm => (H h1 A E).2 a h2 (owning_ok hm)⟩

theorem newConst_costs (c : K) : Costs h 1 (newConst c) := new_costs _ _

theorem newUn_costs [Num K] {op : UOp} (hf : Costs h N f) : Costs h (N + 1) (newUn op f) :=
  hf.bind fun _ _ _ _ _ _ _ _ => new_costs _ _

theorem newBin_costs [Num K] {op : BOp} {b : Bool} (hf : Costs h N f) (hg : Costs h M g) :
    Costs h (N + M + 1) (newBin b op f g) := by
  cases b
  · exact (hg.bind fun _ _ _ _ _ E _ E' => (hf.adds (E.trans E')).bind fun _ _ _ _ _ _ _ _ => new_costs _ _).mono
      (by omega)
  · exact (hf.bind fun _ _ _ _ _ E _ E' => (hg.adds (E.trans E')).bind fun _ _ _ _ _ _ _ _ => new_costs _ _).mono
      (by omega)

/-- The sizes of several expressions together. -/
def total : List (Expr K) → Nat
  | [] => 0
  | e :: es => size e + total es

theorem total_sizes (es : List (Expr K)) : total es ≤ sizes es := by
  induction es with
  | nil => simp [total, sizes]
  | cons x es ih => simp only [total, sizes]; omega

theorem total_operands (e : Expr K) : total e.operands + 1 ≤ size e := by
  cases e with
  | vec es => have := total_sizes es; simp only [Expr.operands, size]; omega
  | _ => simp only [Expr.operands, total, size]; omega

theorem cloneN_upto (e : Expr K) : ∀ {n a F} {h : Heap K}, h.WF → a < n → Own h.cells a e F →
    Upto (h.next + size e) (cloneN n a h) := by
  induction e using Expr.ind' with
  | h e ih =>
    intro n a F h hw hn H
    obtain ⟨n, rfl⟩ : ∃ m, n = m + 1 := ⟨n - 1, by omega⟩
    have key : ∀ es : List (Expr K), (∀ k ∈ es, k ∈ e.operands) → ∀ {ks F} {h : Heap K}, h.WF →
        OwnL h.cells ks es F → (∀ b ∈ F, b < n) → Upto (h.next + total es) (each (cloneN n) ks h) := by
      intro es
      induction es with
      | nil => intro _ ks F h hw H _; cases H; exact Nat.le_refl _
      | cons x es ihs =>
        intro hm ks F h hw H hb
        cases H with
        | @cons k _ F1 ks _ F2 g1 g2 =>
          have hk := hb k (by simp [g1.root_mem])
          have r0 := cloneN_ends (U := True) (Lk := True) x hw hk g1
          refine (ih x (hm x (by simp)) hw hk g1).bind (fun b h1 a1 hl => ?_) (by simp only [total]; omega)
          rw [a1] at r0
          cases r0 with
          | ok e1 e2 e3 =>
            have r2 := ihs (fun k hk => hm k (by simp [hk])) e3.wf' (g2.adds e3) (fun b hb' => hb b (by simp [hb']))
            refine r2.bind (fun bs h2 _ hl2 => ?_) (by simp only [total]; omega)
            show h2.next ≤ _
            simp only [total]; omega
    obtain ⟨ks, G, c1, c2, rfl, c3⟩ := cell_own H
    have t := total_operands e
    rw [cloneN, bind_ok c1]
    refine (key _ (fun _ h => h) hw c2 (fun b hb => by have := c3 b hb; omega)).bind (fun bs h1 _ hl => ?_) (by omega)
    exact (new_upto _ _ _).mono (by omega)

/-- A copy takes no more than one request for each object. -/
theorem clone_costs (H : Own h.cells a e F) : Costs h (size e) (clone a) :=
  .of_makes (U := True) (Lk := True) (clone_makes H) fun _ _ E =>
    cloneN_upto e E.wf' (Nat.lt_succ_self a) (H.adds E)

theorem newInteg_costs [Num K] {b : Bool} {lo hi x : Nat} {l u : Expr K} {Fl Fu : List Nat}
    (hl : Own h.cells lo l Fl) (hu : Own h.cells hi u Fu) (hf : Costs h N f) :
    Costs h (size l + size u + N + 1) (newInteg b lo hi x f) := by
  cases b
  · exact ((clone_costs hl).bind fun _ _ _ _ _ E _ E' => (clone_costs (hu.adds (E.trans E'))).bind
      fun _ _ _ _ _ E2 _ E3 => (hf.adds (((E.trans E').trans E2).trans E3)).bind fun _ _ _ _ _ _ _ _ =>
        new_costs _ _).mono (by omega)
  · exact (hf.bind fun _ _ _ _ _ E _ E' => (clone_costs (hl.adds (E.trans E'))).bind
      fun _ _ _ _ _ E2 _ E3 => (clone_costs (hu.adds (((E.trans E').trans E2).trans E3))).bind fun _ _ _ _ _ _ _ _ =>
        new_costs _ _).mono (by omega)

theorem Upto.delete {β : Type} {k : Unit → Act K β} (hk : ∀ h', VM.delete a h = .ok () h' →
    h'.next ≤ h.next → Upto n (k () h')) (hn : h.next ≤ n) : Upto n ((VM.delete a >>= k) h) :=
  (deleteN_upto (a + 1) a h).bind (fun _ h' => hk h') hn

theorem viaTemp_costs [Num K] {r : Res (Expr K)} (hm : Makes True True h r f) (hf : Costs h N f)
    (hs : ∀ e, r = .ok e → size e ≤ M) : Costs h (N + M) (viaTemp f) := by
  refine .of_makes (viaTemp_makes hm) fun h1 A E => ?_
  refine (hf h1 A E).1.bind (fun a h2 hq hl => ?_) (by omega)
  obtain ⟨e, F, L, c1, c2, c3⟩ := hm.inv E hq
  have := hs e c1
  refine (clone_costs c2 h2 [] (.refl c3.wf')).1.owning.bind (fun b h3 _ hl2 => ?_) (by omega)
  exact Upto.delete (fun h4 _ hn => by show h4.next ≤ _; omega) (by omega)

/-! ### Reading -/

theorem Costs.look {α : Type} {r : Heap K → Res α} : Costs h 0 (look r) := by
  intro h1 A E
  simp only [Run.look]
  cases r h1 with
  | ok a => exact ⟨Nat.le_refl _, fun a h2 hm => by cases hm; exact ⟨[], .refl E.wf'⟩⟩
  | throw x => exact ⟨Nat.le_refl _, fun a h2 hm => by cases hm⟩
  | ub => exact ⟨trivial, fun a h2 hm => by cases hm⟩

theorem Costs.ask {β γ : Type} {q : Expr K → Res β} {k : β → Act K γ} (H : Own h.cells a e F)
    (hk : ∀ v, q e = .ok v → Costs h N (k v)) : Costs h N (ask q a >>= k) := by
  intro h1 A E
  have := ask_eq (q := q) H E
  cases hq : q e with
  | ok v =>
    rw [bind_ok (a := v) (s' := h1) (by rw [this]; simp only [Run.look, hq])]
    exact hk v hq h1 A E
  | throw x =>
    rw [bind_throw (x := x) (s' := h1) (by rw [this]; simp only [Run.look, hq])]
    exact ⟨Nat.le_add_right _ _, fun a h2 hm => by cases hm⟩
  | ub =>
    rw [bind_ub (by rw [this]; simp only [Run.look, hq])]
    exact ⟨trivial, fun a h2 hm => by cases hm⟩

theorem Costs.askConst [Num K] {k : Bool → Act K Nat} (H : Own h.cells a e F) (hk : Costs h N (k (isConst e))) :
    Costs h N (VM.askConst a >>= k) :=
  .ask H fun v hv => by cases hv; exact hk

theorem Costs.cell {k : Cell K → Act K Nat} (H : Own h.cells a e F)
    (hk : ∀ ks G, OwnL h.cells ks e.operands G → F = a :: G → (∀ b ∈ G, b < a) → Costs h N (k ⟨e.label, ks⟩)) :
    Costs h N (Act.cell a >>= k) := by
  intro h1 A E
  cases H with
  | @node _ _ ks G g1 g2 g3 =>
    have hw : Act.cell a h1 = .ok ⟨e.label, ks⟩ h1 := look_ok (by
      rw [E.keep (by rw [g1]; simp), g1])
    rw [bind_ok hw]
    exact hk ks G g2 rfl g3 h1 A E

theorem Costs.ite {b : Bool} {m m' : Act K Nat} (h1 : b = true → Costs h N m) (h2 : b = false → Costs h N m') :
    Costs h N (if b then m else m') := by
  cases b
  · exact h2 rfl
  · exact h1 rfl

/-! ### Simplification -/

variable [Num K] {o : Nat → Bool} {ks ls : List Nat} {es fs : List (Expr K)}

/-- Each step of the loop of the dot product makes a product, a sum and a copy of the sum. -/
theorem dotFromA_upto {T : Nat} : ∀ {es fs : List (Expr K)} {ks ls F G : List Nat} {h0 h1 : Heap K} {acc : Nat}
    {e : Expr K} {A B L : List Nat},
    OwnL h.cells ks es F → OwnL h.cells ls fs G → Adds h h0 A → Adds h0 h1 (B ++ L) → Own h1.cells acc e B →
    size e + sizes es + sizes fs ≤ T → Upto (h1.next + 3 * es.length * T) (dotFromA o acc ks ls h1) := by
  intro es
  induction es with
  | nil =>
    intro fs ks ls F G h0 h1 acc e A B L H1 H2 E E1 H3 hT
    cases H1
    rw [dotFromA.eq_2 _ _ _ _ (by simp)]
    exact Nat.le_add_right _ _
  | cons x es ih =>
    intro fs ks ls F G h0 h1 acc e A B L H1 H2 E E1 H3 hT
    cases H1 with
    | @cons k _ F1 ks _ F2 a1 a2 =>
      cases H2 with
      | nil =>
        rw [dotFromA.eq_2 _ _ _ _ (by simp)]
        exact Nat.le_add_right _ _
      | @cons l y G1 ls fs G2 b1 b2 =>
        simp only [sizes] at hT
        have hlen : 3 * (x :: es).length * T = 3 * es.length * T + 3 * T := by simp only [List.length_cons]; ring
        rw [dotFromA, hlen]
        -- the product
        have m1 : Makes True True h (.ok (.bin .mult x y)) (newBin (o k) .mult (clone k) (clone l)) :=
          newBin_makes (clone_makes a1) (clone_makes b1)
        have u1 := newBin_costs (op := .mult) (b := o k) (clone_costs a1) (clone_costs b1)
        refine (u1 h1 _ (E.trans E1)).1.owning.bind (fun p h2 q1 hl1 => ?_) (by omega)
        obtain ⟨e1, P, L1, c1, c2, c3⟩ := m1.inv (E.trans E1) (owning_ok q1)
        cases c1
        -- the sum
        have m2 : Makes True True h2 (.ok (.bin .plus e (.bin .mult x y))) (newBin (o p) .plus (clone acc) (clone p)) :=
          newBin_makes (clone_makes (H3.adds c3)) (clone_makes c2)
        have u2 := newBin_costs (op := .plus) (b := o p) (clone_costs (H3.adds c3)) (clone_costs c2)
        simp only [size] at u2
        refine (u2 h2 [] (.refl c3.wf')).1.owning.bind (fun sm h3 q2 hl2 => ?_) (by omega)
        obtain ⟨e2, S, L2, d1, d2, d3⟩ := m2.inv (.refl c3.wf') (owning_ok q2)
        cases d1
        have u3 := clone_costs d2
        simp only [size] at u3
        refine (u3 h3 [] (.refl d3.wf')).1.owning.bind (fun acc' h4 q3 hl3 => ?_) (by omega)
        obtain ⟨e3, C, L3, f1, f2, f3⟩ := (clone_makes (U := True) (Lk := True) d2).inv (.refl d3.wf') (owning_ok q3)
        cases f1
        have E4 := ((E1.trans c3).trans d3).trans f3
        obtain ⟨g1, g2, g3⟩ := E4.del (B := S ++ (P ++ (C ++ (L ++ (L1 ++ (L2 ++ L3)))))) (((H3.adds c3).adds d3).adds f3)
          (by perm_parts)
        rw [bind_ok g1]
        obtain ⟨i1, i2, i3⟩ := g2.del (g3 (d2.adds f3) (by simp +contextual)) (.refl _)
        rw [bind_ok i1]
        obtain ⟨j1, j2, j3⟩ := i2.del (i3 (g3 ((c2.adds d3).adds f3) (by simp +contextual)) (by simp +contextual)) (.refl _)
        rw [bind_ok j1]
        refine (ih a2 b2 E j2 (j3 (i3 (g3 f2 (by simp +contextual)) (by simp +contextual)) (by simp +contextual))
          (by simp only [size]; omega)).mono ?_
        simp only [Heap.free]
        omega

omit [Num K] in
theorem length_sizes (es : List (Expr K)) : 2 * es.length ≤ sizes es := by
  induction es with
  | nil => simp [sizes]
  | cons e es ih => have := size_pos e; simp only [sizes, List.length_cons]; omega

theorem dotA_costs (H1 : OwnL h.cells ks es F) (H2 : OwnL h.cells ls fs G) :
    Costs h ((sizes es + sizes fs) ^ 2) (dotA o ks ls) := by
  cases H1 with
  | nil => exact Costs.mono (m := Run.look fun _ => Res.ub) Costs.look (Nat.zero_le _)
  | @cons k x F1 ks es F2 a1 a2 =>
    cases H2 with
    | nil => exact Costs.mono (m := Run.look fun _ => Res.ub) Costs.look (Nat.zero_le _)
    | @cons l y G1 ls fs G2 b1 b2 =>
      rw [dotA, a2.length, b2.length]
      by_cases hl : es.length = fs.length
      · rw [if_pos hl]
        have m1 : Makes True True h (.ok (.bin .mult x y)) (newBin (o k) .mult (clone k) (clone l)) :=
          newBin_makes (clone_makes a1) (clone_makes b1)
        have u1 := newBin_costs (op := .mult) (b := o k) (clone_costs a1) (clone_costs b1)
        have hT : ∀ e, Res.ok (dotFrom (.bin .mult x y) es fs) = .ok e →
            size e ≤ size (.bin .mult x y : Expr K) + sizes es + sizes fs := by
          intro e he
          cases he
          rw [size_dotFrom _ _ _ hl]
        have m2 : Makes True True h (.ok (dotFrom (.bin .mult x y) es fs)) (do
            let acc ← newBin (o k) .mult (clone k) (clone l)
            dotFromA o acc ks ls : Act K Nat) := by
          intro h1 A E
          refine m1.step E (.refl E.wf') (fun h => absurd rfl (h _)) ?_
          intro p e1 P L1 h2 c1 c2 c3 c4
          cases c1
          exact dotFromA_ends a2 b2 E c3 c2 c4
        have u2 : Costs h (size (.bin .mult x y : Expr K) + 3 * es.length *
            (size (.bin .mult x y : Expr K) + sizes es + sizes fs)) (do
            let acc ← newBin (o k) .mult (clone k) (clone l)
            dotFromA o acc ks ls : Act K Nat) := by
          refine .of_makes m2 fun h1 A E => ?_
          refine (u1 h1 A E).1.bind (fun p h2 q1 hl1 => ?_) (by simp only [size]; omega)
          obtain ⟨e1, P, L1, c1, c2, c3⟩ := m1.inv E q1
          cases c1
          exact (dotFromA_upto a2 b2 E c3 c2 (Nat.le_refl _)).mono (by simp only [size] at *; omega)
        refine (viaTemp_costs m2 u2 hT).mono ?_
        have l1 := length_sizes es
        have l2 := length_sizes fs
        have p1 := size_pos x
        have p2 := size_pos y
        simp only [size, sizes]
        rw [← hl] at l2
        generalize size x = X at *
        generalize size y = Y at *
        generalize sizes es = S at *
        generalize sizes fs = T at *
        generalize es.length = n at *
        nlinarith
      · rw [if_neg hl]
        exact Costs.look.mono (Nat.zero_le _)

theorem simpBinA_costs {b : Bool} {op : BOp} {l r : Nat} {x y : Expr K} {sl sr : Act K Nat}
    (Hl : Own h.cells l x F) (Hr : Own h.cells r y G) (cl : Costs h (size x ^ 2) sl) (cr : Costs h (size y ^ 2) sr) :
    Costs h (size (.bin op x y) ^ 2) (simpBinA o b op l r sl sr) := by
  have px := size_pos x
  have py := size_pos y
  have b1 : size x ^ 2 + size y ^ 2 + 1 ≤ size (.bin op x y) ^ 2 := by simp only [size]; nlinarith
  have b2 : 1 + size y ^ 2 + 1 ≤ size (.bin op x y) ^ 2 := by simp only [size]; nlinarith
  have b3 : size x ^ 2 + 1 + 1 ≤ size (.bin op x y) ^ 2 := by simp only [size]; nlinarith
  have nb : ∀ op', Costs h (size (.bin op x y) ^ 2) (newBin b op' sl sr) := fun _ => (newBin_costs cl cr).mono b1
  have nl : ∀ op' c, Costs h (size (.bin op x y) ^ 2) (newBin b op' (newConst c) sr) := fun _ c =>
    (newBin_costs (newConst_costs c) cr).mono b2
  have nr : ∀ op' c, Costs h (size (.bin op x y) ^ 2) (newBin b op' sl (newConst c)) := fun _ c =>
    (newBin_costs cl (newConst_costs c)).mono b3
  have nc : ∀ c, Costs h (size (.bin op x y) ^ 2) (newConst c) := fun c => (newConst_costs c).mono (by omega)
  replace cl : Costs h (size (.bin op x y) ^ 2) sl := cl.mono (by omega)
  replace cr : Costs h (size (.bin op x y) ^ 2) sr := cr.mono (by omega)
  cases op with
  | uid => exact (newBin_costs (clone_costs Hl) (clone_costs Hr)).mono (by simp only [size]; nlinarith)
  | plus =>
    refine Costs.askConst Hl (.ite (fun _ => ?_) fun _ => .askConst Hr (.ite (fun _ => ?_) fun _ => nb _))
    · exact .ask Hl fun v _ => .ite (fun _ => cr) fun _ => nl _ _
    · exact .ask Hr fun v _ => .ite (fun _ => cl) fun _ => nr _ _
  | minus =>
    refine Costs.askConst Hl (.ite (fun _ => ?_) fun _ => .askConst Hr (.ite (fun _ => ?_) fun _ => nb _))
    · exact .ask Hl fun v _ => .ite (fun _ => nl _ _) fun _ => nl _ _
    · exact .ask Hr fun v _ => .ite (fun _ => cl) fun _ => nr _ _
  | div =>
    refine Costs.askConst Hl (.ite (fun _ => ?_) fun _ => .askConst Hr (.ite (fun _ => ?_) fun _ => nb _))
    · exact .ask Hl fun v _ => .ite (fun _ => nc _) fun _ => nl _ _
    · exact .ask Hr fun v _ => .ite (fun _ => cl) fun _ => nr _ _
  | mult =>
    refine Costs.askConst Hl (.ite (fun _ => ?_) fun _ => .askConst Hr (.ite (fun _ => ?_) fun _ => ?_))
    · exact .ask Hl fun v _ => .ite (fun _ => nc _) fun _ => .ite (fun _ => cr) fun _ => nl _ _
    · exact .ask Hr fun v _ => .ite (fun _ => nc _) fun _ => .ite (fun _ => cl) fun _ => nr _ _
    · refine .cell Hl fun ks G1 o1 _ _ => .cell Hr fun ls G2 o2 _ _ => ?_
      cases x with
      | vec es =>
        cases y with
        | vec fs => exact (dotA_costs o1 o2).mono (Nat.pow_le_pow_left (by simp only [size, Expr.operands]; omega) 2)
        | _ => exact nb _
      | _ => exact nb _

/-- One pass of simplification takes at most the square of the number of objects. -/
theorem simplifyN_costs (e : Expr K) : ∀ {n a F} {h : Heap K}, a < n → Own h.cells a e F →
    Costs h (size e ^ 2) (simplifyN o n a) := by
  induction e using Expr.ind' with
  | h e ih =>
    intro n a F h hn H
    obtain ⟨n, rfl⟩ : ∃ m, n = m + 1 := ⟨n - 1, by omega⟩
    have hcl : Costs h (size e ^ 2) (clone a) := (clone_costs H).mono (by have := size_pos e; nlinarith)
    refine .cell H fun ks G H1 hF hlt => ?_
    have hk : ∀ k ∈ ks, k < n := fun k hk => by
      obtain ⟨x, -, Gx, g1, g2⟩ := H1.of_mem k hk
      have := hlt k (g2 k g1.root_mem); omega
    cases e with
    | const c => cases H1; exact hcl
    | var c => cases H1; exact hcl
    | fsym c t => cases H1; exact hcl
    | vec es => exact hcl
    | un op x =>
      cases H1 with
      | @cons k _ F1 ks _ F2 a1 a2 =>
      cases a2
      have px := size_pos x
      have ihx := ih x (by simp [Expr.operands]) (hk k (by simp)) a1
      refine .askConst a1 (.ite (fun _ => ?_) fun _ => (newUn_costs ihx).mono (by simp only [size]; nlinarith))
      refine .ask a1 fun v _ => .ite (fun _ => ?_) fun _ =>
        (newUn_costs (newConst_costs v)).mono (by simp only [size]; nlinarith)
      exact (Costs.look.bind (M := 1) fun _ _ _ _ _ _ _ _ => newConst_costs _).mono (by simp only [size]; nlinarith)
    | integ lo hi i x =>
      cases H1 with
      | @cons k1 _ F1 ks1 _ G1 a1 b1 =>
      cases b1 with
      | @cons k2 _ F2 ks2 _ G2 a2 b2 =>
      cases b2 with
      | @cons k3 _ F3 ks3 _ G3 a3 b3 =>
      cases b3
      have px := size_pos x
      have pl := size_pos lo
      have pu := size_pos hi
      have ihx := ih x (by simp [Expr.operands]) (hk k3 (by simp)) a3
      refine .askConst a3 (.ite (fun _ => ?_) fun _ => (newInteg_costs a1 a2 ihx).mono (by simp only [size]; nlinarith))
      exact .ask a3 fun v _ => (newInteg_costs a1 a2 (newConst_costs v)).mono (by simp only [size]; nlinarith)
    | bin op x y =>
      cases H1 with
      | @cons k1 _ F1 ks1 _ G1 a1 b1 =>
      cases b1 with
      | @cons k2 _ F2 ks2 _ G2 a2 b2 =>
      cases b2
      have ihx := ih x (by simp [Expr.operands]) (hk k1 (by simp)) a1
      have ihy := ih y (by simp [Expr.operands]) (hk k2 (by simp)) a2
      refine .askConst a1 (.askConst a2 (.ite (fun _ => ?_) fun _ => simpBinA_costs a1 a2 ihx ihy))
      exact .ask H fun v _ => (newConst_costs v).mono (Nat.one_le_pow _ _ (size_pos _))

theorem simplifyA_costs (H : Own h.cells a e F) : Costs h (size e ^ 2) (simplifyA o a) :=
  simplifyN_costs e (Nat.lt_succ_self a) H

theorem loopA_upto {h0 : Heap K} {s : Nat} : ∀ {n : Nat} {e : Expr K} {a : Nat} {h1 : Heap K} {F L : List Nat},
    Adds h0 h1 (F ++ L) → Own h1.cells a e F → size e ≤ s → Upto (h1.next + n * s ^ 2) (loopA o n a h1) := by
  intro n
  induction n with
  | zero => intro e a h1 F L E H hs; trivial
  | succ n ih =>
    intro e a h1 F L E H hs
    have hq := ask_eq (q := canSimplify) H (.refl E.wf')
    have hn : (n + 1) * s ^ 2 = s ^ 2 + n * s ^ 2 := by ring
    have hs2 : size e ^ 2 ≤ s ^ 2 := Nat.pow_le_pow_left hs 2
    rw [loopA, hn]
    refine Upto.bind (n := h1.next) (Upto.owning ?_) (fun b h2 q1 hl1 => ?_) (by omega)
    · rw [hq]; simp only [Run.look]; cases canSimplify e <;> first | exact Nat.le_refl _ | trivial
    · have e1 : h2 = h1 := by
        have := owning_ok q1
        rw [hq] at this; simp only [Run.look] at this
        cases hc : canSimplify e with
        | ok v => rw [hc] at this; cases this; rfl
        | throw x => rw [hc] at this; cases this
        | ub => rw [hc] at this; cases this
      subst e1
      cases b with
      | false => show h2.next ≤ _; omega
      | true =>
        simp only [if_true]
        refine ((simplifyA_costs (o := o) H) h2 [] (.refl E.wf')).1.owning.bind (fun a' h3 q2 hl2 => ?_) (by omega)
        obtain ⟨e', F', L', g1, g2, g3⟩ := (simplifyA_makes (U := True) (Lk := True) (o := o) trivial H).inv (.refl E.wf')
          (owning_ok q2)
        obtain ⟨i1, i2, i3⟩ := (E.trans g3).del (B := F' ++ (L ++ L')) (H.adds g3) (by perm_parts)
        rw [bind_ok i1]
        refine (ih i2 (i3 g2 (by simp +contextual)) ((Pass.of_simplify g1).size_le.trans hs)).mono ?_
        simp only [Heap.free]
        omega

/-- Simplification of a tree made since `h0` takes at most twice the cube of the number of objects. -/
theorem simplifiedA_upto {h0 : Heap K} (E : Adds h0 h1 (F ++ L)) (H : Own h1.cells a e F) :
    Upto (h1.next + 2 * size e ^ 3) (simplifiedA o a h1) := by
  rw [simplifiedA, bind_ok (a := weight e) (s' := h1) (by rw [ask_eq H (.refl E.wf')]; rfl)]
  refine (loopA_upto E H (Nat.le_refl _)).mono ?_
  have := Nat.mul_le_mul_right (size e ^ 2) (weight_size e)
  have h3 : 2 * size e * size e ^ 2 = 2 * size e ^ 3 := by ring
  omega

/-- A function that ends with `inplace_simplify(temp); return temp;`. -/
theorem simplified_costs {r : Res (Expr K)} (hm : Makes True True h r m) (hc : Costs h N m)
    (hs : ∀ e, r = .ok e → size e ≤ M) : Costs h (N + 2 * M ^ 3) (m >>= simplifiedA o) := by
  refine .of_makes (simplified_makes trivial hm) fun h1 A E => ?_
  refine (hc h1 A E).1.bind (fun a h2 q hl => ?_) (by omega)
  obtain ⟨e, F, L, c1, c2, c3⟩ := hm.inv E q
  have := Nat.pow_le_pow_left (hs e c1) 3
  exact (simplifiedA_upto c3 c2).mono (by omega)

/-! ### Vectors -/

omit [Num K] in
/-- Each entry is computed and copied. -/
theorem entriesA_costs {f : Nat → Act K Nat} {c : Expr K → Nat} : ∀ {es : List (Expr K)}
    {ks F : List Nat} {h : Heap K}, OwnL h.cells ks es F →
    (∀ k ∈ ks, ∀ e ∈ es, ∀ F, Own h.cells k e F → Costs h (c e) (viaTemp (f k))) →
    Costs h (es.map c).sum (entriesA f ks) := by
  intro es
  induction es with
  | nil => intro ks F h H _; cases H; exact Costs.pure _
  | cons x es ih =>
    intro ks F h H hc
    cases H with
    | @cons k _ F1 ks _ F2 a1 a2 =>
      refine (hc k (by simp) x (by simp) F1 a1).bind fun h1 A a h2 B E q1 E' => ?_
      have := ih (a2.adds (E.trans E')) (fun k hk e he F hF => by
          obtain ⟨e', he', Fe, g1, -⟩ := a2.of_mem k hk
          have : e' = e := by
            have := load_own (g1.adds (E.trans E'))
            rw [load_own hF] at this; exact (Res.ok.inj this).symm
          subst this
          exact (hc k (by simp [hk]) e' (by simp [he]) Fe g1).adds (E.trans E'))
      exact this.bind (M := 0) fun _ _ _ _ _ _ _ _ => Costs.pure _

/-! ### Differentiation -/

theorem diffFnA_costs {b : Bool} {fn : Fn} {d : Act K Nat} (H : Own h.cells a e F) (hd : Costs h N d) :
    Costs h (N + 2 * size e + 4) (diffFnA b fn a d) := by
  have hc := clone_costs H
  cases fn with
  | id => exact hd.mono (by omega)
  | exp => exact (newBin_costs (newUn_costs hc) hd).mono (by omega)
  | sin => exact (newBin_costs (newUn_costs hc) hd).mono (by omega)
  | cos => exact (newBin_costs (newUn_costs hc) (newBin_costs (newConst_costs _) hd)).mono (by omega)
  | tan => exact (newBin_costs hd (newBin_costs (newUn_costs hc) (newUn_costs hc))).mono (by omega)
  | fabs => exact Costs.mono (m := Run.look fun _ => Res.throw _) Costs.look (Nat.zero_le _)
  | sqrt => exact (newBin_costs hd (newBin_costs (newConst_costs _) (newUn_costs hc))).mono (by have := size_pos e; omega)
  | log => exact (newBin_costs hd (newUn_costs hc)).mono (by omega)
  | log10 => exact (newBin_costs hd (newBin_costs (newConst_costs _) (newUn_costs hc))).mono (by have := size_pos e; omega)

theorem diffBinA_costs {b : Bool} {op : BOp} {l r : Nat} {x y : Expr K} {sl sr : Act K Nat}
    (Hl : Own h.cells l x F) (Hr : Own h.cells r y G) (ml : Costs h N sl) (mr : Costs h M sr) :
    Costs h (N + M + size x + 3 * size y + 5) (diffBinA b op l r sl sr) := by
  have cl := clone_costs Hl
  have cr := clone_costs Hr
  cases op with
  | plus => exact (newBin_costs ml mr).mono (by omega)
  | minus => exact (newBin_costs ml mr).mono (by omega)
  | mult => exact (newBin_costs (newBin_costs ml cr) (newBin_costs cl mr)).mono (by omega)
  | div =>
    exact (newBin_costs (newBin_costs (newBin_costs ml cr) (newBin_costs cl mr)) (newBin_costs cr cr)).mono (by omega)
  | uid => exact Costs.mono (m := Run.look fun _ => Res.throw _) Costs.look (Nat.zero_le _)

omit [Num K] in
theorem diffBin_bound {op : BOp} (y z : Expr K) :
    2 * 2 ^ gradDepth y * size y ^ 3 + 2 * 2 ^ gradDepth z * size z ^ 3 + size y + 3 * size z + 5 ≤
      2 * 2 ^ gradDepth (.bin op y z) * size (.bin op y z) ^ 3 := by
  have e1 := Nat.pow_le_pow_right (n := 2) (by omega) (Nat.le_max_left (gradDepth y) (gradDepth z))
  have e2 := Nat.pow_le_pow_right (n := 2) (by omega) (Nat.le_max_right (gradDepth y) (gradDepth z))
  simp only [gradDepth, size]
  have hg : 1 ≤ 2 ^ max (gradDepth y) (gradDepth z) := Nat.pow_pos (by omega)
  generalize 2 ^ max (gradDepth y) (gradDepth z) = P at *
  have py := size_pos y
  have pz := size_pos z
  have f1 := Nat.mul_le_mul_right (size y ^ 3) (Nat.mul_le_mul_left 2 e1)
  have f2 := Nat.mul_le_mul_right (size z ^ 3) (Nat.mul_le_mul_left 2 e2)
  have f3 : size y ^ 3 + size z ^ 3 + (size y + 3 * size z + 5) ≤ (size y + size z + 1) ^ 3 := by
    generalize size y = Y at *; generalize size z = Z at *
    ring_nf; nlinarith [Nat.mul_le_mul py pz]
  have f4 := Nat.mul_le_mul_left (2 * P) f3
  have f5 : 2 * P * (size y ^ 3 + size z ^ 3 + (size y + 3 * size z + 5)) =
    2 * P * size y ^ 3 + 2 * P * size z ^ 3 + 2 * P * (size y + 3 * size z + 5) := by ring
  have f6 : size y + 3 * size z + 5 ≤ 2 * P * (size y + 3 * size z + 5) :=
    Nat.le_mul_of_pos_left _ (by omega)
  omega

/-- The derivative of a unary expression; that of the argument of a gradient is computed twice. -/
theorem diffUnA_costs {x : DVar} {op : UOp} {y : Expr K} {k : Nat} {first : Bool} {d' : Act K Nat} (a1 : Own h.cells k y F)
    (mkx : Makes True True h (diffE x y) d') (ihx : Costs h (2 * 2 ^ gradDepth y * size y ^ 3) d') :
    Costs h (2 * 2 ^ gradDepth (.un op y : Expr K) * size (.un op y : Expr K) ^ 3) (diffUnA first x op k d') := by
  have py := size_pos y
  cases op with
  | fn fn =>
    refine (diffFnA_costs a1 ihx).mono ?_
    simp only [gradDepth, size]
    have hg : 1 ≤ 2 ^ gradDepth y := Nat.pow_pos (by omega)
    generalize 2 ^ gradDepth y = P at *
    have f3 : size y ^ 3 + (2 * size y + 4) ≤ (size y + 1) ^ 3 := by
      generalize size y = Y at *
      ring_nf; nlinarith
    have f4 := Nat.mul_le_mul_left (2 * P) f3
    have f5 : 2 * P * (size y ^ 3 + (2 * size y + 4)) = 2 * P * size y ^ 3 + 2 * P * (2 * size y + 4) := by ring
    have f6 : 2 * size y + 4 ≤ 2 * P * (2 * size y + 4) := Nat.le_mul_of_pos_left _ (by omega)
    omega
  | grad =>
    refine .of_makes (diffUnA_makes (Lk := True) (op := .grad) a1 (fun _ => mkx) fun _ _ => trivial) fun h1 A E => ?_
    cases x with
    | var i => exact Nat.le_add_right _ _
    | fsym i t =>
      have hT : 2 * (2 * 2 ^ gradDepth y * size y ^ 3) + 2 ≤
          2 * 2 ^ gradDepth (.un .grad y : Expr K) * size (.un .grad y : Expr K) ^ 3 := by
        simp only [gradDepth, size]
        have hg : 1 ≤ 2 ^ gradDepth y := Nat.pow_pos (by omega)
        rw [pow_succ 2 (gradDepth y)]
        generalize 2 ^ gradDepth y = P at *
        have f3 : size y ^ 3 + 1 ≤ (size y + 1) ^ 3 := by ring_nf; omega
        have f4 := Nat.mul_le_mul_left (4 * P) f3
        have f5 : 4 * P * (size y ^ 3 + 1) = 2 * (2 * P * size y ^ 3) + 4 * P := by ring
        have f6 : 4 * P * (size y + 1) ^ 3 = 2 * (P * 2) * (size y + 1) ^ 3 := by ring
        omega
      generalize 2 * 2 ^ gradDepth y * size y ^ 3 = D at *
      generalize 2 * 2 ^ gradDepth (.un .grad y : Expr K) * size (.un .grad y : Expr K) ^ 3 = T at *
      refine (newConst_costs (Num.lit 0) h1 A E).1.bind (fun c0 h2 q1 l1 => ?_) (by omega)
      obtain ⟨e0, C, L0, c1, c2, c3⟩ := (newConst_makes (U := True) (Lk := True) (Num.lit 0)).inv E q1
      cases c1
      refine (ihx h2 _ (E.trans c3)).1.bind (fun d h3 q2 l2 => ?_) (by omega)
      obtain ⟨e1, D', L1, d1, d2, d3⟩ := mkx.inv (E.trans c3) q2
      have hq := ask_eq (q := fun e => deepEq e (.const (Num.lit 0))) d2 (.refl d3.wf')
      obtain ⟨b, hb⟩ : ∃ b, deepEq e1 (.const (Num.lit 0)) = .ok b := by
        cases e1 <;> simp [deepEq]
      simp only [Run.look, hb] at hq
      rw [bind_ok hq]
      cases b with
      | true =>
        exact Upto.delete (fun h4 _ hl => by show h4.next ≤ _; omega) (by omega)
      | false =>
        obtain ⟨i1, i2, i3⟩ := (c3.trans d3).del (B := D' ++ (L0 ++ L1)) (c2.adds d3) (by perm_parts)
        simp only [Bool.false_eq_true, if_false]
        rw [bind_ok i1]
        refine (newUn_costs (op := .grad) ihx (h3.free C) _ (E.trans i2)).1.mono ?_
        simp only [Heap.free]
        omega
  | divg => simp only [diffUnA]; exact Costs.look.mono (Nat.zero_le _)
  | pd i => simp only [diffUnA]; exact Costs.look.mono (Nat.zero_le _)
  | symInt i => simp only [diffUnA]; exact Costs.look.mono (Nat.zero_le _)

theorem diffN_costs {x : DVar} (e : Expr K) : ∀ {n a F} {h : Heap K}, a < n → Own h.cells a e F →
    Costs h (2 * 2 ^ gradDepth e * size e ^ 3) (diffN o x n a) := by
  induction e using Expr.ind' with
  | h e ih =>
    intro n a F h hn H
    obtain ⟨n, rfl⟩ : ∃ m, n = m + 1 := ⟨n - 1, by omega⟩
    have hpos : 1 ≤ 2 * 2 ^ gradDepth e * size e ^ 3 :=
      Nat.mul_pos (Nat.mul_pos (by omega) (Nat.pow_pos (by omega))) (Nat.pow_pos (size_pos e))
    refine .cell H fun ks G H1 hF hlt => ?_
    have hk : ∀ k ∈ ks, k < n := fun k hk => by
      obtain ⟨x, -, Gx, g1, g2⟩ := H1.of_mem k hk
      have := hlt k (g2 k g1.root_mem); omega
    cases e with
    | const c => exact (newConst_costs _).mono hpos
    | var c => exact (newConst_costs _).mono hpos
    | fsym c t =>
      cases x with
      | var i => exact Costs.look.mono (Nat.zero_le _)
      | fsym j u => exact (newConst_costs _).mono hpos
    | vec es =>
      have hmem : ∀ e ∈ es, gradDepth e ≤ gradDepths es := by
        clear H1 hpos H ih
        induction es with
        | nil => simp
        | cons x es ih =>
          intro e he
          rw [gradDepths]
          rcases List.mem_cons.1 he with rfl | he
          · omega
          · have := ih e he; omega
      refine ((entriesA_costs (c := fun e => 2 * 2 ^ gradDepths es * size e ^ 3 + 2 * size e ^ 2) H1
        fun k hk' e he F' hF' => ?_).bind fun _ _ _ _ _ _ _ _ => new_costs _ _).mono ?_
      · refine viaTemp_costs (diffN_makes e (hk k hk') hF' fun _ _ => trivial) ((ih e he (hk k hk') hF').mono ?_)
          fun e' he' => size_diffE x e e' he'
        have := Nat.pow_le_pow_right (n := 2) (by omega) (hmem e he)
        exact Nat.mul_le_mul_right _ (Nat.mul_le_mul_left 2 this)
      · simp only [Expr.operands, gradDepth, size]
        generalize gradDepths es = g
        have hg : 1 ≤ 2 ^ g := Nat.pow_pos (by omega)
        generalize 2 ^ g = P at *
        have : (es.map fun e => 2 * P * size e ^ 3 + 2 * size e ^ 2).sum ≤ 2 * P * sizes es ^ 3 := by
          clear * - hg
          induction es with
          | nil => simp [sizes]
          | cons x es ih =>
            have px := size_pos x
            simp only [List.map_cons, List.sum_cons, sizes]
            refine (Nat.add_le_add_left ih _).trans ?_
            have h1 : 2 * size x ^ 2 ≤ 2 * P * size x ^ 2 := by nlinarith [Nat.pow_pos (n := 2) px]
            have h2 : size x ^ 3 + size x ^ 2 + sizes es ^ 3 ≤ (size x + 1 + sizes es) ^ 3 := by
              ring_nf; nlinarith [Nat.zero_le (size x), Nat.zero_le (sizes es)]
            have h3 := Nat.mul_le_mul_left (2 * P) h2
            have h4 : 2 * P * (size x ^ 3 + size x ^ 2 + sizes es ^ 3) =
              2 * P * size x ^ 3 + 2 * P * size x ^ 2 + 2 * P * sizes es ^ 3 := by ring
            omega
        have h2 : sizes es ^ 3 + 1 ≤ (sizes es + 1) ^ 3 := by ring_nf; omega
        have h3 := Nat.mul_le_mul_left (2 * P) h2
        have h4 : 2 * P * (sizes es ^ 3 + 1) = 2 * P * sizes es ^ 3 + 2 * P := by ring
        omega
    | integ lo hi i x =>
      cases H1 with
      | @cons k1 _ F1 ks1 _ G1 a1 b1 =>
      cases b1 with
      | @cons k2 _ F2 ks2 _ G2 a2 b2 =>
      cases b2 with
      | @cons k3 _ F3 ks3 _ G3 a3 b3 =>
      cases b3
      exact Costs.look.mono (Nat.zero_le _)
    | bin op y z =>
      cases H1 with
      | @cons k1 _ F1 ks1 _ G1 a1 b1 =>
      cases b1 with
      | @cons k2 _ F2 ks2 _ G2 a2 b2 =>
      cases b2
      have ihx := ih y (by simp [Expr.operands]) (hk k1 (by simp)) a1
      have ihy := ih z (by simp [Expr.operands]) (hk k2 (by simp)) a2
      exact (diffBinA_costs a1 a2 ihx ihy).mono (diffBin_bound y z)
    | un op y =>
      cases H1 with
      | @cons k _ F1 ks _ F2 a1 a2 =>
      cases a2
      exact diffUnA_costs a1 (diffN_makes y (hk k (by simp)) a1 fun _ _ => trivial)
        (ih y (by simp [Expr.operands]) (hk k (by simp)) a1)

theorem diffA_costs {x : DVar} (H : Own h.cells a e F) :
    Costs h (2 * 2 ^ gradDepth e * size e ^ 3) (diffA o x a) := diffN_costs e (Nat.lt_succ_self a) H

/-! ### Substitution -/

omit [Num K] in
theorem substBin_bound {op : BOp} {R : Nat} (hR : 1 ≤ R) (y z : Expr K) :
    R * size y ^ 2 + R * size z ^ 2 + 1 ≤ R * size (.bin op y z) ^ 2 := by
  simp only [size]
  have h2 : size y ^ 2 + size z ^ 2 + 1 ≤ (size y + size z + 1) ^ 2 := by
    nlinarith [Nat.zero_le (size y), Nat.zero_le (size z)]
  have h3 := Nat.mul_le_mul_left R h2
  have h4 : R * (size y ^ 2 + size z ^ 2 + 1) = R * size y ^ 2 + R * size z ^ 2 + R := by ring
  omega

theorem findA_costs {sAs : List (Act K (Expr K))} {rAs : List (Act K Nat)} {ss : List (Expr K)} {M : Nat}
    {miss : Act K Nat} (H : Own h.cells a e F) (hs : List.Forall₂ (Reads h) sAs ss)
    (hc : ∀ rA ∈ rAs, Costs h M rA) (hm : Costs h M miss) : Costs h M (findA a miss sAs rAs) := by
  induction hs generalizing rAs with
  | nil => simpa [findA] using hm
  | @cons sA s sAs ss h1 _ ih =>
    intro h2 A E
    unfold findA
    rw [bind_ok (h1 h2 A E)]
    revert h2 A E
    refine Costs.ask (q := fun e => deepEq e s) H fun b _ => .ite (fun _ => ?_) fun _ =>
      ih fun rA h => hc rA (List.mem_of_mem_tail h)
    cases rAs with
    | nil => exact (Costs.look).mono (Nat.zero_le _)
    | cons rA rAs => exact hc rA (by simp)

theorem substN_costs {sAs : List (Act K (Expr K))} {rAs : List (Act K Nat)} {ss rs : List (Expr K)} {R : Nat}
    (pr : 1 ≤ R) (hR : ∀ r ∈ rs, size r ≤ R) (e : Expr K) :
    ∀ {n a F} {h : Heap K}, a < n → Own h.cells a e F → List.Forall₂ (Reads h) sAs ss →
    List.Forall₂ (fun rA r => Makes True True h (.ok r) rA) rAs rs → (∀ rA ∈ rAs, Costs h R rA) →
    Costs h (R * size e ^ 2) (substN o sAs rAs n a) := by
  induction e using Expr.ind' with
  | h e ih =>
    intro n a F h hn H hs hr hc
    obtain ⟨n, rfl⟩ : ∃ m, n = m + 1 := ⟨n - 1, by omega⟩
    have hmul : ∀ {x}, x ≤ size e ^ 2 → x ≤ R * size e ^ 2 := fun hx =>
      hx.trans (Nat.le_mul_of_pos_left _ pr)
    refine .cell H fun ks G H1 hF hlt => ?_
    have hk : ∀ k ∈ ks, k < n := fun k hk => by
      obtain ⟨x, -, Gx, g1, g2⟩ := H1.of_mem k hk
      have := hlt k (g2 k g1.root_mem); omega
    refine findA_costs H hs (fun rA h => (hc rA h).mono ?_) ?_
    · exact Nat.le_mul_of_pos_right _ (Nat.pow_pos (size_pos e))
    have hcl : Costs h (R * size e ^ 2) (clone a) := (clone_costs H).mono (hmul (by have := size_pos e; nlinarith))
    cases e with
    | const c => cases H1; exact hcl
    | var c => cases H1; exact hcl
    | fsym c t => cases H1; exact hcl
    | vec es =>
      refine ((entriesA_costs (c := fun e => R * size e ^ 2 + R * size e) H1
        fun k hk' e he F' hF' => ?_).bind fun _ _ _ _ _ _ _ _ => new_costs _ _).mono ?_
      · refine viaTemp_costs (substN_makes trivial e (hk k hk') hF' hs hr) (ih e he (hk k hk') hF' hs hr hc)
          fun e' he' => size_substM ss rs _ pr hR e e' he'
      · simp only [Expr.operands, size]
        clear * - pr
        have : (es.map fun e => R * size e ^ 2 + R * size e).sum ≤ R * sizes es ^ 2 := by
          induction es with
          | nil => simp [sizes]
          | cons x es ih =>
            have px := size_pos x
            simp only [List.map_cons, List.sum_cons, sizes]
            refine (Nat.add_le_add_left ih _).trans ?_
            have h2 : size x ^ 2 + size x + sizes es ^ 2 ≤ (size x + 1 + sizes es) ^ 2 := by
              ring_nf; nlinarith [Nat.zero_le (size x), Nat.zero_le (sizes es)]
            have h3 := Nat.mul_le_mul_left R h2
            have h4 : R * (size x ^ 2 + size x + sizes es ^ 2) = R * size x ^ 2 + R * size x + R * sizes es ^ 2 := by ring
            omega
        have h2 : sizes es ^ 2 + 1 ≤ (sizes es + 1) ^ 2 := by ring_nf; omega
        have h3 := Nat.mul_le_mul_left R h2
        have h4 : R * (sizes es ^ 2 + 1) = R * sizes es ^ 2 + R := by ring
        omega
    | integ lo hi i x =>
      cases H1 with
      | @cons k1 _ F1 ks1 _ G1 a1 b1 =>
      cases b1 with
      | @cons k2 _ F2 ks2 _ G2 a2 b2 =>
      cases b2 with
      | @cons k3 _ F3 ks3 _ G3 a3 b3 =>
      cases b3
      refine (newInteg_costs a1 a2 (ih x (by simp [Expr.operands]) (hk k3 (by simp)) a3 hs hr hc)).mono ?_
      have px := size_pos x
      have pl := size_pos lo
      have pu := size_pos hi
      simp only [size]
      have h2 : size x ^ 2 + (size lo + size hi + 1) ≤ (size lo + size hi + size x + 1) ^ 2 := by nlinarith
      have h3 := Nat.mul_le_mul_left (R) h2
      have h4 : R * (size x ^ 2 + (size lo + size hi + 1)) = R * size x ^ 2 + R * (size lo + size hi + 1) := by
        ring
      have h5 := Nat.le_mul_of_pos_left (size lo + size hi + 1) pr
      omega
    | bin op y z =>
      cases H1 with
      | @cons k1 _ F1 ks1 _ G1 a1 b1 =>
      cases b1 with
      | @cons k2 _ F2 ks2 _ G2 a2 b2 =>
      cases b2
      refine (newBin_costs (ih y (by simp [Expr.operands]) (hk k1 (by simp)) a1 hs hr hc)
        (ih z (by simp [Expr.operands]) (hk k2 (by simp)) a2 hs hr hc)).mono ?_
      exact substBin_bound pr y z
    | un op y =>
      cases H1 with
      | @cons k _ F1 ks _ F2 a1 a2 =>
      cases a2
      refine (newUn_costs (ih y (by simp [Expr.operands]) (hk k (by simp)) a1 hs hr hc)).mono ?_
      simp only [size]
      have h2 : size y ^ 2 + 1 ≤ (size y + 1) ^ 2 := by ring_nf; omega
      have h3 := Nat.mul_le_mul_left (R) h2
      have h4 : R * (size y ^ 2 + 1) = R * size y ^ 2 + R := by ring
      omega

theorem substManyA_costs {sAs : List (Act K (Expr K))} {rAs : List (Act K Nat)} {ss rs : List (Expr K)} {R : Nat}
    (pr : 1 ≤ R) (hR : ∀ r ∈ rs, size r ≤ R) (H : Own h.cells a e F) (hs : List.Forall₂ (Reads h) sAs ss)
    (hr : List.Forall₂ (fun rA r => Makes True True h (.ok r) rA) rAs rs) (hc : ∀ rA ∈ rAs, Costs h R rA) :
    Costs h (R * size e ^ 2) (substManyA o sAs rAs a) :=
  substN_costs pr hR e (Nat.lt_succ_self a) H hs hr hc

theorem substA_costs {sA : Act K (Expr K)} {rA : Act K Nat} {s r : Expr K} (H : Own h.cells a e F)
    (hs : Reads h sA s) (hr : Makes True True h (.ok r) rA) (hc : Costs h (size r) rA) :
    Costs h (size r * size e ^ 2) (substA o sA rA a) :=
  substManyA_costs (size_pos r) (by simp) H (.cons hs .nil) (.cons hr .nil) (by simpa using hc)

theorem substBinA_costs {sA : Act K (Expr K)} {rA : Act K Nat} {s r : Expr K} {op : BOp} {k l : Nat}
    {x y : Expr K} (Hl : Own h.cells k x F) (Hr : Own h.cells l y G)
    (hs : Reads h sA s) (hr : Makes True True h (.ok r) rA) (hc : Costs h (size r) rA) :
    Costs h (size r * size (.bin op x y) ^ 2) (substBinA o sA rA op k l) := by
  have pr := size_pos r
  have ht := (newBin_costs (op := op) (b := o k) (substA_costs (o := o) Hl hs hr hc)
    (substA_costs (o := o) Hr hs hr hc)).mono (substBin_bound (op := op) pr x y)
  intro h1 A E
  rw [substBinA, bind_ok (hs h1 A E)]
  revert h1 A E
  refine Costs.ask Hl fun x' hx => Costs.ask Hr fun y' hy => ?_
  refine (Costs.look.bind (N := 0) fun h1 A b h2 B E _ E' => ?_).mono (Nat.le_of_eq (Nat.zero_add _))
  exact .ite (fun _ => (hc.adds (E.trans E')).mono (Nat.le_mul_of_pos_right _ (Nat.pow_pos (size_pos _))))
    fun _ => ht.adds (E.trans E')

theorem substUnA_costs {sA : Act K (Expr K)} {rA : Act K Nat} {s r : Expr K} {op : UOp} {k : Nat}
    {x : Expr K} (Hl : Own h.cells k x F) (hs : Reads h sA s) (hr : Makes True True h (.ok r) rA)
    (hc : Costs h (size r) rA) : Costs h (size r * size (.un op x) ^ 2) (substUnA o sA rA op k) := by
  have pr := size_pos r
  have ht := (newUn_costs (op := op) (substA_costs (o := o) Hl hs hr hc)).mono
    (show _ ≤ size r * size (.un op x) ^ 2 by simp only [size]; nlinarith [Nat.zero_le (size r * size x)])
  intro h1 A E
  rw [substUnA, bind_ok (hs h1 A E)]
  revert h1 A E
  refine Costs.ask Hl fun x' hx => ?_
  refine (Costs.look.bind (N := 0) fun h1 A b h2 B E _ E' => ?_).mono (Nat.le_of_eq (Nat.zero_add _))
  exact .ite (fun _ => (hc.adds (E.trans E')).mono (Nat.le_mul_of_pos_right _ (Nat.pow_pos (size_pos _))))
    fun _ => ht.adds (E.trans E')

/-! ### Substitution of intervals -/

theorem manipN_costs {lo hi x : Nat} {l u : Expr K} {Fl Fu : List Nat} (e : Expr K) :
    ∀ {n a F} {h : Heap K}, a < n → Own h.cells a e F → Own h.cells lo l Fl → Own h.cells hi u Fu →
    Costs h ((size l + size u + 1) * size e) (manipN o lo hi x n a) := by
  induction e using Expr.ind' with
  | h e ih =>
    intro n a F h hn H hl hu
    obtain ⟨n, rfl⟩ : ∃ m, n = m + 1 := ⟨n - 1, by omega⟩
    have hcl : Costs h ((size l + size u + 1) * size e) (clone a) :=
      (clone_costs H).mono (Nat.le_mul_of_pos_left _ (by omega))
    refine .cell H fun ks G H1 hF hlt => ?_
    have hk : ∀ k ∈ ks, k < n := fun k hk => by
      obtain ⟨x, -, Gx, g1, g2⟩ := H1.of_mem k hk
      have := hlt k (g2 k g1.root_mem); omega
    have pl := size_pos l
    have pu := size_pos u
    cases e with
    | const c => cases H1; exact hcl
    | var c => cases H1; exact hcl
    | fsym c t => cases H1; exact hcl
    | vec es => exact hcl
    | integ _ _ i y =>
      cases H1 with
      | @cons k1 _ F1 ks1 _ G1 a1 b1 =>
      cases b1 with
      | @cons k2 _ F2 ks2 _ G2 a2 b2 =>
      cases b2 with
      | @cons k3 _ F3 ks3 _ G3 a3 b3 =>
      cases b3
      refine (newInteg_costs a1 a2 (ih y (by simp [Expr.operands]) (hk k3 (by simp)) a3 hl hu)).mono ?_
      simp only [size]; nlinarith
    | bin op y z =>
      cases H1 with
      | @cons k1 _ F1 ks1 _ G1 a1 b1 =>
      cases b1 with
      | @cons k2 _ F2 ks2 _ G2 a2 b2 =>
      cases b2
      refine (newBin_costs (ih y (by simp [Expr.operands]) (hk k1 (by simp)) a1 hl hu)
        (ih z (by simp [Expr.operands]) (hk k2 (by simp)) a2 hl hu)).mono ?_
      simp only [size]; nlinarith
    | un op y =>
      cases H1 with
      | @cons k _ F1 ks _ F2 a1 a2 =>
      cases a2
      have := newUn_costs (op := op) (ih y (by simp [Expr.operands]) (hk k (by simp)) a1 hl hu)
      cases op with
      | symInt i =>
        refine (newInteg_costs hl hu (clone_costs a1)).mono ?_
        have := size_pos y
        simp only [size]; nlinarith
      | _ => exact this.mono (by simp only [size]; nlinarith)

theorem manipA_costs {lo hi x : Nat} {l u : Expr K} {Fl Fu : List Nat} (H : Own h.cells a e F)
    (hl : Own h.cells lo l Fl) (hu : Own h.cells hi u Fu) :
    Costs h ((size l + size u + 1) * size e) (manipA o lo hi x a) :=
  manipN_costs e (Nat.lt_succ_self a) H hl hu

/-! ### Arguments -/

variable {x y z : Ref} {b c d : Expr K}

theorem RefIs.clone_costs (H : RefIs h x e) : Costs h (size e) (x.clone : Act K Nat) := by
  cases H with
  | node a => exact VM.clone_costs a
  | whole a b => exact newBin_costs (VM.clone_costs a) (VM.clone_costs b)
  | single a => exact newUn_costs (VM.clone_costs a)

theorem RefIs.diff_costs {v : DVar} (H : RefIs h x e) :
    Costs h (2 * 2 ^ gradDepth e * size e ^ 3) (x.diff o v : Act K Nat) := by
  cases H with
  | node a => exact diffA_costs a
  | whole a b => exact (diffBinA_costs a b (diffA_costs a) (diffA_costs b)).mono (diffBin_bound _ _)
  | single a => exact diffUnA_costs a (diffA_makes a fun _ _ => trivial) (diffA_costs a)

theorem RefIs.subst_costs (Hs : RefIs h x b) (Ht : RefIs h y c) (H : RefIs h z d) :
    Costs h (size c * size d ^ 2) (Ref.subst o x y z : Act K Nat) := by
  cases H with
  | node a => exact substA_costs a Hs.read Ht.clone Ht.clone_costs
  | whole a b => exact substBinA_costs a b Hs.read Ht.clone Ht.clone_costs
  | single a => exact substUnA_costs a Hs.read Ht.clone Ht.clone_costs

theorem RefsAre.clones_costs {xs : List Ref} {es : List (Expr K)} (H : RefsAre h xs es) :
    ∀ rA ∈ xs.map (Ref.clone (K := K)), Costs h ((es.map size).sum + 1) rA := by
  induction H with
  | nil => simp
  | @cons x e xs es h1 _ ih =>
    intro rA hm
    rcases List.mem_cons.1 hm with rfl | hm
    · exact h1.clone_costs.mono (by simp only [List.map_cons, List.sum_cons]; omega)
    · exact (ih rA hm).mono (by simp only [List.map_cons, List.sum_cons]; omega)

theorem withBounds_costs {lo hi : Act K Nat} {k : Nat → Nat → Act K Nat} {r : Res (Expr K)} {N' : Nat}
    (hl : Makes True True h (.ok b) lo) (hu : Makes True True h (.ok c) hi)
    (hk : ∀ {h1 A a a' F G}, Adds h h1 A → Own h1.cells a b F → Own h1.cells a' c G → Makes True True h1 r (k a a'))
    (cl : Costs h N lo) (cu : Costs h N' hi)
    (ck : ∀ {h1 A a a' F G}, Adds h h1 A → Own h1.cells a b F → Own h1.cells a' c G → Costs h1 M (k a a')) :
    Costs h (N + N' + M) (withBounds lo hi k) := by
  refine .of_makes (withBounds_makes hl hu hk) fun h1 A E => ?_
  refine (cl h1 A E).1.bind (fun a h2 q1 l1 => ?_) (by omega)
  obtain ⟨e1, F1, L1, c1, c2, c3⟩ := hl.inv E q1
  cases c1
  refine (cu h2 _ (E.trans c3)).1.owning.bind (fun a' h3 q2 l2 => ?_) (by omega)
  obtain ⟨e2, F2, L2, d1, d2, d3⟩ := hu.inv (E.trans c3) (owning_ok q2)
  cases d1
  refine (ck ((E.trans c3).trans d3) (c2.adds d3) d2 h3 [] (.refl d3.wf')).1.owning.bind (fun a'' h4 q3 l3 => ?_) (by omega)
  exact Upto.delete (fun h5 _ l4 => Upto.delete (fun h6 _ l5 => by show h6.next ≤ _; omega) (by omega)) (by omega)

theorem cloneAll_costs : ∀ {xs : List Ref} {es : List (Expr K)} {h : Heap K}, RefsAre h xs es →
    Costs h (total es) (Ref.cloneAll xs : Act K (List Nat)) := by
  intro xs
  induction xs with
  | nil => intro es h H; cases H; exact Costs.pure _
  | cons x xs ih =>
    intro es h H
    cases H with
    | @cons _ e _ es h1 h2 =>
      refine h1.clone_costs.bind fun g1 A a g2 B E q E' => ?_
      have hall : ∀ {xs : List Ref} {es : List (Expr K)}, RefsAre h xs es → RefsAre g2 xs es := by
        intro xs es H
        induction H with
        | nil => exact .nil
        | cons a _ ih => exact .cons (a.adds (E.trans E')) ih
      exact ((ih (hall h2)).owning).bind (M := 0) fun _ _ _ _ _ _ _ _ => Costs.pure _

end VM
