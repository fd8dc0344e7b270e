import Verif.Rt.WorkLemmas
/-
How many requests for memory the statements of a program make.
-/
namespace VM
variable {K : Type}
open Act Run Prog
open Spec hiding look
variable {n p : Nat} {s : State K} {α β : Type}

/-- If the code has ended, no addresses from `n` on have been used. -/
def PUpto (n : Nat) : Out (State K) α → Prop
  | .ok _ s => s.heap.next ≤ n
  | .throw _ s => s.heap.next ≤ n
  | .ub => True

theorem PUpto.mono {r : Out (State K) α} (H : PUpto n r) (hn : n ≤ p) : PUpto p r := by
  cases r with
  | ok a h => exact Nat.le_trans H hn
  | throw x h => exact Nat.le_trans H hn
  | ub => trivial

theorem PUpto.bind {m : Prog K α} {k : α → Prog K β} (hm : PUpto n (m s))
    (hk : ∀ a t, m s = .ok a t → t.heap.next ≤ n → PUpto p (k a t)) (hn : n ≤ p) : PUpto p ((m >>= k) s) := by
  cases hm' : m s with
  | ok a t => rw [hm'] at hm; rw [bind_ok hm']; exact hk _ _ hm' hm
  | throw x t => rw [hm'] at hm; rw [bind_throw hm']; exact Nat.le_trans hm hn
  | ub => rw [bind_ub hm']; trivial

theorem Upto.heap {m : Act K α} (H : Upto n (m s.heap)) : PUpto n (Prog.heap m s) := by
  simp only [Prog.heap]
  cases hm : m s.heap with
  | ok a h => rw [hm] at H; exact H
  | throw x h => rw [hm] at H; exact H
  | ub => trivial

theorem look_upto {r : State K → Res α} : PUpto s.heap.next (look r s) := by
  simp only [Run.look]
  cases r s with
  | ok a => exact Nat.le_refl _
  | throw x => exact Nat.le_refl _
  | ub => trivial

theorem look_same {r : State K → Res α} {a : α} {t : State K} (h : look r s = .ok a t) : t = s := by
  simp only [Run.look] at h
  cases hr : r s <;> rw [hr] at h <;> cases h
  rfl

theorem bind_inv {σ : Type} {m : Run σ α} {k : α → Run σ β} {s t : σ} {b : β} (h : (m >>= k) s = .ok b t) :
    ∃ a s', m s = .ok a s' ∧ k a s' = .ok b t := by
  cases hm : m s with
  | ok a s' => exact ⟨a, s', rfl, by rw [← h, bind_ok hm]⟩
  | throw x s' => rw [bind_throw hm] at h; cases h
  | ub => rw [bind_ub hm] at h; cases h

/-- Giving an owning pointer another value makes no requests. -/
theorem reset_upto (q : Ptr) (v : Option Nat) : PUpto s.heap.next (reset q v s) := by
  rw [reset, look_bind (f := fun s : State K => s.ptr q)]
  cases s.ptr q with
  | none => exact Nat.le_refl _
  | some a =>
    exact (deleteN_upto (a + 1) a s.heap).heap.bind (m := Prog.heap (delete a)) (fun _ _ _ hl => hl) (Nat.le_refl _)

theorem PUpto.reset {q : Ptr} {v : Option Nat} {k : Unit → Prog K β}
    (hk : ∀ t, t.heap.next ≤ s.heap.next → PUpto n (k () t)) (hn : s.heap.next ≤ n) :
    PUpto n ((Prog.reset q v >>= k) s) :=
  (reset_upto q v).bind (fun _ t _ => hk t) hn

theorem PUpto.unwinding {q : Ptr} {m : Prog K α} (H : PUpto n (m s)) : PUpto n (Prog.unwinding q m s) := by
  simp only [Prog.unwinding]
  cases hm : m s with
  | ok a t => rw [hm] at H; exact H
  | ub => trivial
  | throw x t =>
    rw [hm] at H
    have := reset_upto (s := t) q none
    simp only []
    cases hr : Prog.reset q none t with
    | ok u t' => rw [hr] at this; exact Nat.le_trans this H
    | throw y t' => trivial
    | ub => trivial

theorem request_upto (h : Heap K) : Upto (h.next + 1) (request h) := by
  rcases request_eq (h := h) with hn | ⟨hn, -⟩ <;> rw [hn] <;> exact Nat.le_refl _

variable [Num K] {fl : Nat → Bool} {fp : Ptr → List Nat} {G : List Nat} {σ : Store K} {o : Nat → Bool} {e : Expr K}

omit [Num K] in
theorem sizeAt_eq (H : Inv fl s.heap s.ptr (own σ) fp G) (hk : Kinds s.objs σ) {r : Src}
    (hl : Spec.look σ r = some e) : sizeAt s r = size e ∧ depthAt s r = gradDepth e := by
  simp [sizeAt, depthAt, showing, view_eq H hk, hl, shown]

omit [Num K] in
theorem sizeAt_all (H : Inv fl s.heap s.ptr (own σ) fp G) (hk : Kinds s.objs σ) : ∀ {rs : List Src} {es : List (Expr K)},
    lookAll σ rs = some es → (rs.map fun r => sizeAt s r + 1).sum = sizes es
  | [], es, hl => by cases hl; rfl
  | r :: rs, es, hl => by
    simp only [lookAll, Option.bind_eq_some_iff, Option.map_eq_some_iff] at hl
    obtain ⟨e, h1, es', h2, rfl⟩ := hl
    rw [List.map_cons, List.sum_cons, sizeAt_all H hk h2, (sizeAt_eq H hk h1).1, sizes]

omit [Num K] in
theorem sizeAt_map (H : Inv fl s.heap s.ptr (own σ) fp G) (hk : Kinds s.objs σ) : ∀ {rs : List Src} {es : List (Expr K)},
    lookAll σ rs = some es → rs.map (sizeAt s) = es.map size
  | [], es, hl => by cases hl; rfl
  | r :: rs, es, hl => by
    simp only [lookAll, Option.bind_eq_some_iff, Option.map_eq_some_iff] at hl
    obtain ⟨e, h1, es', h2, rfl⟩ := hl
    rw [List.map_cons, sizeAt_map H hk h2, (sizeAt_eq H hk h1).1, List.map_cons]

omit [Num K] in
/-- Replacing symbolic intervals: a bound for the size of the result. -/
theorem size_interval (l u : Expr K) (i : Nat) (x z : Expr K) (hz : manipulate (symIntFunctor l u i) x = .ok z) :
    size z ≤ (size l + size u + 1) * size x := by
  have leaf : ∀ x : Expr K, size x ≤ (size l + size u + 1) * size x := fun x => Nat.le_mul_of_pos_left _ (by omega)
  match x with
  | .const _ | .var _ | .fsym _ _ | .vec _ => rw [manipulate] at hz <;> first | cases hz; exact leaf _ | simp
  | .un op x =>
    rw [manipulate] at hz
    split at hz
    · cases op <;> cases hz <;> first | exact leaf _ | skip
      have := leaf x
      have := Nat.mul_add (size l + size u + 1) (size x) 1
      simp only [size]
      omega
    · obtain ⟨y, hy, rfl⟩ := Res.map_eq_ok.1 hz
      have := size_interval l u i x y hy
      have := Nat.mul_add (size l + size u + 1) (size x) 1
      simp only [size]
      omega
  | .bin op x y =>
    rw [manipulate] at hz
    split at hz
    · cases hz; exact leaf _
    · obtain ⟨x', hx, h⟩ := Res.bind_eq_ok.1 hz
      obtain ⟨y', hy, rfl⟩ := Res.map_eq_ok.1 h
      have h1 := size_interval l u i x _ hx
      have h2 := size_interval l u i y _ hy
      simp only [size, Nat.mul_add]
      omega
  | .integ a b j x =>
    rw [manipulate] at hz
    split at hz
    · cases hz; exact leaf _
    · obtain ⟨y, hy, rfl⟩ := Res.map_eq_ok.1 hz
      have h1 := size_interval l u i x y hy
      have h2 := leaf a
      have h3 := leaf b
      simp only [size, Nat.mul_add]
      omega

theorem fromCt_costs : ∀ c : Ct.CtExpr, Costs h (ctSize c) (fromCt (K := K) c)
  | .const _ => newConst_costs _
  | .var _ => new_costs _ _
  | .fsym _ => (Costs.look).mono (Nat.zero_le _)
  | .bin l op r => by
    rw [fromCt, ctSize, Nat.add_assoc]
    exact (fromCt_costs l).bind fun h1 A a h2 B E _ E' => ((fromCt_costs r).owning).bind fun _ _ _ _ _ _ _ _ =>
      (new_costs _ _).owning

theorem ctSize_eq : ∀ {c : Ct.CtExpr} {e : Expr K}, Ct.toRt c = some e → ctSize c = size e
  | .const _, _, hc => by cases hc; rfl
  | .var _, _, hc => by cases hc; rfl
  | .fsym _, _, hc => by cases hc
  | .bin l op r, e, hc => by
    rw [Ct.toRt_bin] at hc
    obtain ⟨x, hx, hc⟩ := Option.bind_eq_some_iff.1 hc
    obtain ⟨y, hy, rfl⟩ := Option.map_eq_some_iff.1 hc
    rw [ctSize, size, ctSize_eq hx, ctSize_eq hy]

/-- The computation of a right hand side: its requests, and the size of its value. -/
theorem act_costs (H : Inv fl s.heap s.ptr (own σ) fp G) (hk : Kinds s.objs σ) {rhs : Rhs K} {r : Res (Expr K)}
    (hr : RhsVal σ rhs r) : ∃ xs, s.refs rhs.args = .ok xs ∧ Costs s.heap (enough s rhs) (rhs.act o xs) ∧
      ∀ e, r = .ok e → size e ≤ enough s rhs := by
  have one : ∀ {r : Src} {e : Expr K}, Spec.look σ r = some e → ∃ x, s.refs [r] = .ok [x] ∧ RefIs s.heap x e ∧
      sizeAt s r = size e ∧ depthAt s r = gradDepth e := by
    intro r e hl
    obtain ⟨x, h1, h2, -⟩ := ref_some H hk hl
    exact ⟨x, by simp [State.refs, h1], h2, sizeAt_eq H hk hl⟩
  cases hr with
  | const c => exact ⟨[], rfl, newConst_costs c, by rintro e ⟨⟩; exact Nat.le_refl _⟩
  | var i => exact ⟨[], rfl, new_costs _ _, by rintro e ⟨⟩; exact Nat.le_refl _⟩
  | fsym i t => exact ⟨[], rfl, new_costs _ _, by rintro e ⟨⟩; exact Nat.le_refl _⟩
  | conv hc =>
    exact ⟨[], rfl, fromCt_costs _, by rintro e ⟨⟩; rw [enough, ctSize_eq hc]⟩
  | copy hl =>
    obtain ⟨x, h1, h2, h3, -⟩ := one hl
    exact ⟨[x], h1, by rw [enough, h3]; exact h2.clone_costs, by rintro e ⟨⟩; rw [enough, h3]⟩
  | bin hl hr =>
    obtain ⟨x, h1, h2, -⟩ := ref_some H hk hl
    obtain ⟨y, h3, h4, -⟩ := ref_some H hk hr
    refine ⟨[x, y], by simp [Rhs.args, State.refs, h1, h3], ?_⟩
    rw [enough, (sizeAt_eq H hk hl).1, (sizeAt_eq H hk hr).1]
    exact ⟨newBin_costs h2.clone_costs h4.clone_costs, by rintro e ⟨⟩; exact Nat.le_refl _⟩
  | un hl =>
    obtain ⟨x, h1, h2, h3, -⟩ := one hl
    refine ⟨[x], h1, ?_⟩
    rw [enough, h3]
    exact ⟨newUn_costs h2.clone_costs, by rintro e ⟨⟩; exact Nat.le_refl _⟩
  | integ hl hu hx =>
    obtain ⟨l, h1, h2, -⟩ := ref_some H hk hl
    obtain ⟨u, h3, h4, -⟩ := ref_some H hk hu
    obtain ⟨x, h5, h6, -⟩ := ref_some H hk hx
    refine ⟨[l, u, x], by simp [Rhs.args, State.refs, h1, h3, h5], ?_⟩
    rw [enough, (sizeAt_eq H hk hl).1, (sizeAt_eq H hk hu).1, (sizeAt_eq H hk hx).1]
    refine ⟨?_, by rintro e ⟨⟩; simp only [size]; omega⟩
    exact (withBounds_costs h2.clone h4.clone (fun E Ha Hb => newInteg_makes Ha Hb (h6.adds E).clone)
      h2.clone_costs h4.clone_costs fun E Ha Hb => newInteg_costs Ha Hb (h6.adds E).clone_costs).mono (by omega)
  | @vec rs es hl =>
    obtain ⟨xs, h1, h2⟩ := refs_some H hk hl
    refine ⟨xs, h1, ?_⟩
    have ht := total_sizes es
    rw [enough, sizeAt_all H hk hl]
    refine ⟨?_, by rintro e ⟨⟩; simp only [size]; omega⟩
    have hc : Costs s.heap (total es + 1) (do
        let ks ← Ref.cloneAll xs
        owning ks (new .vec ks) : Act K Nat) :=
      (cloneAll_costs h2).bind fun _ _ _ _ _ _ _ _ => (new_costs _ _).owning
    have := viaTemp_costs (M := sizes es + 1) (cloneAll_makes h2) hc (by rintro e ⟨⟩; simp only [size]; omega)
    cases xs <;> exact this.mono (by omega)
  | simplify hl hs =>
    obtain ⟨x, h1, h2, h3, -⟩ := one hl
    refine ⟨[x], h1, ?_⟩
    rw [enough, h3]
    refine ⟨simplified_costs h2.clone h2.clone_costs (by rintro e ⟨⟩; exact Nat.le_refl _), ?_⟩
    rintro e ⟨⟩
    have := size_simplified hs
    omega
  | @diff i r x y hl hd =>
    obtain ⟨w, h1, h2, h3, h4⟩ := one hl
    refine ⟨[w], h1, ?_⟩
    have px := size_pos x
    rw [enough, h3, h4]
    constructor
    · exact (simplified_costs (h2.diff fun _ _ => trivial) h2.diff_costs fun e he => size_diffE i x e he).mono
        (Nat.le_of_eq (by ring))
    · rintro e ⟨⟩
      obtain ⟨d, hd, h⟩ := Res.bind_eq_ok.1 hd
      have h5 := (size_simplified h).trans (size_diffE i x d hd)
      have h6 : size x ^ 2 ≤ size x ^ 6 := Nat.pow_le_pow_right px (by omega)
      omega
  | @diffThrow i r x z hl hd =>
    obtain ⟨w, h1, h2, h3, h4⟩ := one hl
    refine ⟨[w], h1, ?_, by rintro e ⟨⟩⟩
    rw [enough, h3, h4]
    exact (simplified_costs (h2.diff fun _ _ => trivial) h2.diff_costs fun e he => size_diffE i x e he).mono
      (Nat.le_of_eq (by ring))
  | @subst s' t r x y e z hs ht hx hz =>
    obtain ⟨l, h1, h2, -⟩ := ref_some H hk hs
    obtain ⟨u, h3, h4, -⟩ := ref_some H hk ht
    obtain ⟨w, h5, h6, -⟩ := ref_some H hk hx
    refine ⟨[l, u, w], by simp [Rhs.args, State.refs, h1, h3, h5], ?_⟩
    rw [enough, (sizeAt_eq H hk ht).1, (sizeAt_eq H hk hx).1]
    have hb : ∀ d, substE x y e = .ok d → size d ≤ size y * size e := fun d hd =>
      size_substM [x] [y] _ (size_pos y) (by simp) e d (by rw [← substE_eq_substM]; exact hd)
    refine ⟨simplified_costs (RefIs.subst trivial h2 h4 h6) (h2.subst_costs h4 h6) hb, ?_⟩
    rintro e' ⟨⟩
    obtain ⟨d, hd, h⟩ := Res.bind_eq_ok.1 hz
    have h7 := (size_simplified h).trans (hb d hd)
    have h8 : size e ≤ size e ^ 2 := by have := size_pos e; nlinarith
    have h9 := Nat.mul_le_mul_left (size y) h8
    omega
  | @substMany ss ts r xs ys e z hs ht hx hn hz =>
    obtain ⟨xs', h1, h2⟩ := refs_some H hk hs
    obtain ⟨ys', h3, h4⟩ := refs_some H hk ht
    obtain ⟨w, h5, h6, h7⟩ := ref_some H hk hx
    obtain ⟨a, rfl⟩ := h7 hn
    refine ⟨xs' ++ (ys' ++ [.node a]), ?_, ?_⟩
    · rw [Rhs.args, refs_append, h1, Res.bind_ok, refs_append, h3]
      simp [State.refs, h5]
    have n1 := refs_length h1
    have n2 := refs_length h3
    have ht' : (ts.map (sizeAt s)).sum = (ys.map size).sum := by rw [sizeAt_map H hk ht]
    rw [substituteMany] at hz
    split at hz
    case isFalse => cases hz
    next hl =>
    have hl' : ss.length = ts.length := by rw [← lookAll_length hs, ← lookAll_length ht, hl]
    have hR : ∀ y ∈ ys, size y ≤ (ys.map size).sum + 1 := fun y hy =>
      (List.single_le_sum (l := ys.map size) (fun _ _ => Nat.zero_le _) _ (List.mem_map_of_mem hy)).trans (Nat.le_succ _)
    rw [enough, ht', (sizeAt_eq H hk hx).1, act_substMany n1 n2 hl']
    have hb : ∀ d, substM xs ys e = .ok d → size d ≤ ((ys.map size).sum + 1) * size e := fun d hd =>
      size_substM xs ys _ (by omega) hR e d hd
    constructor
    · cases h6 with
      | node h6 =>
        exact simplified_costs (substManyA_makes trivial h6 h2.reads h4.clones)
          (substManyA_costs (by omega) hR h6 h2.reads h4.clones h4.clones_costs) hb
    rintro e' ⟨⟩
    obtain ⟨d, hd, h⟩ := Res.bind_eq_ok.1 hz
    have h7 := (size_simplified h).trans (hb d hd)
    have h8 : size e ≤ size e ^ 2 := by have := size_pos e; nlinarith
    have h9 := Nat.mul_le_mul_left ((ys.map size).sum + 1) h8
    omega
  | @interval lo hi i r l u x z _ hl hu hx hn hz =>
    obtain ⟨lr, h1, h2, -⟩ := ref_some H hk hl
    obtain ⟨ur, h3, h4, -⟩ := ref_some H hk hu
    obtain ⟨w, h5, h6, h7⟩ := ref_some H hk hx
    obtain ⟨a, rfl⟩ := h7 hn
    refine ⟨[lr, ur, .node a], by simp [Rhs.args, State.refs, h1, h3, h5], ?_⟩
    rw [enough, (sizeAt_eq H hk hl).1, (sizeAt_eq H hk hu).1, (sizeAt_eq H hk hx).1]
    cases h6 with
    | node h6 =>
      constructor
      · exact withBounds_costs h2.clone h4.clone (fun E Ha Hb => manipA_makes (h6.adds E) Ha Hb) h2.clone_costs
          h4.clone_costs fun E Ha Hb => manipA_costs (h6.adds E) Ha Hb
      · rintro e ⟨⟩
        exact (size_interval l u i x z hz).trans (by omega)

/-! ### Statements -/

omit [Num K] in
theorem setObj_upto (i : Nat) (k : Option Kind) : PUpto s.heap.next (setObj i k s) := Nat.le_refl _

/-- The object of a right hand side: the requests until it is there, and its size. -/
theorem create_upto (H : Inv fl s.heap s.ptr (own σ) fp G) (hk : Kinds s.objs σ) {rhs : Rhs K} {r : Res (Expr K)}
    (hr : RhsVal σ rhs r) : PUpto (s.heap.next + enough s rhs) (create o rhs s) := by
  obtain ⟨xs, h1, h2, -⟩ := act_costs (o := o) H hk hr
  rw [create, bind_ok (look_ok (f := fun s : State K => s.refs rhs.args) h1)]
  exact (h2 _ _ (.refl H.wf)).1.heap

theorem init_upto (H : Inv fl s.heap s.ptr (own σ) fp G) (hk : Kinds s.objs σ) {rhs : Rhs K} {r : Res (Expr K)}
    {i : Nat} (hr : RhsVal σ rhs r) : PUpto (s.heap.next + enough s rhs) (exec o (.init i rhs) s) := by
  rw [exec, look_bind (f := fun s : State K => s.objs i)]
  cases s.objs i with
  | some _ => trivial
  | none =>
    simp only
    rw [look_bind (f := fun s : State K => s.isNull rhs)]
    cases s.isNull rhs with
    | true => exact Nat.le_add_right _ _
    | false =>
      refine (create_upto H hk hr).bind (fun a t _ hl => ?_) (Nat.le_refl _)
      rw [bind_ok (setObj_eq _ _ _)]
      exact (reset_upto (s := ⟨t.heap, t.ptr, _⟩) _ _).mono hl

theorem assign_upto (H : Inv fl s.heap s.ptr (own σ) fp G) (hk : Kinds s.objs σ) {rhs : Rhs K} {r : Res (Expr K)}
    {i : Nat} (hr : RhsVal σ rhs r) : PUpto (s.heap.next + 2 * enough s rhs) (exec o (.assign i rhs) s) := by
  have hc := create_upto (o := o) H hk hr
  have direct : PUpto (s.heap.next + 2 * enough s rhs)
      ((do let a ← create o rhs; reset (.one i) (some a) : Prog K Unit) s) :=
    hc.bind (fun a t _ hl => (reset_upto _ _).mono (by omega)) (by omega)
  have viaTmp : PUpto (s.heap.next + 2 * enough s rhs) ((do
        let a ← create o rhs
        reset .tmp (some a)
        let b ← unwinding .tmp (heap (clone a))
        reset (.one i) (some b)
        reset .tmp none : Prog K Unit) s) := by
    cases r with
    | ub => exact absurd hr (by intro h; cases h)
    | throw x =>
      obtain ⟨y, h', L, h1, h2⟩ := create_throw (o := o) H hk hr
      rw [h1] at hc
      rw [bind_throw h1]
      exact Nat.le_trans hc (by omega)
    | ok e =>
      obtain ⟨_, -, -, hs⟩ := act_costs (o := o) H hk hr
      have hs := hs e rfl
      rcases create_ok (o := o) H hk hr with ⟨a, h', F, L, h1, h2, h3, h4⟩ | ⟨h', L, h1, h2, h3⟩
      rotate_left
      · rw [h1] at hc
        rw [bind_throw h1]
        exact Nat.le_trans hc (by omega)
      rw [h1] at hc
      have H1 := H.put h3 h2 .tmp
      have ht : fp .tmp = [] := (H.unset .tmp rfl).2
      rw [ht, Heap.free_nil] at H1
      rw [bind_ok h1, bind_ok (H.reset h3 .tmp (some a)), ht, Heap.free_nil]
      have hc : h'.next ≤ s.heap.next + enough s rhs := hc
      refine ((clone_costs h2 _ _ (.refl H1.wf)).1.heap (s := ⟨h', at' s.ptr .tmp (some a), s.objs⟩)).unwinding.bind
        (fun b t _ hl => ?_) (by omega)
      exact PUpto.reset (fun t' hl' => (reset_upto _ _).mono (by omega)) (by omega)
  cases rhs <;> rw [exec.eq_def] <;> simp only <;> rw [look_bind (f := fun s : State K => s.objs i)] <;>
    rcases s.objs i with _ | (_ | _) <;> first | exact direct | exact viaTmp | trivial

/-- The loop of `inplace_simplify` on an object. -/
theorem inplaceLoop_upto {i S : Nat} : ∀ {n : Nat} {s : State K} {σ : Store K} {e : Expr K} {G : List Nat}, Rep fl s σ G →
    σ i = some (.expr (some e)) → size e ≤ S → PUpto (s.heap.next + n * S ^ 2) (inplaceLoop o i n s) := by
  intro n
  induction n with
  | zero => intro s σ e G _ _ _; trivial
  | succ n ih =>
    intro s σ e G H hi hS
    obtain ⟨⟨fp, H⟩, hk⟩ := H
    have hki := hk i
    rw [hi, Option.map_some, kind] at hki
    have h2n : own σ (.two i) = none := by simp [own, hi, own2]
    obtain ⟨a, p1, p2⟩ := H.owns (.one i) e (by simp [own, hi, own1])
    have hn : (n + 1) * S ^ 2 = S ^ 2 + n * S ^ 2 := by ring
    have hs2 : size e ^ 2 ≤ S ^ 2 := Nat.pow_le_pow_left hS 2
    rw [inplaceLoop, look_bind (f := fun s : State K => s.ptr (.one i)), p1, hn]
    simp only
    have hq := ask_eq (q := canSimplify) p2 (.refl H.wf)
    cases hc : canSimplify e with
    | throw x =>
      simp only [Run.look, hc] at hq
      rw [bind_throw (heap_throw hq)]
      exact Nat.le_add_right _ _
    | ub =>
      simp only [Run.look, hc] at hq
      have : heap (ask canSimplify a) s = .ub := by simp only [Prog.heap, hq]
      rw [bind_ub this]
      trivial
    | ok b =>
      simp only [Run.look, hc] at hq
      rw [bind_ok (heap_ok hq)]
      cases b with
      | false => exact Nat.le_add_right _ _
      | true =>
        simp only [if_true]
        have hu := (simplifyA_costs (o := o) p2 _ _ (.refl H.wf)).1
        cases hm : simplifyA o a s.heap with
        | throw z h' =>
          rw [hm] at hu
          rw [bind_throw (s' := ⟨h', s.ptr, s.objs⟩) (heap_throw (s := ⟨s.heap, s.ptr, s.objs⟩) hm)]
          exact Nat.le_trans hu (by omega)
        | ub =>
          have : heap (simplifyA o a) s = .ub := by simp only [Prog.heap, hm]
          rw [bind_ub this]
          trivial
        | ok a' h' =>
          rw [hm] at hu
          have hu : h'.next ≤ s.heap.next + size e ^ 2 := hu
          obtain ⟨d, F, L, g1, g2, g3⟩ := (simplifyA_makes (U := True) (Lk := False) (o := o) trivial p2).inv
            (.refl H.wf) hm
          rw [bind_ok (s' := ⟨h', s.ptr, s.objs⟩) (heap_ok (s := ⟨s.heap, s.ptr, s.objs⟩) hm),
            bind_ok (H.reset g3 (.one i) (some a'))]
          refine (ih (s := ⟨h'.free (fp (.one i)), at' s.ptr (.one i) (some a'), s.objs⟩)
            (σ := σ.set i (some (.expr (some d)))) (e := d) ⟨⟨_, by rw [own_expr h2n]; exact H.put g3 g2 (.one i)⟩,
              hk.same hki⟩ (by simp [Store.set]) ((Pass.of_simplify g1).size_le.trans hS)).mono ?_
          simp only [Heap.free]
          omega

theorem inplace_upto (H : Rep fl s σ G) {i : Nat} (hi : σ i = some (.expr (some e))) :
    PUpto (s.heap.next + 2 * size e ^ 3) (exec o (.inplace i) s) := by
  have H' := H
  obtain ⟨⟨fp, H⟩, hk⟩ := H
  have hki := hk i
  rw [hi, Option.map_some, kind] at hki
  obtain ⟨a, p1, p2⟩ := H.owns (.one i) e (by simp [own, hi, own1])
  rw [exec, look_bind (f := fun s : State K => (s.objs i, s.ptr (.one i))), hki, p1]
  simp only
  have hq := ask_eq (q := fun e => .ok (weight e)) p2 (.refl H.wf)
  simp only [Run.look] at hq
  rw [bind_ok (heap_ok hq)]
  refine (inplaceLoop_upto H' hi (Nat.le_refl _)).mono ?_
  have := Nat.mul_le_mul_right (size e ^ 2) (weight_size e)
  have h3 : 2 * size e * size e ^ 2 = 2 * size e ^ 3 := by ring
  omega

theorem initBin_upto (H : Inv fl s.heap s.ptr (own σ) fp G) (hk : Kinds s.objs σ) {i : Nat} {op : BOp} {l r : Src}
    {x y : Expr K} (hl : Spec.look σ l = some x) (hr : Spec.look σ r = some y) :
    PUpto (s.heap.next + (size x + size y)) (exec o (.initBin i op l r) s) := by
  obtain ⟨u, u1, u2, -⟩ := ref_some H hk hl
  obtain ⟨w, w1, w2, -⟩ := ref_some H hk hr
  rw [exec, look_bind (f := fun s : State K => s.objs i)]
  cases s.objs i with
  | some _ => trivial
  | none =>
    simp only
    rw [bind_ok (look_ok (f := fun s : State K => s.ref l) u1), bind_ok (look_ok (f := fun s : State K => s.ref r) w1)]
    refine (u2.clone_costs _ _ (.refl H.wf)).1.heap.bind (fun a t ha hl => ?_) (by omega)
    rcases heap_makes (s := s) H.wf u2.clone with ⟨a', h1, F, a1, a2, a3⟩ | ⟨h1, L, a1, a2, a3⟩ <;>
      rw [a1] at ha <;> cases ha
    have hl : h1.next ≤ s.heap.next + size x := hl
    refine ((w2.adds a3).clone_costs _ _ (.refl a3.wf')).1.heap (s := ⟨h1, s.ptr, s.objs⟩) |>.bind
      (fun b t _ hl => ?_) (by omega)
    rw [bind_ok (setObj_eq _ _ _)]
    exact PUpto.reset (s := ⟨t.heap, t.ptr, _⟩) (fun t' (hl' : t'.heap.next ≤ t.heap.next) =>
      (reset_upto _ _).mono (by omega)) (show t.heap.next ≤ _ by omega)

theorem assignBin_upto (H : Inv fl s.heap s.ptr (own σ) fp G) (hk : Kinds s.objs σ) {i : Nat} {p : Option BOp}
    {l u : Option (Expr K)} {r : Src} {op : BOp} {x y : Expr K} (hi : σ i = some (.bin p l u))
    (hl : Spec.look σ r = some (.bin op x y)) (hn : ∀ ks, r ≠ ⟨i, 0 :: ks⟩) :
    PUpto (s.heap.next + (size x + size y + 1)) (exec o (.assignBin i r) s) := by
  have hki := hk i
  rw [hi, Option.map_some, kind] at hki
  obtain ⟨t, b0, l0, r0, Fl, Fr, ht, hp, hx, hy, hd, hq⟩ := assignBin_parts H hk hi hl hn
  rw [exec, look_bind (f := fun s : State K => s.objs i), hki]
  simp only
  rw [bind_ok (look_ok (f := fun s : State K => s.target r) ht),
    bind_ok (look_ok (f := fun s : State K => s.binParts t) hp)]
  refine (clone_costs hx _ _ (.refl H.wf)).1.heap.bind (fun a' t1 ha hl1 => ?_) (by omega)
  rcases heap_clone (s := s) H.wf hx with ⟨a', h', F, a1, a2, a3⟩ | ⟨h', L, a1, a2, a3⟩ <;> rw [a1] at ha <;> cases ha
  have hl1 : h'.next ≤ s.heap.next + size x := hl1
  obtain ⟨b1, b2, l1, l2, q1, q2⟩ := hq a' h' F a2 a3
  have H1 := H.put a3 a2 (.one i)
  have hy1 : Own (h'.free (fp (.one i))).cells r0 y Fr := (hy.adds a3).free hd
  rw [bind_ok (H.reset a3 (.one i) (some a')), bind_ok (look_ok (f := fun s : State K => s.binParts t) q1)]
  have H1' := H1.leak (Heap.skip_adds H1.wf)
  rcases heap_request (⟨h'.free (fp (.one i)), at' s.ptr (.one i) (some a'), s.objs⟩ : State K) with e1 | ⟨e1, -⟩
  rotate_left
  · rw [bind_throw e1]
    show h'.next + 1 ≤ _
    omega
  rw [bind_ok e1, bind_ok (setObj_eq _ _ _), bind_ok (look_ok (f := fun s : State K => s.binParts t) q2)]
  refine ((clone_costs (hy1.adds (Heap.skip_adds H1.wf)) _ _ (.refl H1'.wf)).1.heap (s := ⟨_, _, _⟩)).bind
    (fun b t2 _ hl2 => (reset_upto _ _).mono (Nat.le_trans hl2 ?_)) ?_ <;>
  · show h'.next + 1 + size y ≤ _
    omega

theorem assignNum_upto {i : Nat} {c : K} : PUpto (s.heap.next + 3) (exec o (.assignNum i c) s) := by
  have nc : ∀ t : State K, PUpto (t.heap.next + 1) (heap (newConst c) t) := fun t => (new_upto _ _ _).heap
  rw [exec, look_bind (f := fun s : State K => s.objs i)]
  rcases s.objs i with _ | (_ | _ | _)
  · trivial
  · trivial
  rotate_left
  · trivial
  refine (nc s).bind (fun a t _ hl => ?_) (by omega)
  refine PUpto.reset (fun t1 hl1 => ?_) (by omega)
  refine (request_upto t1.heap).heap.bind (fun _ t2 _ hl2 => ?_) (by omega)
  rw [bind_ok (setObj_eq _ _ _)]
  exact (nc ⟨t2.heap, t2.ptr, _⟩).bind (fun b t3 _ (hl3 : _ ≤ t2.heap.next + 1) => (reset_upto _ _).mono (by omega))
    (show t2.heap.next + 1 ≤ _ by omega)

omit [Num K] in
/-- What follows the request for the operator of a new `rt_unary_expr`. -/
theorem finishUn_upto [Num K] {i a N : Nat} {op : UOp} (h : s.heap.next ≤ N) :
    PUpto N ((do setObj i (some (.un (some op))); reset (.one i) (some a) : Prog K Unit) s) := by
  rw [bind_ok (setObj_eq _ _ _)]
  exact (reset_upto (s := ⟨s.heap, s.ptr, _⟩) _ _).mono h

theorem initUn_upto (H : Inv fl s.heap s.ptr (own σ) fp G) (hk : Kinds s.objs σ) {i : Nat} {op : UOp} {r : Src}
    {x : Expr K} (hl : Spec.look σ r = some x) : PUpto (s.heap.next + (size x + 1)) (exec o (.initUn i op r) s) := by
  obtain ⟨u, u1, u2, -⟩ := ref_some H hk hl
  rw [exec, look_bind (f := fun s : State K => s.objs i)]
  cases s.objs i with
  | some _ => trivial
  | none =>
    simp only
    rw [bind_ok (look_ok (f := fun s : State K => s.ref r) u1)]
    refine (u2.clone_costs _ _ (.refl H.wf)).1.heap.bind (fun a t ha hl => ?_) (by omega)
    refine (request_upto t.heap).heap.bind (fun _ t2 _ hl2 => finishUn_upto ?_) ?_ <;> omega

theorem wrapUn_upto (H : Inv fl s.heap s.ptr (own σ) fp G) (hk : Kinds s.objs σ) {i : Nat} {r : Src}
    {x : Expr K} (hl : Spec.look σ r = some x) : PUpto (s.heap.next + (size x + 1)) (exec o (.wrapUn i r) s) := by
  obtain ⟨u, u1, u2, -⟩ := ref_some H hk hl
  rw [exec, look_bind (f := fun s : State K => s.objs i)]
  cases s.objs i with
  | some _ => trivial
  | none =>
    simp only
    rw [bind_ok (look_ok (f := fun s : State K => s.ref r) u1)]
    refine (u2.clone_costs _ _ (.refl H.wf)).1.heap.bind (fun a t ha hl => ?_) (by omega)
    refine (request_upto t.heap).owning.heap.bind (fun _ t2 _ hl2 => finishUn_upto ?_) ?_ <;> omega

theorem copyUn_upto (H : Inv fl s.heap s.ptr (own σ) fp G) (hk : Kinds s.objs σ) {i : Nat} {r : Src} {op : UOp}
    {x : Expr K} (hl : Spec.look σ r = some (.un op x)) :
    PUpto (s.heap.next + (size x + 1)) (exec o (.copyUn i r) s) := by
  obtain ⟨t, k, Fk, t1, t2, t3⟩ := copyUn_parts H hk hl
  rw [exec, look_bind (f := fun s : State K => s.objs i)]
  cases s.objs i with
  | some _ => trivial
  | none =>
    simp only
    rw [bind_ok (look_ok (f := fun s : State K => s.target r) t1),
      bind_ok (look_ok (f := fun s : State K => s.unParts t) t2)]
    refine (clone_costs t3 _ _ (.refl H.wf)).1.heap.bind (fun a t ha hl => ?_) (by omega)
    refine (request_upto t.heap).owning.heap.bind (fun _ t2 _ hl2 => finishUn_upto ?_) ?_ <;> omega

theorem numUn_upto {i : Nat} {c : K} : PUpto (s.heap.next + 2) (exec o (.numUn i c) s) := by
  have nc : ∀ t : State K, PUpto (t.heap.next + 1) (heap (newConst c) t) := fun t => (new_upto _ _ _).heap
  rw [exec, look_bind (f := fun s : State K => s.objs i)]
  rcases s.objs i with _ | (_ | _ | _)
  · trivial
  · trivial
  · trivial
  refine (nc s).bind (fun a t _ hl => ?_) (by omega)
  refine PUpto.reset (fun t1 hl1 => ?_) (by omega)
  refine (request_upto t1.heap).heap.bind (fun _ t2 _ hl2 => ?_) (by omega)
  rw [setObj_eq]
  show t2.heap.next ≤ _
  omega

omit [Num K] in
/-- Destroying an object makes no requests. -/
theorem destroy_upto [Num K] {i : Nat} : PUpto s.heap.next (exec o (.destroy i) s) := by
  rw [exec, look_bind (f := fun s : State K => s.objs i)]
  cases s.objs i with
  | none => trivial
  | some _ => exact PUpto.reset (fun t hl => PUpto.reset (fun t' hl' => Nat.le_trans hl' hl) hl) (Nat.le_refl _)

/-- Every statement that is used as it may be used. -/
theorem exec_upto {τ : Store K} {c : Stmt K} (H : Rep fl s σ G) (hx : Exec σ c τ) :
    PUpto (s.heap.next + enoughFor s c) (exec o c s) := by
  have HR := H
  obtain ⟨⟨fp, H⟩, hk⟩ := H
  cases hx with
  | @decl i hi =>
    rw [exec, look_bind (f := fun s : State K => s.objs i), hk i, hi]
    exact Nat.le_refl _
  | init hi hr => exact init_upto H hk hr
  | @initUnset i r hi hu =>
    rw [exec, look_bind (f := fun s : State K => s.objs i), hk i, hi]
    simp only [Option.map_none]
    rw [look_bind (f := fun s : State K => s.isNull (.copy r)), isNull_true H hk hu]
    exact Nat.le_add_right _ _
  | initThrow hi hr => exact init_upto H hk hr
  | assign hi hr => exact assign_upto H hk hr
  | assignThrow hi hr => exact assign_upto H hk hr
  | @inplace i x y hi hs =>
    rw [enoughFor, (sizeAt_eq (r := ⟨i, []⟩) H hk (e := x) (by simp [Spec.look, hi, Obj.part, Spec.part])).1]
    exact inplace_upto HR hi
  | @declBin i hi =>
    rw [exec, look_bind (f := fun s : State K => s.objs i), hk i, hi]
    exact Nat.le_refl _
  | initBin hi hl hr =>
    rw [enoughFor, (sizeAt_eq H hk hl).1, (sizeAt_eq H hk hr).1]
    exact initBin_upto H hk hl hr
  | assignBin hi hl hn =>
    rw [enoughFor, (sizeAt_eq H hk hl).1]
    exact assignBin_upto H hk hi hl hn
  | assignNum hi => exact assignNum_upto
  | @declUn i hi =>
    rw [exec, look_bind (f := fun s : State K => s.objs i), hk i, hi]
    exact Nat.le_refl _
  | initUn hi hl =>
    rw [enoughFor, (sizeAt_eq H hk hl).1]
    exact initUn_upto H hk hl
  | wrapUn hi hl =>
    rw [enoughFor, (sizeAt_eq H hk hl).1]
    exact wrapUn_upto H hk hl
  | copyUn hi hl =>
    rw [enoughFor, (sizeAt_eq H hk hl).1]
    exact copyUn_upto H hk hl
  | numUn hi => exact numUn_upto
  | destroy hi => exact destroy_upto

end VM
