import Verif.Rt.WorkProg
import Mathlib.Data.List.Perm.Subperm
/-
Derivatives of nested gradients: the memory they take and the memory they lose.
-/
namespace VM
variable {K : Type}
open Act Run Prog
open Spec hiding look
variable {s : State K} {fl : Nat → Bool} {fp : Ptr → List Nat} {G : List Nat} {σ : Store K} {o : Nat → Bool} {e : Expr K}

theorem size_nested (e : Expr K) : ∀ n, size (nested e n) = size e + n
  | 0 => rfl
  | n + 1 => by rw [nested, size, size_nested e n]; omega

theorem own_nested {c : Nat → Option (Cell K)} (he : e.operands = []) : ∀ (n : Nat) {a : Nat} {F : List Nat},
    Own c a (nested e n) F → F.length = n + 1
  | 0, a, F, H => by
    cases H with
    | node h1 h2 h3 => rw [nested, he] at h2; cases h2; rfl
  | n + 1, a, F, H => by
    cases H with
    | node h1 h2 h3 =>
      cases h2 with
      | cons h4 h5 =>
        cases h5
        have := own_nested he n h4
        simp [this]

/-- What a reference refers to belongs to an object. -/
theorem target_mem (H : Inv fl s.heap s.ptr (own σ) fp G) {r : Src} {b : Nat} (ht : s.target r = .ok (.node b)) :
    ∃ p, b ∈ fp p := by
  have key : ∀ {p : Ptr} {a : Nat} {ks : List Nat}, s.ptr p = some a → (follow s.heap a ks).map Target.node = .ok (.node b) →
      ∃ p, b ∈ fp p := by
    intro p a ks hp hf
    obtain ⟨c, hc, hcb⟩ := Res.map_eq_ok.1 hf
    cases hcb
    cases hA : own σ p with
    | none => rw [(H.unset p hA).1] at hp; cases hp
    | some e =>
      obtain ⟨a', h2, h3⟩ := H.owns p e hA
      rw [hp] at h2
      cases h2
      exact ⟨p, follow_mem ks h3 hc⟩
  rw [State.target] at ht
  split at ht
  · cases ht
  · split at ht
    · cases ht
    · cases ht
    · rename_i h1; exact key h1 ht
  · split at ht
    · cases ht
    · split at ht
      · cases ht
      · rename_i h1; exact key h1 ht
    · split at ht
      · cases ht
      · rename_i h1; exact key h1 ht
    · cases ht
  · split at ht
    · cases ht
    · split at ht
      · cases ht
      · rename_i h1; exact key h1 ht
    · cases ht

/-- What a call has made, and lost. -/
theorem Makes.inv' {U Lk : Prop} {r : Res (Expr K)} {m : Act K Nat} {h h1 h2 : Heap K} {A : List Nat} {a : Nat}
    (H : Makes U Lk h r m) (E : Adds h h1 A) (hm : m h1 = .ok a h2) :
    ∃ e F L, r = .ok e ∧ Own h2.cells a e F ∧ Adds h1 h2 (F ++ L) ∧ (Lk ∨ L = []) := by
  have := H h1 A E
  rw [hm] at this
  cases this with
  | ok h1 h2 h3 h4 => exact ⟨_, _, _, h1, h2, h3, h4⟩

variable [Num K]

/-- The loop of `inplace_simplify` loses nothing itself. -/
theorem loopA_keeps {h0 : Heap K} {L : List Nat} : ∀ {n : Nat} {e : Expr K} {a b : Nat} {h1 h2 : Heap K} {F : List Nat},
    Adds h0 h1 (F ++ L) → Own h1.cells a e F → loopA o n a h1 = .ok b h2 →
    ∃ e' F', Own h2.cells b e' F' ∧ Adds h0 h2 (F' ++ L) := by
  intro n
  induction n with
  | zero => intro e a b h1 h2 F E H hl; cases hl
  | succ n ih =>
    intro e a b h1 h2 F E H hl
    have hq := ask_eq (q := canSimplify) H (.refl E.wf')
    rw [loopA] at hl
    obtain ⟨v, h3, q1, hl⟩ := bind_inv hl
    have e1 : h3 = h1 := by
      have := owning_ok q1
      rw [hq] at this; simp only [Run.look] at this
      cases hc : canSimplify e <;> rw [hc] at this <;> cases this
      rfl
    subst e1
    cases v with
    | false => cases hl; exact ⟨e, F, H, E⟩
    | true =>
      simp only [if_true] at hl
      obtain ⟨a', h4, q2, hl⟩ := bind_inv hl
      obtain ⟨e', F', L', g1, g2, g3, g4⟩ := (simplifyA_makes (U := True) (Lk := False) (o := o) trivial H).inv'
        (.refl E.wf') (owning_ok q2)
      have hL : L' = [] := g4.elim False.elim id
      subst hL
      obtain ⟨i1, i2, i3⟩ := (E.trans g3).del (B := F' ++ L) (H.adds g3) (by perm_parts)
      rw [bind_ok i1] at hl
      exact ih i2 (i3 g2 (by simp +contextual)) hl

theorem diffE_nested {j t : Nat} (h01 : Num.eqb (Num.lit 0 : K) (Num.lit 1) = false) : ∀ n,
    diffE (.fsym j t) (nested (.fsym j t) n) = .ok (nested (.const (Num.lit 1 : K)) n) ∧
      deepEq (nested (.const (Num.lit 1 : K)) n) (.const (Num.lit 0)) = .ok false
  | 0 => ⟨by simp [nested, diffE], by simp [nested, deepEq, h01]⟩
  | n + 1 => by
    obtain ⟨h1, h2⟩ := diffE_nested (j := j) (t := t) h01 n
    exact ⟨by simp [nested, diffE, h1, h2, Res.map], by simp [nested, deepEq]⟩

/-- One more gradient. -/
theorem diffUnA_nested {j t n : Nat} {first : Bool} {k : Nat} {d' : Act K Nat} {h : Heap K}
    (h01 : Num.eqb (Num.lit 0 : K) (Num.lit 1) = false)
    (ih : ∀ {A : List Nat} {h1 h2 : Heap K} {b : Nat}, Adds h h1 A → d' h1 = .ok b h2 →
      ∃ F' L, Own h2.cells b (nested (.const (Num.lit 1)) n) F' ∧ Adds h1 h2 (F' ++ L) ∧ L.length + (n + 2) = 2 ^ (n + 1))
    {A : List Nat} {h1 h2 : Heap K} {b : Nat} (E : Adds h h1 A)
    (hd : diffUnA first (.fsym j t) .grad k d' h1 = .ok b h2) :
    ∃ F' L, Own h2.cells b (nested (.const (Num.lit 1)) (n + 1)) F' ∧ Adds h1 h2 (F' ++ L) ∧
      L.length + (n + 1 + 2) = 2 ^ (n + 1 + 1) := by
  obtain ⟨-, hd2⟩ := diffE_nested (j := j) (t := t) h01 n
  simp only [diffUnA] at hd
  obtain ⟨c0, h3, q1, hd⟩ := bind_inv hd
  obtain ⟨e0, C, L0, c1, c2, c3, c4⟩ := (newConst_makes (U := True) (Lk := False) (Num.lit 0)).inv' E q1
  cases c1
  have hL0 : L0 = [] := c4.elim False.elim id
  subst hL0
  obtain ⟨d0, h4, q2, hd⟩ := bind_inv hd
  obtain ⟨D, L1, d2, d3, d4⟩ := ih (E.trans c3) q2
  have hq := ask_eq (q := fun e => deepEq e (.const (Num.lit 0))) d2 (.refl d3.wf')
  simp only [Run.look, hd2] at hq
  rw [bind_ok hq] at hd
  obtain ⟨j1, j2, j3⟩ := (c3.trans d3).del (B := D ++ L1) (c2.adds d3) (by perm_parts)
  simp only [Bool.false_eq_true, if_false] at hd
  rw [bind_ok j1, newUn] at hd
  obtain ⟨k', h5, q3, hd⟩ := bind_inv hd
  obtain ⟨D', L2, b2, b3, b4⟩ := ih (E.trans j2) q3
  rcases new_eq (h := h5) (.un .grad : Label K) [k'] with hn | ⟨hn, -⟩ <;> rw [hn] at hd <;> cases hd
  have E5 := (j2.trans b3).trans (Heap.put_adds b3.wf' (.un .grad) [k'])
  have hO := OwnL.cons b2 .nil
  rw [List.append_nil] at hO
  refine ⟨_, D ++ L1 ++ L2, Heap.put_own (e := .un .grad (nested (.const (Num.lit 1)) n)) b3.wf' hO, E5.perm ?_, ?_⟩
  · show List.Perm _ ([h5.next] ++ D' ++ _)
    perm_parts
  · have := own_nested (e := .const (Num.lit 1 : K)) rfl n d2
    rw [Nat.pow_succ]
    simp only [List.length_append]
    omega

/-- The derivative of nested gradients: what it returns and what it loses. -/
theorem diffN_nested {j t : Nat} (h01 : Num.eqb (Num.lit 0 : K) (Num.lit 1) = false) : ∀ (n : Nat) {m a : Nat}
    {F A : List Nat} {h h1 h2 : Heap K} {b : Nat}, a < m → Own h.cells a (nested (.fsym j t) n) F → Adds h h1 A →
    diffN o (.fsym j t) m a h1 = .ok b h2 →
    ∃ F' L, Own h2.cells b (nested (.const (Num.lit 1)) n) F' ∧ Adds h1 h2 (F' ++ L) ∧ L.length + (n + 2) = 2 ^ (n + 1) := by
  intro n
  induction n with
  | zero =>
    intro m a F A h h1 h2 b hm H E hd
    have mk := diffN_makes (U := True) (Lk := False) (x := .fsym j t) (o := o) (nested (.fsym j t) 0) hm H
      (by simp [nested, hasGrad])
    obtain ⟨e', F', L, g1, g2, g3, g4⟩ := mk.inv' E hd
    rw [(diffE_nested h01 0).1] at g1
    cases g1
    have hL : L = [] := g4.elim False.elim id
    subst hL
    exact ⟨F', [], g2, g3, rfl⟩
  | succ n ih =>
    intro m a F A h h1 h2 b hm H E hd
    obtain ⟨m, rfl⟩ : ∃ k, m = k + 1 := ⟨m - 1, by omega⟩
    cases H with
    | @node _ _ ks G g1 g2 g3 =>
    have hw : Act.cell a h1 = .ok ⟨.un .grad, ks⟩ h1 := look_ok (by
      rw [E.keep (by rw [g1]; simp), g1]; rfl)
    rw [diffN, bind_ok hw] at hd
    cases g2 with
    | @cons k _ F1 ks _ F2 a1 a2 =>
    cases a2
    have hkn : k < m := by have := g3 k (by simp [a1.root_mem]); omega
    exact diffUnA_nested h01 (fun E hd => ih hkn a1 E hd) E hd

/-- A new object gets the derivative of nested gradients. -/
theorem init_nested {i j t n : Nat} {r : Src} {s' : State K} (h01 : Num.eqb (Num.lit 0 : K) (Num.lit 1) = false)
    (H : Inv fl s.heap s.ptr (own σ) fp G) (hk : Kinds s.objs σ) (hi : σ i = none)
    (hl : Spec.look σ r = some (nested (.fsym j t) n))
    (hs' : exec o (.init i (.diff (.fsym j t) r)) s = .ok () s') :
    ∃ e F L, Inv fl s'.heap s'.ptr (own (σ.set i (some (.expr (some e))))) (at' fp (.one i) F) (L ++ G) ∧
      L.length + (n + 2) = 2 ^ (n + 1) ∧ Adds s.heap s'.heap (F ++ L) := by
  obtain ⟨x, h1, h2, -⟩ := ref_some H hk hl
  obtain ⟨f1, f2⟩ := own_free hi
  rw [exec, look_bind (f := fun s : State K => s.objs i), hk i, hi] at hs'
  simp only [Option.map_none] at hs'
  rw [look_bind (f := fun s : State K => s.isNull (.diff (.fsym j t) r))] at hs'
  simp only [State.isNull, Bool.false_eq_true] at hs'
  obtain ⟨a, s1, q1, hs'⟩ := bind_inv hs'
  rw [bind_ok (setObj_eq _ _ _)] at hs'
  rw [create, bind_ok (look_ok (f := fun s : State K => s.refs (Rhs.args (.diff (.fsym j t) r))) (a := [x])
    (by simp [Rhs.args, State.refs, h1]))] at q1
  obtain ⟨h', q2, rfl⟩ : ∃ h', (x.diff o (.fsym j t) >>= simplifiedA o : Act K Nat) s.heap = .ok a h' ∧
      s1 = ⟨h', s.ptr, s.objs⟩ := by
    change heap (x.diff o (.fsym j t) >>= simplifiedA o) s = _ at q1
    simp only [Prog.heap] at q1
    cases hm : (x.diff o (.fsym j t) >>= simplifiedA o : Act K Nat) s.heap <;> rw [hm] at q1 <;> cases q1
    exact ⟨_, rfl, rfl⟩
  obtain ⟨d, h3, q3, q4⟩ := bind_inv q2
  obtain ⟨D, L, d2, d3, d4⟩ : ∃ D L, Own h3.cells d (nested (.const (Num.lit 1)) n) D ∧ Adds s.heap h3 (D ++ L) ∧
      L.length + (n + 2) = 2 ^ (n + 1) := by
    generalize he : nested (.fsym j t) n = e at h2
    cases h2 with
    | node h2 => subst he; exact diffN_nested h01 n (Nat.lt_succ_self _) h2 (.refl H.wf) q3
    | whole => cases n <;> cases he
    | single h2 =>
      cases n with
      | zero => cases he
      | succ n =>
        cases he
        rename_i k _
        exact diffUnA_nested (j := j) (t := t) (first := o k) (k := k) (d' := diffA o (.fsym j t) k) h01
          (fun E hd => diffN_nested h01 n (Nat.lt_succ_self _) h2 E hd) (.refl H.wf) q3
  rw [simplifiedA, bind_ok (a := weight _) (s' := h3) (by rw [ask_eq d2 (.refl d3.wf')]; rfl)] at q4
  obtain ⟨e', F', g1, g2⟩ := loopA_keeps d3 d2 q4
  rw [H.reset g2] at hs'
  cases hs'
  have H1 := H.put g2 g1 (.one i)
  rw [(H.unset _ f1).2, Heap.free_nil] at H1 ⊢
  exact ⟨e', F', L, by rw [own_expr f2]; exact H1, d4, g2⟩

omit [Num K] in
/-- Distinct addresses that have been given out are not more than the requests. -/
theorem Adds.length {h h1 : Heap K} {A : List Nat} (E : Adds h h1 A) : h.next + A.length ≤ h1.next := by
  have h2 : A ⊆ List.range' h.next (h1.next - h.next) := fun b hb => by
    have := E.fresh b hb
    have := E.lt b hb
    simp only [List.mem_range'_1]
    omega
  have := (List.subperm_of_subset E.nodup h2).length_le
  rw [List.length_range'] at this
  have := E.le
  omega

end VM
