import Verif.Rt.VecObjLemmas
import Verif.Props.Memory
import Verif.NumRat
import Verif.Rt.Dec
/-
C80: vectors of expressions are values: each owns its entries.
-/
namespace VM.Props
open Spec Run
variable {K : Type} [Num K] {o f : Nat → Bool}

/-- A program with vectors that uses its objects as they may be used (`VSafe`) runs without undefined behaviour,
whichever requests for memory fail; afterwards every expression and every entry of a vector shows a value of its own,
one that the statements may have given it (`VRan`), and every vector has the size it should have. -/
theorem C80_safe {p : VClient K} (h : VSafe .empty p) :
    ∃ s τ, p.run o (.begin f) = .ok s ∧ VRan .empty p τ ∧ (∀ v, s.vecs v = (τ.vecs v).map List.length) ∧
      (∀ n, s.st.objs n = none ↔ τ.all n = none) ∧ ∀ r, s.st.view r = shown (look τ.all r) := by
  obtain ⟨s, L, τ, h1, h2, h3⟩ := vclient_sim (o := o) (fl := f) vstart_rep h
  exact ⟨s, τ, h1, h2, fun v => by rw [h3.2], fun i => by rw [h3.1.2 i]; simp, h3.1.view⟩

/-- At any point of any such program: a statement changes nothing but the object or the vector it works on; in
particular no vector from which another one was made or assigned, and none that was made from it. -/
theorem C80_others {p q₁ q₂ : VClient K} {c : VStmt K} {s s' : VState K} (h : VSafe .empty p)
    (hs : VReaches o p (.begin f) (.step c q₁ q₂) s) (hs' : c.exec o s = .ok () s' ∨ ∃ x, c.exec o s = .throw x s')
    {r : Src} (hr : ¬ VSubject r.obj c) : s'.st.view r = s.st.view r := by
  obtain ⟨σ, τ, G, h2, hx, h3⟩ := vclient_step h hs
  rcases hs' with hs' | ⟨x, hs'⟩ <;> rw [hs'] at h3
  · cases h3 with
    | ok h4 => rw [h4.1.view, h2.1.view, Spec.look, Spec.look, vexec_same hx hr]
  · cases h3 with
    | threw h4 => rw [h4.1.view, h2.1.view, Spec.look, Spec.look, vexec_same hx hr]
    | noMemory h4 h5 => rw [h4.1.view, h2.1.view, Spec.look, Spec.look, voutOf_same h5 hr]

/-- A statement that ends normally: what holds before and after. -/
theorem vec_after {p q₁ q₂ : VClient K} {c : VStmt K} {s s' : VState K} (h : VSafe .empty p)
    (hs : VReaches o p (.begin f) (.step c q₁ q₂) s) (hs' : c.exec o s = .ok () s') :
    ∃ σ τ, VExec σ c τ ∧ (∀ r, s.st.view r = shown (look σ.all r)) ∧ (∀ r, s'.st.view r = shown (look τ.all r)) ∧
      (∀ v, s.vecs v = (σ.vecs v).map List.length) ∧ ∀ v, s'.vecs v = (τ.vecs v).map List.length := by
  obtain ⟨σ, τ, G, h2, hx, h3⟩ := vclient_step h hs
  rw [hs'] at h3
  cases h3 with
  | ok h4 => exact ⟨σ, τ, hx, h2.1.view, h4.1.view, fun v => by rw [h2.2], fun v => by rw [h4.2]⟩

omit [Num K] in
theorem look_at {σ : VStore K} {v i : Nat} {es : List (Option (Expr K))} (h : σ.vecs v = some es) {ks : List Nat} :
    Spec.look σ.all ⟨entry v i, ks⟩ = es[i]?.bind fun e => e.bind (part · ks) := by
  rw [Spec.look, all_entry, h]
  simp only [Option.bind_some, Option.bind_map]
  cases es[i]? <;> rfl

/-- `rt_vector_expr v(n)` is a vector of `n` zeros. -/
theorem C80_made {p q₁ q₂ : VClient K} {v n : Nat} {s s' : VState K} (h : VSafe .empty p)
    (hs : VReaches o p (.begin f) (.step (.make v n) q₁ q₂) s) (hs' : VStmt.exec o (.make v n) s = .ok () s') :
    s'.vecs v = some n ∧ ∀ i, i < n → s'.st.view ⟨entry v i, []⟩ = .ok (.const (Num.lit 0)) := by
  obtain ⟨σ, τ, hx, -, h2, -, h4⟩ := vec_after h hs hs'
  cases hx with
  | make hv =>
    refine ⟨by rw [h4, vec_self]; simp, fun i hi => ?_⟩
    rw [h2, look_at vec_self]
    simp [hi, part, shown]

/-- A copy of a vector, and a vector to which another one of the same size is assigned, has the size of the other one
and shows everywhere what the other one shows there. -/
theorem C80_copied {p q₁ q₂ : VClient K} {v w : Nat} {c : VStmt K} {s s' : VState K} (h : VSafe .empty p)
    (hc : c = .copy v w ∨ c = .assign v w) (hs : VReaches o p (.begin f) (.step c q₁ q₂) s)
    (hs' : c.exec o s = .ok () s') :
    s'.vecs v = s.vecs w ∧ ∀ i ks, s'.st.view ⟨entry v i, ks⟩ = s.st.view ⟨entry w i, ks⟩ := by
  obtain ⟨σ, τ, hx, h1, h2, h3, h4⟩ := vec_after h hs hs'
  suffices τ.vecs v = σ.vecs w by
    refine ⟨by rw [h3, h4, this], fun i ks => ?_⟩
    rw [h1, h2, Spec.look, Spec.look, all_entry, all_entry, this]
  rcases hc with rfl | rfl <;> cases hx
  · rename_i hv hw; rw [vec_self, hw]
  · rename_i hl hv hw; rw [vec_self, hw]
  · rfl

omit [Num K] in
theorem look_vecHas {σ : VStore K} {v i : Nat} {xs : List (Expr K)} (h : σ.Has v xs) :
    Spec.look σ.all ⟨entry v i, []⟩ = xs[i]? := by
  rw [look_at h, List.getElem?_map]
  cases xs[i]? <;> rfl

/-- The entries of `w + u` are the sums of the entries, those of `w - u` the differences, in this order. -/
theorem C80_sum {p q₁ q₂ : VClient K} {m : Bool} {v w u : Nat} {s s' : VState K} (h : VSafe .empty p)
    (hs : VReaches o p (.begin f) (.step (.sum m v w u) q₁ q₂) s) (hs' : VStmt.exec o (.sum m v w u) s = .ok () s') :
    s'.vecs v = s.vecs w ∧ s'.vecs v = s.vecs u ∧ ∀ n, s.vecs w = some n → ∀ i, i < n →
      ∃ x y, s.st.view ⟨entry w i, []⟩ = .ok x ∧ s.st.view ⟨entry u i, []⟩ = .ok y ∧
        s'.st.view ⟨entry v i, []⟩ = .ok (.bin (if m = true then .minus else .plus) x y) := by
  obtain ⟨σ, τ, hx, h1, h2, h3, h4⟩ := vec_after h hs hs'
  cases hx with
  | @add _ _ _ xs ys hv hw hu hl =>
    refine ⟨by rw [h4, h3, vec_self, hw]; simp [hl], by rw [h4, h3, vec_self, hu]; simp [hl], fun n hn i hi => ?_⟩
    rw [h3, hw] at hn
    have hn' : xs.length = n := by simpa using hn
    refine ⟨xs[i], ys[i], ?_, ?_, ?_⟩
    · rw [h1, look_vecHas hw, List.getElem?_eq_getElem (by omega)]; rfl
    · rw [h1, look_vecHas hu, List.getElem?_eq_getElem (by omega)]; rfl
    · rw [h2, look_at vec_self, List.getElem?_eq_getElem (by simp; omega)]
      simp [part, shown]
  | @sub _ _ _ xs ys hv hw hu hl =>
    refine ⟨by rw [h4, h3, vec_self, hw]; simp [hl], by rw [h4, h3, vec_self, hu]; simp [hl], fun n hn i hi => ?_⟩
    rw [h3, hw] at hn
    have hn' : xs.length = n := by simpa using hn
    refine ⟨xs[i], ys[i], ?_, ?_, ?_⟩
    · rw [h1, look_vecHas hw, List.getElem?_eq_getElem (by omega)]; rfl
    · rw [h1, look_vecHas hu, List.getElem?_eq_getElem (by omega)]; rfl
    · rw [h2, look_at vec_self, List.getElem?_eq_getElem (by simp; omega)]
      simp [part, shown]

/-- The entries of `w * e`, `e * w`, `w / e`, `e / w` are the products and quotients of the entries and `e`, in this
order; `e` may be an entry of `w`. -/
theorem C80_scaled {p q₁ q₂ : VClient K} {div left : Bool} {v w : Nat} {e : Src} {s s' : VState K}
    (h : VSafe .empty p) (hs : VReaches o p (.begin f) (.step (.scale div left v w e) q₁ q₂) s)
    (hs' : VStmt.exec o (.scale div left v w e) s = .ok () s') :
    s'.vecs v = s.vecs w ∧ ∀ n, s.vecs w = some n → ∀ i, i < n →
      ∃ x y, s.st.view ⟨entry w i, []⟩ = .ok x ∧ s.st.view e = .ok y ∧
        s'.st.view ⟨entry v i, []⟩ = .ok (if left = true
          then .bin (if div = true then .div else .mult) y x else .bin (if div = true then .div else .mult) x y) := by
  obtain ⟨σ, τ, hx, h1, h2, h3, h4⟩ := vec_after h hs hs'
  cases hx with
  | @scale _ _ _ _ _ y xs hv hw he =>
    refine ⟨by rw [h4, h3, vec_self, hw]; simp, fun n hn i hi => ?_⟩
    rw [h3, hw] at hn
    have hn' : xs.length = n := by simpa using hn
    refine ⟨xs[i], y, ?_, by rw [h1, he]; rfl, ?_⟩
    · rw [h1, look_vecHas hw, List.getElem?_eq_getElem (by omega)]; rfl
    · rw [h2, look_at vec_self, List.getElem?_eq_getElem (by simp; omega)]
      cases div <;> cases left <;> simp [part, shown, scaledBy]

/-- The dot product is the sum of the products of the entries, from the first one to the last one. -/
theorem C80_dot {p q₁ q₂ : VClient K} {k v w : Nat} {s s' : VState K} (h : VSafe .empty p)
    (hs : VReaches o p (.begin f) (.step (.dot k v w) q₁ q₂) s) (hs' : VStmt.exec o (.dot k v w) s = .ok () s') :
    ∃ x xs y ys, s.vecs v = some (xs.length + 1) ∧ s.vecs w = some (ys.length + 1) ∧ xs.length = ys.length ∧
      (∀ i, s.st.view ⟨entry v i, []⟩ = shown (x :: xs)[i]?) ∧ (∀ i, s.st.view ⟨entry w i, []⟩ = shown (y :: ys)[i]?) ∧
      s'.st.view ⟨plain k, []⟩ = .ok ((xs.zip ys).foldl (fun e q => .bin .plus e (.bin .mult q.1 q.2)) (.bin .mult x y)) := by
  obtain ⟨σ, τ, hx, h1, h2, h3, h4⟩ := vec_after h hs hs'
  cases hx with
  | @dot _ _ _ x xs y ys hk hv hw hl =>
    refine ⟨x, xs, y, ys, by rw [h3, hv]; simp, by rw [h3, hw]; simp, hl, fun i => by rw [h1, look_vecHas hv],
      fun i => by rw [h1, look_vecHas hw], ?_⟩
    have hp : ∀ (l : List (Expr K × Expr K)) (e : Expr K), plusProducts e l =
        l.foldl (fun e q => .bin .plus e (.bin .mult q.1 q.2)) e := by
      intro l
      induction l with
      | nil => intro e; rfl
      | cons q l ih => intro e; rw [plusProducts, ih, List.foldl_cons]
    rw [h2, Spec.look, all_plain, ← hp]
    simp [VStore.obj, Obj.part, part, shown]

/-- The statement makes a vector or a dot product. -/
def MakesVec : VStmt K → Prop
  | .make _ _ | .copy _ _ | .sum _ _ _ _ | .scale _ _ _ _ _ | .dot _ _ _ => True
  | _ => False

/-- Construction of a vector, and computation of a dot product, that throws has no effect: neither the vector nor any
of its entries exists afterwards, and it throws only if there is not enough memory. -/
theorem C80_unchanged {p q₁ q₂ : VClient K} {c : VStmt K} {s s' : VState K} {x : Exc}
    (h : VSafe .empty p) (hs : VReaches o p (.begin f) (.step c q₁ q₂) s) (hc : MakesVec c)
    (hs' : c.exec o s = .throw x s') :
    (∀ r, s'.st.view r = s.st.view r) ∧ (∀ i, s'.st.objs i = s.st.objs i) ∧ s'.vecs = s.vecs ∧
      x = .badAlloc ∧ ∃ a, f a = true := by
  obtain ⟨σ, τ, G, h2, hx, h3⟩ := vclient_step h hs
  rw [hs'] at h3
  cases h3 with
  | threw h4 h5 =>
    cases c with
    | on c => exact absurd hc id
    | _ => exact absurd h5 id
  | @noMemory _ L υ h4 h5 h6 =>
    obtain rfl : υ = σ := by
      cases h5 <;> first | rfl | exact absurd hc id
    exact ⟨fun r => by rw [h4.1.view, h2.1.view], fun i => by rw [h4.1.2 i, h2.1.2 i], by rw [h4.2, h2.2], rfl, h6⟩

/-- Assignment of vectors that throws has replaced the entries before some position, which is not the end, and none
from there on. -/
theorem C80_half_assigned {p q₁ q₂ : VClient K} {v w : Nat} {s s' : VState K} {x : Exc}
    (h : VSafe .empty p) (hs : VReaches o p (.begin f) (.step (.assign v w) q₁ q₂) s)
    (hs' : VStmt.exec o (.assign v w) s = .throw x s') :
    x = .badAlloc ∧ s'.vecs = s.vecs ∧ ∃ n, (∃ m, s.vecs v = some m ∧ n < m) ∧
      (∀ i ks, i < n → s'.st.view ⟨entry v i, ks⟩ = s.st.view ⟨entry w i, ks⟩) ∧
      ∀ i ks, n ≤ i → s'.st.view ⟨entry v i, ks⟩ = s.st.view ⟨entry v i, ks⟩ := by
  obtain ⟨σ, τ, G, h2, hx, h3⟩ := vclient_step h hs
  rw [hs'] at h3
  cases h3 with
  | threw h4 h5 => exact absurd h5 id
  | @noMemory _ L υ h4 h5 h6 =>
    cases h5 with
    | @assign _ _ es xs n hv hw hl hn =>
      refine ⟨rfl, ?_, n, ⟨es.length, by rw [h2.2]; simp [hv], by omega⟩, fun i ks hi => ?_, fun i ks hi => ?_⟩
      · rw [h4.2, h2.2]
        funext u
        by_cases hu : u = v
        · subst hu; rw [vec_self, hv]; simp; omega
        · rw [vec_other hu]
      · rw [h4.1.view, h2.1.view, look_at vec_self, look_at hw,
          List.getElem?_append_left (by simp; omega), List.getElem?_take_of_lt hi]
      · rw [h4.1.view, h2.1.view, look_at vec_self, look_at hv, List.getElem?_append_right (by simp; omega)]
        rw [List.getElem?_drop, show n + (i - ((xs.map some).take n).length) = i by simp; omega]

/-- With enough memory, when all expressions and vectors have been destroyed, nothing is allocated any more (for
programs in which no call throws and no expression with gradients is differentiated with respect to a function symbol,
as in C23). -/
theorem C80_all_freed {prog : List (VStmt K)} {τ : VStore K} (h : VExecAll .empty prog τ)
    (hd : ∀ n, τ.all n = none) :
    ∃ s, VStmt.runAll o (.begin fun _ => false) prog = .ok s ∧ ∀ a, s.st.heap.cells a = none := by
  obtain ⟨s, h1, ⟨⟨fp, H⟩, hk⟩, -⟩ := vall_sim (o := o) (fl := fun _ => false) (fun _ => rfl) vstart_rep h
  refine ⟨s, h1, fun a => ?_⟩
  cases ha : s.st.heap.cells a with
  | none => rfl
  | some c =>
    rcases Rep.reach ⟨⟨fp, H⟩, hk⟩ (a := a) (by simp [ha]) with h | ⟨r, hr⟩
    · cases h
    · rw [State.target, hk r.obj, hd r.obj] at hr
      cases hr

/-- What must not be done: adding, subtracting or multiplying vectors of different sizes, multiplying vectors without
entries, reading an entry beyond the end or assigning to it has undefined behaviour, at any point of any program that
has used its objects properly so far. -/
theorem C80_undefined {p q : VClient K} {s : VState K} (h : VSafe .empty p) (hs : VReaches o p (.begin f) q s) :
    (∀ m v w u, s.vecs w ≠ s.vecs u → VStmt.exec o (.sum m v w u) s = .ub) ∧
    (∀ k v w, s.vecs v ≠ s.vecs w ∨ s.vecs v = some 0 → VStmt.exec o (.dot k v w) s = .ub) ∧
    ∀ v i n, s.vecs v = some n → n ≤ i → (∀ ks, s.st.view ⟨entry v i, ks⟩ = .ub) ∧
      ∀ rhs, VStmt.exec o (.on (.assign (entry v i) rhs)) s = .ub := by
  obtain ⟨τ, L, h1, -⟩ := vreaches_sim hs vstart_rep h
  refine ⟨fun m v w u hn => ?_, fun k v w hn => ?_, fun v i n hv hi => ?_⟩
  · rw [VStmt.exec]
    split
    · rename_i ha
      simp only [VState.admits, Bool.and_eq_true, Option.isSome_iff_exists] at ha
      obtain ⟨⟨_, a, ha⟩, b, hb⟩ := ha
      rw [ha, hb] at hn
      rw [VStmt.code, if_neg (by simp only [VState.size, ha, hb, Option.getD_some]; exact fun h => hn (by rw [h]))]
      rfl
    · rfl
  · rw [VStmt.exec]
    split
    · rename_i ha
      simp only [VState.admits, Bool.and_eq_true, Option.isSome_iff_exists] at ha
      obtain ⟨⟨_, a, ha⟩, b, hb⟩ := ha
      rw [ha, hb] at hn
      rw [VStmt.code, if_neg ?_]
      · rfl
      · simp only [VState.size, ha, hb, Option.getD_some]
        rintro ⟨h3, h4⟩
        rcases hn with hn | hn
        · exact hn (by rw [h3])
        · cases hn; omega
    · rfl
  · have hnone : τ.all (entry v i) = none := by
      rw [h1.2] at hv
      simp only at hv
      cases he : τ.vecs v with
      | none => rw [he] at hv; cases hv
      | some es =>
        rw [he] at hv
        exact all_beyond he (by simp at hv; omega)
    have ho : s.st.objs (entry v i) = none := by rw [h1.1.2 (entry v i), hnone]; rfl
    refine ⟨fun ks => ?_, fun rhs => ?_⟩
    · rw [h1.1.view, Spec.look, hnone]; rfl
    · rw [VStmt.exec]
      split
      · have hu : exec o (.assign (entry v i) rhs) s.st = .ub := by
          cases rhs <;> (rw [exec, look_bind (f := fun s : State K => s.objs (entry v i)), ho] <;> first | rfl | simp)
        rw [VStmt.code, hu]
      · rfl

/-! ### Examples -/

/-- Statements one after the other; the program ends when one throws. -/
def vrow : List (VStmt K) → VClient K
  | [] => .done
  | c :: cs => .step c (vrow cs) .done

theorem vexec_det {σ τ υ : VStore K} {c : VStmt K} (hc : ∀ d, c ≠ .on d) (h : VExec σ c τ) (h' : VExec σ c υ) :
    υ = τ := by
  have inj : ∀ {xs ys : List (Expr K)}, xs.map some = ys.map some → xs = ys :=
    fun h => (List.map_inj_right fun _ _ h => Option.some.inj h).1 h
  cases h with
  | on => exact absurd rfl (hc _)
  | make => cases h'; rfl
  | copy _ h1 => cases h' with | copy _ h2 => rw [h1] at h2; cases h2; rfl
  | add _ h1 h2 _ =>
    cases h' with
    | add _ h4 h5 _ =>
      rw [VStore.Has] at h1 h2 h4 h5
      rw [h1] at h4
      rw [h2] at h5
      rw [inj (Option.some.inj h4), inj (Option.some.inj h5)]
  | sub _ h1 h2 _ =>
    cases h' with
    | sub _ h4 h5 _ =>
      rw [VStore.Has] at h1 h2 h4 h5
      rw [h1] at h4
      rw [h2] at h5
      rw [inj (Option.some.inj h4), inj (Option.some.inj h5)]
  | scale _ h1 h2 =>
    cases h' with
    | scale _ h3 h4 =>
      rw [VStore.Has] at h1 h3
      rw [h1] at h3
      rw [h2] at h4
      cases h4
      rw [inj (Option.some.inj h3)]
  | dot _ h1 h2 _ =>
    cases h' with
    | dot _ h3 h4 _ =>
      rw [VStore.Has] at h1 h2 h3 h4
      rw [h1] at h3
      rw [h2] at h4
      cases inj (Option.some.inj h3)
      cases inj (Option.some.inj h4)
      rfl
  | assign h1 h2 _ =>
    cases h' with
    | assign _ h3 _ =>
      rw [VStore.Has] at h2 h3
      rw [h2] at h3
      rw [inj (Option.some.inj h3)]
    | self h3 => rw [vec_same h2]
  | self h1 =>
    cases h' with
    | assign _ h3 _ => rw [vec_same h3]
    | self _ => rfl
  | destroy => cases h'; rfl

theorem vrow_safe {σ τ : VStore K} {c : VStmt K} {cs : List (VStmt K)} (hc : ∀ d, c ≠ .on d) (h : VExec σ c τ)
    (hs : VSafe τ (vrow cs)) : VSafe σ (vrow (c :: cs)) := by
  refine ⟨⟨τ, h⟩, fun υ => ⟨fun hu => ?_, fun _ => trivial⟩⟩
  cases hu with
  | normal hu _ => rw [vexec_det hc h hu]; exact hs

omit [Num K] in
theorem all_inj {σ τ : VStore K} (h : σ.all = τ.all) (hs : Shape σ τ) : σ = τ := by
  cases σ with
  | mk a b =>
    cases τ with
    | mk a' b' =>
      rw [VStore.mk.injEq]
      refine ⟨funext fun k => ?_, funext fun v => ?_⟩
      · have := congrFun h (plain k)
        rwa [all_plain, all_plain] at this
      · have hv := hs v
        simp only at hv
        cases h1 : b v with
        | none => rw [h1] at hv; cases h2 : b' v with
          | none => rfl
          | some es => rw [h2] at hv; cases hv
        | some es => rw [h1] at hv; cases h2 : b' v with
          | none => rw [h2] at hv; cases hv
          | some fs =>
            congr 1
            apply List.ext_getElem?
            intro i
            have := congrFun h (entry v i)
            rw [all_entry, all_entry] at this
            simp only [h1, h2, Option.bind_some] at this
            cases h3 : es[i]? <;> cases h4 : fs[i]? <;> simp_all

theorem vrow_var {σ : VStore K} {k x : Nat} {cs : List (VStmt K)} (hk : σ.objs k = none)
    (hs : VSafe (σ.obj k (some (.expr (some (.var x))))) (vrow cs)) :
    VSafe σ (vrow (.on (.init (plain k) (.leaf (.var x))) :: cs)) := by
  have hx : Exec σ.all (.init (plain k) (.leaf (.var x))) (σ.obj k (some (.expr (some (.var x))))).all := by
    rw [← all_obj]; exact .init (by rw [all_plain, hk]) (.var x)
  refine ⟨⟨_, .on hx (fun _ => rfl) (.inl ⟨k, rfl⟩)⟩, fun υ => ⟨fun hu => ?_, fun _ => trivial⟩⟩
  cases hu with
  | normal hu _ =>
    cases hu with
    | on hu hsh _ =>
      have : υ.all = (σ.obj k (some (.expr (some (.var x))))).all := by
        rw [← all_obj]
        generalize υ.all = ρ at hu
        cases hu with
        | init _ h => cases h; rfl
        | initThrow _ h => cases h
      rw [all_inj this fun v => (hsh v).symm]
      exact hs

/-- `v[i] = e;` -/
theorem vrow_set {σ : VStore K} {v i : Nat} {r : Src} {e : Expr K} {es : List (Option (Expr K))} {cs : List (VStmt K)}
    (hv : σ.vecs v = some es) (hi : i < es.length) (he : Spec.look σ.all r = some e)
    (hs : VSafe (σ.vec v (some (es.set i (some e)))) (vrow cs)) :
    VSafe σ (vrow (.on (.assign (entry v i) (.copy r)) :: cs)) := by
  have hall : σ.all.set (entry v i) (some (.expr (some e))) = (σ.vec v (some (es.set i (some e)))).all := by
    rw [← all_set hi, vec_same hv]
  have hsh : Shape σ (σ.vec v (some (es.set i (some e)))) := by
    intro u
    by_cases hu : u = v
    · subst hu; rw [vec_self, hv]; simp
    · rw [vec_other hu]
  have hx : Exec σ.all (.assign (entry v i) (.copy r)) (σ.vec v (some (es.set i (some e)))).all := by
    rw [← hall]; exact .assign (all_has hv hi) (.copy he)
  refine ⟨⟨_, .on hx hsh (.inr ⟨v, i, .inl ⟨_, rfl⟩⟩)⟩, fun υ => ⟨fun hu => ?_, fun _ => trivial⟩⟩
  cases hu with
  | normal hu _ =>
    cases hu with
    | on hu hsh' _ =>
      have : υ.all = (σ.vec v (some (es.set i (some e)))).all := by
        rw [← hall]
        generalize υ.all = ρ at hu
        cases hu with
        | assign _ h => cases h with | copy h => rw [he] at h; cases h; rfl
        | assignThrow _ h => cases h
      rw [all_inj this fun u => by rw [hsh u, hsh' u]]
      exact hs

/-- `variable x; vector_expr a(2); a[1] = x; vector_expr b(a); vector_expr c = a + b; vector_expr d = c / a[1];
expr e = a * d; b = c;` and the end of `a`. -/
def arrows : List (VStmt XRat) :=
  [.on (.init (plain 0) (.leaf (.var 0))), .make 0 2, .on (.assign (entry 0 1) (.copy ⟨plain 0, []⟩)), .copy 1 0,
   .sum false 2 0 1, .scale true false 3 2 ⟨entry 0 1, []⟩, .dot 1 0 3, .assign 1 2, .destroy 0]

theorem arrows_safe : VSafe .empty (vrow arrows) := by
  refine vrow_var rfl ?_
  refine vrow_safe (by simp) (.make rfl) ?_
  refine vrow_set (es := [some (.const (some 0)), some (.const (some 0))]) rfl (by decide) (e := .var 0) rfl ?_
  refine vrow_safe (by simp) (.copy (es := [some (.const (some 0)), some (.var 0)]) rfl rfl) ?_
  refine vrow_safe (by simp) (.add (xs := [.const (some 0), .var 0]) (ys := [.const (some 0), .var 0]) rfl rfl rfl rfl) ?_
  refine vrow_safe (by simp) (.scale (s := .var 0)
    (xs := [.bin .plus (.const (some 0)) (.const (some 0)), .bin .plus (.var 0) (.var 0)]) rfl rfl rfl) ?_
  refine vrow_safe (by simp) (.dot (x := .const (some 0)) (xs := [.var 0])
    (y := .bin .div (.bin .plus (.const (some 0)) (.const (some 0))) (.var 0))
    (ys := [.bin .div (.bin .plus (.var 0) (.var 0)) (.var 0)]) rfl rfl rfl rfl) ?_
  refine vrow_safe (by simp) (.assign (es := [some (.const (some 0)), some (.var 0)])
    (xs := [.bin .plus (.const (some 0)) (.const (some 0)), .bin .plus (.var 0) (.var 0)]) rfl rfl rfl) ?_
  refine vrow_safe (by simp) (.destroy (es := [some (.const (some 0)), some (.var 0)]) rfl) ?_
  trivial

/-- The state after some statements. -/
def vstateAfter (f : Nat → Bool) (cs : List (VStmt XRat)) : VState XRat :=
  match VStmt.runAll (fun _ => true) (.begin f) cs with
  | .ok s => s
  | _ => .begin f

/-- What can be seen afterwards. -/
example : (vstateAfter (fun _ => false) arrows).st.view ⟨entry 1 1, []⟩ = .ok (.bin .plus (.var 0) (.var 0)) ∧
    (vstateAfter (fun _ => false) arrows).st.view ⟨plain 1, []⟩ =
      .ok (.bin .plus (.bin .mult (.const (some 0)) (.bin .div (.bin .plus (.const (some 0)) (.const (some 0))) (.var 0)))
        (.bin .mult (.var 0) (.bin .div (.bin .plus (.var 0) (.var 0)) (.var 0)))) ∧
    VSafe .empty (vrow arrows) :=
  ⟨by decide +kernel, by decide +kernel, arrows_safe⟩

theorem vreaches_row {cs ds : List (VStmt K)} {c : VStmt K} : ∀ {s t : VState K}, VStmt.runAll o s cs = .ok t →
    VReaches o (vrow (cs ++ c :: ds)) s (.step c (vrow ds) .done) t := by
  induction cs with
  | nil => intro s t h; cases h; exact .refl
  | cons d cs ih =>
    intro s t h
    rw [VStmt.runAll] at h
    cases hr : d.exec o s with
    | ok u s' => rw [hr] at h; exact .ok hr (ih h)
    | throw x s' => rw [hr] at h; cases h
    | ub => rw [hr] at h; cases h

/-- No statement of the row throws. -/
def vgoesWell (f : Nat → Bool) (cs : List (VStmt XRat)) : Bool :=
  match VStmt.runAll (fun _ => true) (.begin f) cs with
  | .ok _ => true
  | _ => false

theorem vstateAfter_eq {f : Nat → Bool} {cs : List (VStmt XRat)} (h : vgoesWell f cs = true) :
    VStmt.runAll (fun _ => true) (.begin f) cs = .ok (vstateAfter f cs) := by
  unfold vgoesWell at h
  unfold vstateAfter
  cases hr : VStmt.runAll (fun _ => true) (.begin f) cs with
  | ok s => rfl
  | throw x => rw [hr] at h; cases h
  | ub => rw [hr] at h; cases h

/-- How a statement ends. -/
def vends (c : VStmt XRat) (s : VState XRat) : Nat :=
  match c.exec (fun _ => true) s with
  | .ok _ _ => 0
  | .throw _ _ => 1
  | .ub => 2

theorem vends_ok {c : VStmt XRat} {s : VState XRat} (h : vends c s = 0) :
    ∃ s', c.exec (fun _ => true) s = .ok () s' := by
  unfold vends at h
  cases hr : c.exec (fun _ => true) s with
  | ok u s' => exact ⟨s', rfl⟩
  | throw x s' => rw [hr] at h; cases h
  | ub => rw [hr] at h; cases h

theorem vends_throw {c : VStmt XRat} {s : VState XRat} (h : vends c s = 1) :
    ∃ x s', c.exec (fun _ => true) s = .throw x s' := by
  unfold vends at h
  cases hr : c.exec (fun _ => true) s with
  | ok u s' => rw [hr] at h; cases h
  | throw x s' => exact ⟨x, s', rfl⟩
  | ub => rw [hr] at h; cases h

/-- The program gets to each of its statements, and these end normally. -/
example : ∀ n (h : n < arrows.length), ∃ q₁ q₂ s s', VReaches (fun _ => true) (vrow arrows) (.begin fun _ => false)
      (.step arrows[n] q₁ q₂) s ∧ VStmt.exec (fun _ => true) arrows[n] s = .ok () s' := by
  intro n h
  have hd : arrows = arrows.take n ++ arrows[n] :: arrows.drop (n + 1) := by
    rw [List.getElem_cons_drop, List.take_append_drop]
  have hw : vgoesWell (fun _ => false) (arrows.take n) = true := by
    have : ∀ n, n < arrows.length → vgoesWell (fun _ => false) (arrows.take n) = true := by decide +kernel
    exact this n h
  obtain ⟨s', hs'⟩ := vends_ok (c := arrows[n]) (s := vstateAfter (fun _ => false) (arrows.take n))
    (by
      have : ∀ n (h : n < arrows.length), vends arrows[n] (vstateAfter (fun _ => false) (arrows.take n)) = 0 := by
        decide +kernel
      exact this n h)
  refine ⟨vrow (arrows.drop (n + 1)), .done, _, s', ?_, hs'⟩
  have := vreaches_row (c := arrows[n]) (ds := arrows.drop (n + 1)) (vstateAfter_eq hw)
  rwa [← hd] at this

/-- The sum and the assignment run out of memory in the middle. -/
example : (∃ q₁ q₂ s x s', VReaches (fun _ => true) (vrow arrows) (.begin fun a => a == 16)
      (.step (.sum false 2 0 1) q₁ q₂) s ∧ VStmt.exec (fun _ => true) (.sum false 2 0 1) s = .throw x s') ∧
    ∃ n q₁ q₂ s x s', VReaches (fun _ => true) (vrow arrows) (.begin fun a => a == n)
      (.step (.assign 1 2) q₁ q₂) s ∧ VStmt.exec (fun _ => true) (.assign 1 2) s = .throw x s' := by
  have h1 := vends_throw (c := .sum false 2 0 1) (s := vstateAfter (fun a => a == 16) (arrows.take 4))
    (by decide +kernel)
  have h2 := vends_throw (c := .assign 1 2) (s := vstateAfter (fun a => a == 94) (arrows.take 7)) (by decide +kernel)
  obtain ⟨x, s', h1⟩ := h1
  obtain ⟨y, t', h2⟩ := h2
  exact ⟨⟨_, _, _, x, s', vreaches_row (cs := arrows.take 4) (ds := arrows.drop 5) (vstateAfter_eq (by decide +kernel)), h1⟩,
    94, _, _, _, y, t', vreaches_row (cs := arrows.take 7) (ds := arrows.drop 8) (vstateAfter_eq (by decide +kernel)), h2⟩

end VM.Props
