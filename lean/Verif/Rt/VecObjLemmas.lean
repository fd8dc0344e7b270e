import Verif.Spec.VecObj
import Verif.Rt.PairLemmas
/-
Programs with vectors run as the specification says.
-/
namespace VM
variable {K : Type} [Num K] {o fl : Nat → Bool} {G : List Nat}
open Act Run Prog Spec

/-! ### Numbers of objects -/

theorem twos_pow (a b : Nat) : ∀ f, a ≤ f → twos f (2 ^ a * (2 * b + 1)) = (a, b) := by
  induction a with
  | zero =>
    intro f _
    cases f with
    | zero => simp only [twos]; congr 1; omega
    | succ f => simp only [twos]; rw [if_neg (by omega)]; congr 1; omega
  | succ a ih =>
    intro f hf
    obtain ⟨f, rfl⟩ : ∃ g, f = g + 1 := ⟨f - 1, by omega⟩
    have h : 2 ^ (a + 1) * (2 * b + 1) = 2 * (2 ^ a * (2 * b + 1)) := by rw [Nat.pow_succ]; ac_rfl
    rw [twos, h, if_pos (by omega), show 2 * (2 ^ a * (2 * b + 1)) / 2 = 2 ^ a * (2 * b + 1) by omega,
      ih f (by omega)]

theorem twos_eq : ∀ (f n : Nat), n ≠ 0 → n ≤ f → n = 2 ^ (twos f n).1 * (2 * (twos f n).2 + 1)
  | 0, n, hn, hf => absurd (Nat.le_zero.1 hf) hn
  | f + 1, n, hn, hf => by
    rw [twos]
    split
    · rename_i h
      have ih := twos_eq f (n / 2) (by omega) (by omega)
      simp only [Nat.pow_succ]
      rw [Nat.mul_right_comm, ← ih]
      omega
    · simp only [Nat.pow_zero, Nat.one_mul]; omega

theorem le_pow (a b : Nat) : a ≤ 2 ^ a * (2 * b + 1) :=
  Nat.le_trans (Nat.le_of_lt Nat.lt_two_pow_self) (Nat.le_mul_of_pos_right _ (by omega))

theorem entry_ne_zero (v i : Nat) : entry v i ≠ 0 := by
  unfold entry
  have : 0 < 2 ^ (v + 1) * (2 * i + 1) := Nat.mul_pos (Nat.pow_pos (by omega)) (by omega)
  omega

theorem twos_entry (v i : Nat) : twos (entry v i) (entry v i) = (v + 1, i) := twos_pow _ _ _ (le_pow _ _)

theorem twos_plain (k : Nat) : twos (plain k) (plain k) = (0, k) := by
  have h := twos_pow 0 k (plain k) (Nat.zero_le _)
  simpa [plain] using h

theorem entry_inj {v w i j : Nat} (h : entry v i = entry w j) : v = w ∧ i = j := by
  have h1 := twos_entry v i
  rw [h, twos_entry, Prod.mk.injEq] at h1
  omega

theorem plain_inj {j k : Nat} (h : plain j = plain k) : j = k := by unfold plain at h; omega

theorem entry_even (v i : Nat) : entry v i % 2 = 0 := by
  have : entry v i = 2 * (2 ^ v * (2 * i + 1)) := by unfold entry; rw [Nat.pow_succ]; ac_rfl
  omega

theorem entry_ne_plain {v i k : Nat} : entry v i ≠ plain k := by
  have := entry_even v i
  unfold plain
  omega

/-- Every number is that of an entry, that of an object of its own, or zero. -/
theorem number (n : Nat) : n = 0 ∨ (∃ k, n = plain k) ∨ ∃ v i, n = entry v i := by
  by_cases hn : n = 0
  · exact .inl hn
  · have h := twos_eq n n hn (Nat.le_refl _)
    revert h
    generalize twos n n = p
    obtain ⟨a, b⟩ := p
    cases a with
    | zero => exact fun h => .inr (.inl ⟨b, by simpa [plain] using h⟩)
    | succ a => exact fun h => .inr (.inr ⟨a, b, h⟩)

/-! ### Stores -/

omit [Num K]

theorem all_zero {σ : VStore K} : σ.all 0 = none := rfl

theorem all_plain {σ : VStore K} (k : Nat) : σ.all (plain k) = σ.objs k := by
  rw [VStore.all, if_neg (by unfold plain; omega), twos_plain]

theorem all_entry {σ : VStore K} (v i : Nat) : σ.all (entry v i) = (σ.vecs v).bind fun es => es[i]?.map .expr := by
  rw [VStore.all, if_neg (entry_ne_zero v i), twos_entry]

theorem all_has {σ : VStore K} {v i : Nat} {es : List (Option (Expr K))} (h : σ.vecs v = some es) (hi : i < es.length) :
    σ.all (entry v i) = some (.expr es[i]) := by
  rw [all_entry, h]
  simp [hi]

theorem all_none {σ : VStore K} {v i : Nat} (h : σ.vecs v = none) : σ.all (entry v i) = none := by
  rw [all_entry, h]; rfl

theorem all_beyond {σ : VStore K} {v i : Nat} {es : List (Option (Expr K))} (h : σ.vecs v = some es)
    (hi : es.length ≤ i) : σ.all (entry v i) = none := by
  rw [all_entry, h]
  simp [hi]

theorem vec_self {σ : VStore K} {v : Nat} {es : Option (List (Option (Expr K)))} : (σ.vec v es).vecs v = es := by
  simp [VStore.vec]

theorem vec_other {σ : VStore K} {v w : Nat} {es : Option (List (Option (Expr K)))} (h : w ≠ v) :
    (σ.vec v es).vecs w = σ.vecs w := by
  simp [VStore.vec, h]

theorem vec_same {σ : VStore K} {v : Nat} {es : Option (List (Option (Expr K)))} (h : σ.vecs v = es) :
    σ.vec v es = σ := by
  cases σ with
  | mk ob vs =>
    simp only [VStore.vec, VStore.mk.injEq, true_and]
    funext u
    split
    · rename_i hu; rw [hu, ← h]
    · rfl

theorem vec_vec {σ : VStore K} {v : Nat} {es fs : Option (List (Option (Expr K)))} :
    (σ.vec v es).vec v fs = σ.vec v fs := by
  simp only [VStore.vec, VStore.mk.injEq, true_and]
  funext u
  split <;> rfl

theorem all_ext {σ : VStore K} {ρ : Store K} (h0 : ρ 0 = none) (h1 : ∀ k, ρ (plain k) = σ.objs k)
    (h2 : ∀ v i, ρ (entry v i) = (σ.vecs v).bind fun es => es[i]?.map .expr) : ρ = σ.all := by
  funext n
  rcases number n with rfl | ⟨k, rfl⟩ | ⟨v, i, rfl⟩
  · rw [h0]; rfl
  · rw [h1, all_plain]
  · rw [h2, all_entry]

theorem all_obj {σ : VStore K} {k : Nat} {x : Option (Obj K)} : σ.all.set (plain k) x = (σ.obj k x).all := by
  refine all_ext ?_ (fun j => ?_) fun v i => ?_
  · rw [set_other (by unfold plain; omega), all_zero]
  · by_cases h : j = k
    · rw [h, set_self]; simp [VStore.obj]
    · rw [set_other fun h' => h (plain_inj h'), all_plain]; simp [VStore.obj, h]
  · rw [set_other entry_ne_plain, all_entry]; rfl

theorem obj_obj {σ : VStore K} {k : Nat} {x y : Option (Obj K)} : (σ.obj k x).obj k y = σ.obj k y := by
  simp only [VStore.obj, VStore.mk.injEq, and_true]
  funext u
  split <;> rfl

/-- Changes of one vector. -/
theorem all_vec {σ : VStore K} {v i : Nat} {es fs : Option (List (Option (Expr K)))} {x : Option (Obj K)}
    (hx : (fs.bind fun es => es[i]?.map .expr) = x)
    (h : ∀ j, j ≠ i → (fs.bind fun es => es[j]?.map Obj.expr) = es.bind fun es => es[j]?.map Obj.expr) :
    (σ.vec v es).all.set (entry v i) x = (σ.vec v fs).all := by
  refine all_ext ?_ (fun j => ?_) fun w j => ?_
  · rw [set_other (entry_ne_zero v i).symm, all_zero]
  · rw [set_other entry_ne_plain.symm, all_plain]; rfl
  · by_cases hw : w = v
    · subst hw
      rw [vec_self]
      by_cases hj : j = i
      · rw [hj, set_self, hx]
      · rw [set_other fun h => hj (entry_inj h).2, all_entry, vec_self, h j hj]
    · rw [set_other fun h => hw (entry_inj h).1, all_entry, vec_other hw, vec_other hw]

theorem all_push {σ : VStore K} {v : Nat} {es : List (Option (Expr K))} {x : Option (Expr K)} {i : Nat}
    (hi : i = es.length) :
    (σ.vec v (some es)).all.set (entry v i) (some (.expr x)) = (σ.vec v (some (es ++ [x]))).all := by
  subst hi
  refine all_vec (by simp) fun j hj => ?_
  simp only [Option.bind_some]
  by_cases h : j < es.length
  · rw [List.getElem?_append_left h]
  · rw [List.getElem?_eq_none (by simp; omega), List.getElem?_eq_none (by omega)]

theorem all_pop {σ : VStore K} {v : Nat} {es : List (Option (Expr K))} {x : Option (Expr K)} {i : Nat}
    (hi : i = es.length) : (σ.vec v (some (es ++ [x]))).all.set (entry v i) none = (σ.vec v (some es)).all := by
  subst hi
  refine all_vec (by simp) fun j hj => ?_
  simp only [Option.bind_some]
  by_cases h : j < es.length
  · rw [List.getElem?_append_left h]
  · rw [List.getElem?_eq_none (l := es ++ [x]) (by simp; omega), List.getElem?_eq_none (by omega)]

theorem all_set {σ : VStore K} {v : Nat} {es : List (Option (Expr K))} {x : Option (Expr K)} {i : Nat}
    (hi : i < es.length) :
    (σ.vec v (some es)).all.set (entry v i) (some (.expr x)) = (σ.vec v (some (es.set i x))).all := by
  refine all_vec (by simp [hi]) fun j hj => ?_
  simp only [Option.bind_some]
  rw [List.getElem?_set_ne (Ne.symm hj)]

theorem all_nil {σ : VStore K} {v : Nat} : (σ.vec v (some [])).all = (σ.vec v none).all := by
  refine all_ext all_zero (fun k => all_plain k) fun w i => ?_
  rw [all_entry]
  by_cases h : w = v
  · subst h; rw [vec_self, vec_self]; rfl
  · rw [vec_other h, vec_other h]

theorem look_vec {σ : VStore K} {v : Nat} {es : Option (List (Option (Expr K)))} {r : Src} {e : Expr K}
    (hv : σ.vecs v = none) (h : Spec.look σ.all r = some e) : Spec.look (σ.vec v es).all r = some e := by
  have hr : (σ.vec v es).all r.obj = σ.all r.obj := by
    rcases number r.obj with h' | ⟨k, h'⟩ | ⟨w, i, h'⟩
    · rw [h']; rfl
    · rw [h', all_plain, all_plain]; rfl
    · by_cases hw : w = v
      · subst hw
        rw [Spec.look, h', all_none hv] at h
        cases h
      · rw [h', all_entry, all_entry, vec_other hw]
  rw [Spec.look, hr]
  exact h

/-! ### Pieces of code -/

variable [Num K]

omit [Num K] in
theorem pure_ends {s : State K} {σ : Store K} {B : Store K → Prop} (H : Rep fl s σ G) :
    EndsAs fl G σ B ((pure () : Prog K Unit) s) := .ok H

omit [Num K] in
theorem buffer_ends {s : State K} {σ : Store K} (H : Rep fl s σ G) (n : Nat) :
    EndsAs fl G σ (fun υ => υ = σ) (buffer n s) := by
  unfold buffer
  split
  · exact .ok H
  · obtain ⟨⟨fp, H⟩, hk⟩ := H
    have H' := H.leak (Heap.skip_adds H.wf)
    rw [List.nil_append] at H'
    rcases heap_request s with h | ⟨h, hs⟩
    · rw [h]; exact .ok ⟨⟨fp, H'⟩, hk⟩
    · rw [h]
      obtain ⟨a, -, -, ha⟩ := H.scarce hs
      exact .noMemory (L := []) ⟨⟨fp, H'⟩, hk⟩ rfl ⟨a, ha⟩

theorem decl_loop {σ : VStore K} {v : Nat} : ∀ (n : Nat) {s : State K} {es : List (Option (Expr K))} {i : Nat},
    i = es.length → Rep fl s (σ.vec v (some es)).all G →
    EndsAs fl G (σ.vec v (some (es ++ List.replicate n none))).all (fun _ => False)
      (loop (fun i => exec o (.decl (entry v i))) i n s)
  | 0, s, es, i, _, H => by
    rw [List.replicate_zero, List.append_nil]; exact .ok H
  | n + 1, s, es, i, hi, H => by
    rw [loop]
    refine ((exec_ends H (.decl (all_beyond vec_self (Nat.le_of_eq hi.symm))) trivial).mono
      (C := fun _ => False) fun _ h => by cases h).bind (fun _ h => h) fun s' H' => ?_
    rw [all_push hi] at H'
    have h := decl_loop n (i := i + 1) (by simp [hi]) H'
    rwa [List.append_assoc, List.singleton_append, ← List.replicate_succ] at h

theorem destroyAll_ends {σ : VStore K} {v : Nat} {B : Store K → Prop} : ∀ (n : Nat) {s : State K}
    {es : List (Option (Expr K))}, es.length = n → Rep fl s (σ.vec v (some es)).all G →
    EndsAs fl G (σ.vec v none).all B (destroyAll o v n s)
  | 0, s, es, hn, H => by
    rw [List.length_eq_zero_iff.1 hn, all_nil] at H; exact .ok H
  | n + 1, s, es, hn, H => by
    obtain ⟨es', x, rfl⟩ : ∃ es' x, es = es' ++ [x] :=
      ⟨es.dropLast, es.getLast (by intro h; rw [h] at hn; cases hn), (List.dropLast_concat_getLast _).symm⟩
    have hl : n = es'.length := by simp at hn; omega
    rw [destroyAll]
    refine ((exec_ends H (.destroy (all_has vec_self (by simp [hl]))) trivial).mono (C := B)
      fun _ h => by cases h).bind (fun _ h => h) fun s' H' => ?_
    rw [all_pop hl] at H'
    exact destroyAll_ends n hl.symm H'

theorem guarded_ends {σ : VStore K} {v n : Nat} {τ : Store K} {m : Prog K Unit} {s : State K}
    {B : Store K → Prop} (hv : σ.vecs v = none)
    (hB : ∀ υ, B υ → ∃ es : List (Option (Expr K)), es.length = n ∧ υ = (σ.vec v (some es)).all)
    (h : EndsAs fl G τ B (m s)) : EndsAs fl G τ (fun υ => υ = σ.all) (guarded o v n m s) := by
  revert h
  generalize hr : m s = r
  unfold guarded
  rintro (h1 | @⟨s', L, υ, h1, h2, h3⟩)
  · rw [hr]; exact .ok h1
  · rw [hr]
    obtain ⟨es, hn, rfl⟩ := hB _ h2
    have h4 := destroyAll_ends (o := o) (B := fun _ => False) n hn h1
    simp only
    revert h4
    generalize destroyAll o v n s' = q
    rintro (h4 | ⟨-, h5, -⟩)
    · rw [vec_same hv] at h4; exact .noMemory h4 rfl h3
    · exact absurd h5 id

/-- A loop that assigns to the entries of `v` one after the other. -/
theorem assign_loop {σ : VStore K} {v : Nat} {rhs : Nat → Rhs K} : ∀ (xs : List (Expr K)) {s : State K}
    {done rest : List (Option (Expr K))} {i n : Nat}, i = done.length → n = xs.length → xs.length = rest.length →
    (∀ j (hj : j < xs.length) ρ, ρ = (σ.vec v (some (done ++ (xs.take j).map some ++ rest.drop j))).all →
      RhsVal ρ (rhs (i + j)) (.ok xs[j]) ∧ TidyRhs ρ (rhs (i + j))) →
    Rep fl s (σ.vec v (some (done ++ rest))).all G →
    EndsAs fl G (σ.vec v (some (done ++ xs.map some))).all
      (fun υ => ∃ k, k < xs.length ∧ υ = (σ.vec v (some (done ++ (xs.take k).map some ++ rest.drop k))).all)
      (loop (fun i => exec o (.assign (entry v i) (rhs i))) i n s)
  | [], s, done, rest, i, n, _, hn, hl, _, H => by
    subst hn
    rw [List.length_eq_zero_iff.1 hl.symm] at H
    exact .ok H
  | x :: xs, s, done, rest, i, n, hi, hn, hl, hv, H => by
    subst hn
    obtain ⟨d, rest, rfl⟩ : ∃ d r, rest = d :: r := by
      cases rest with
      | nil => cases hl
      | cons d r => exact ⟨d, r, rfl⟩
    rw [List.length_cons, loop]
    obtain ⟨h1, h2⟩ := hv 0 (by simp) _ rfl
    simp only [List.take_zero, List.map_nil, List.append_nil, List.drop_zero, Nat.add_zero,
      List.getElem_cons_zero] at h1 h2
    have hlen : i < (done ++ d :: rest).length := by simp [hi]
    refine (exec_ends H (.assign (all_has vec_self hlen) h1) h2).bind (fun ρ h => ?_) fun s' H' => ?_
    · cases h
      exact ⟨0, by simp, by simp⟩
    · have hset : (done ++ d :: rest).set i (some x) = (done ++ [some x]) ++ rest := by
        rw [hi, List.set_append_right _ _ (Nat.le_refl _)]; simp
      rw [all_set hlen, hset] at H'
      have h := assign_loop xs (rhs := rhs) (i := i + 1) (n := xs.length) (by simp [hi]) rfl
        (by simpa using hl) (fun j hj ρ hρ => ?_) H'
      · rw [List.append_assoc, List.singleton_append, ← List.map_cons] at h
        refine h.mono ?_
        rintro ρ ⟨k, hk, rfl⟩
        exact ⟨k + 1, by simpa using hk, by simp⟩
      · have := hv (j + 1) (by simpa using hj) ρ (by rw [hρ]; simp)
        rw [show i + 1 + j = i + (j + 1) by omega]
        simpa using this

theorem newVec_ends {s : State K} {σ : VStore K} {v n : Nat} (hv : σ.vecs v = none) (H : Rep fl s σ.all G) :
    EndsAs fl G (σ.vec v (some (List.replicate n (some (.const (Num.lit 0)))))).all (fun υ => υ = σ.all)
      (newVec o v n s) := by
  unfold newVec
  refine (buffer_ends H n).bind (fun _ h => h) fun s' H' => ?_
  have H'' : Rep fl s' (σ.vec v (some [])).all G := by rw [all_nil, vec_same hv]; exact H'
  refine ((decl_loop (o := o) n (i := 0) rfl H'').mono (C := fun υ => υ = σ.all) fun _ h => absurd h id).bind
    (fun _ h => h) fun t Ht => ?_
  rw [List.nil_append] at Ht
  have h := assign_loop (o := o) (rhs := fun _ => Rhs.leaf (.const (Num.lit 0)))
    (List.replicate n (.const (Num.lit 0))) (done := []) (rest := List.replicate n none) (i := 0) (n := n) (σ := σ)
    (v := v) (G := G) (fl := fl) (s := t)
    rfl (by simp) (by simp) (fun j hj ρ _ => ⟨by simpa using RhsVal.const _, tidy_const⟩) Ht
  rw [List.nil_append, List.map_replicate] at h
  refine guarded_ends hv (fun υ hυ => ?_) h
  obtain ⟨k, hk, rfl⟩ := hυ
  refine ⟨_, ?_, rfl⟩
  simp at hk ⊢
  omega

/-- `result[i] = ...` for the entries of a new vector. -/
theorem fillVec_ends {s : State K} {σ : VStore K} {v n : Nat} {rhs : Nat → Rhs K} {xs : List (Expr K)}
    (hv : σ.vecs v = none) (hn : n = xs.length) (H : Rep fl s σ.all G)
    (hr : ∀ j (hj : j < xs.length) es, RhsVal (σ.vec v (some es)).all (rhs j) (.ok xs[j]) ∧
      TidyRhs (σ.vec v (some es)).all (rhs j)) :
    EndsAs fl G (σ.vec v (some (xs.map some))).all (fun υ => υ = σ.all) (fillVec o v n rhs s) := by
  unfold fillVec
  refine (newVec_ends hv H).bind (fun _ h => h) fun t Ht => ?_
  have h := assign_loop (o := o) (rhs := rhs) xs (done := [])
    (rest := List.replicate n (some (.const (Num.lit 0)))) (i := 0) (n := n) (σ := σ) (v := v) (G := G) (fl := fl)
    (s := t) rfl hn (by simp [hn]) (fun j hj ρ hρ => by rw [hρ, Nat.zero_add]; exact hr j hj _) Ht
  rw [List.nil_append] at h
  refine guarded_ends hv (fun υ hυ => ?_) h
  obtain ⟨k, hk, rfl⟩ := hυ
  refine ⟨_, ?_, rfl⟩
  simp
  omega

theorem tidy_bin {σ : Store K} {op : BOp} {l r : Src} : TidyRhs σ (.bin op l r) :=
  ⟨(fun _ h => by cases h), (fun _ _ _ _ h => by cases h)⟩

/-- Copies of the entries of another vector. -/
theorem copyAll_ends {σ : VStore K} {v w : Nat} (hvw : w ≠ v) {es : List (Option (Expr K))} (hw : σ.vecs w = some es) :
    ∀ (n : Nat) {s : State K} {i : Nat}, i + n = es.length → Rep fl s (σ.vec v (some (es.take i))).all G →
    EndsAs fl G (σ.vec v (some es)).all (fun υ => υ = (σ.vec v (some (es.take i))).all) (copyAll o v w i n s)
  | 0, s, i, hi, H => by
    rw [List.take_of_length_le (by omega)] at H ⊢
    exact .ok H
  | n + 1, s, i, hi, H => by
    have hlt : i < es.length := by omega
    have hlen : i = (es.take i).length := by simp; omega
    rw [copyAll]
    refine (init_ends H (all_beyond vec_self (Nat.le_of_eq hlen.symm)) (e := es[i]) ?_).bind (fun _ h => h)
      fun s' H' => ?_
    · rw [all_has (σ := σ.vec v _) (v := w) (es := es) (by rw [vec_other hvw, hw]) hlt]
    · rw [all_push hlen, List.take_append_getElem hlt] at H'
      refine after_ends (copyAll_ends hvw hw n (i := i + 1) (by omega) H') ?_
      rintro υ rfl
      refine ⟨⟨_, all_has vec_self (by simp; omega)⟩, ?_⟩
      rw [← List.take_append_getElem hlt, all_pop hlen]

/-! ### Dot products -/

theorem plain_ne_within {k : Nat} : plain k ≠ within := by unfold plain within; omega

omit [Num K] in
theorem look_expr {σ : Store K} {i : Nat} {e : Expr K} (h : σ i = some (.expr (some e))) :
    Spec.look σ ⟨i, []⟩ = some e := by simp [Spec.look, h, Obj.part, part]

omit [Num K] in
theorem look_entry {σ : VStore K} {v i : Nat} {xs : List (Expr K)} (h : σ.Has v xs) (hi : i < xs.length) :
    Spec.look σ.all ⟨entry v i, []⟩ = some xs[i] :=
  look_expr (by rw [all_has h (by simpa using hi)]; simp)

theorem dotStep_ends {s : State K} {σ : VStore K} {k v w i : Nat} {p : Expr K} {xs ys : List (Expr K)}
    (hv : σ.Has v xs) (hw : σ.Has w ys) (hi : i < xs.length) (hj : i < ys.length)
    (H : Rep fl s (σ.obj k (some (.expr (some p)))).all G) :
    EndsAs fl G (σ.obj k (some (.expr (some (.bin .plus p (.bin .mult xs[i] ys[i])))))).all
      (fun υ => υ = (σ.obj k (some (.expr (some p)))).all) (dotStep o k v w i s) := by
  unfold dotStep
  have hv' : (σ.obj k (some (.expr (some p)))).Has v xs := hv
  have hw' : (σ.obj k (some (.expr (some p)))).Has w ys := hw
  have h0 : (σ.obj k (some (.expr (some p)))).all within = none := all_zero
  have hp : (σ.obj k (some (.expr (some p)))).all (plain k) = some (.expr (some p)) := by
    rw [all_plain]; simp [VStore.obj]
  refine ((exec_ends H (.init h0 (.bin (look_entry hv' hi) (look_entry hw' hj))) tidy_bin).mono
    (C := fun υ => υ = (σ.obj k (some (.expr (some p)))).all) fun _ h => by cases h; rfl).bind (fun _ h => h)
    fun s' H' => ?_
  have h1 := exec_ends (o := o) H' (.assign (i := plain k) (by rw [set_other plain_ne_within, hp])
    (.bin (op := .plus) (look_expr (i := plain k) (by rw [set_other plain_ne_within, hp])) (look_expr set_self))) tidy_bin
  refine EndsAs.bind (after_ends h1 ?_) (B := fun υ => υ = (σ.obj k (some (.expr (some p)))).all) (fun _ h => h)
    fun t Ht => ?_
  · intro υ hυ
    cases hυ
    exact ⟨⟨_, set_self⟩, by rw [set_set, set_same h0]⟩
  · have h2 := exec_ends (o := o) Ht (.destroy (i := within) (by rw [set_other plain_ne_within.symm, set_self])) trivial
    rw [set_comm (i := plain k) plain_ne_within, set_set, set_same h0, all_obj, obj_obj] at h2
    exact h2.mono fun _ h => by cases h

theorem dot_loop {σ : VStore K} {k v w : Nat} {xs ys : List (Expr K)} (hv : σ.Has v xs) (hw : σ.Has w ys)
    (hl : xs.length = ys.length) : ∀ (n : Nat) {s : State K} {i : Nat} {p : Expr K}, i + n = xs.length →
    Rep fl s (σ.obj k (some (.expr (some p)))).all G →
    EndsAs fl G (σ.obj k (some (.expr (some (plusProducts p ((xs.drop i).zip (ys.drop i))))))).all
      (fun υ => ∃ q, υ = (σ.obj k (some (.expr (some q)))).all) (loop (dotStep o k v w) i n s)
  | 0, s, i, p, hi, H => by
    rw [List.drop_of_length_le (by omega)]; exact .ok H
  | n + 1, s, i, p, hi, H => by
    rw [loop]
    refine (dotStep_ends hv hw (by omega) (by omega) H).bind (fun _ h => ⟨_, h⟩) fun s' H' => ?_
    have h := dot_loop hv hw hl n (i := i + 1) (by omega) H'
    rw [List.drop_eq_getElem_cons (l := xs) (by omega), List.drop_eq_getElem_cons (l := ys) (by omega),
      List.zip_cons_cons, plusProducts]
    exact h

/-! ### Statements -/

omit [Num K] in
theorem size_has {s : VState K} {σ : VStore K} (hs : s.vecs = fun v => (σ.vecs v).map List.length) {v : Nat}
    {es : List (Option (Expr K))} (h : σ.vecs v = some es) : s.size v = es.length := by
  simp [VState.size, hs, h]

theorem scaled_val {σ : VStore K} {div left : Bool} {w i : Nat} {e : Src} {s : Expr K} {xs : List (Expr K)}
    (hw : σ.Has w xs) (hi : i < xs.length) (he : Spec.look σ.all e = some s) :
    RhsVal σ.all (scaled div left w e i) (.ok (scaledBy div left s xs[i])) ∧ TidyRhs σ.all (scaled div left w e i) := by
  unfold scaled
  cases div <;> cases left <;> simp only [Bool.false_eq_true, if_false, if_true, scaledBy] <;>
    first
    | exact ⟨.bin (look_entry hw hi) he, tidy_bin⟩
    | exact ⟨.bin he (look_entry hw hi), tidy_bin⟩

omit [Num K] in
theorem has_vec {σ : VStore K} {v w : Nat} {es : Option (List (Option (Expr K)))} {xs : List (Expr K)} (h : w ≠ v)
    (hw : σ.Has w xs) : (σ.vec v es).Has w xs := by
  rw [VStore.Has, vec_other h]; exact hw

omit [Num K] in
theorem has_ne {σ : VStore K} {v w : Nat} {es : List (Option (Expr K))} (hv : σ.vecs v = none)
    (hw : σ.vecs w = some es) : w ≠ v := by
  rintro rfl; rw [hv] at hw; cases hw

theorem sum_ends {s : State K} {σ : VStore K} {op : BOp} {v w u n : Nat} {xs ys : List (Expr K)}
    (hv : σ.vecs v = none) (hw : σ.Has w xs) (hu : σ.Has u ys) (hl : xs.length = ys.length) (hn : n = ys.length)
    (H : Rep fl s σ.all G) :
    EndsAs fl G (σ.vec v (some (List.zipWith (fun x y => some (.bin op x y)) xs ys))).all (fun υ => υ = σ.all)
      (fillVec o v n (fun i => .bin op ⟨entry w i, []⟩ ⟨entry u i, []⟩) s) := by
  have h := fillVec_ends (o := o) (v := v) (n := n) (xs := List.zipWith (fun x y => .bin op x y) xs ys)
    (rhs := fun i => .bin op ⟨entry w i, []⟩ ⟨entry u i, []⟩) hv (by simp [hn, hl]) H
    (fun j hj es => ⟨?_, tidy_bin⟩)
  · rwa [List.map_zipWith] at h
  · simp only [List.length_zipWith] at hj
    rw [List.getElem_zipWith]
    exact .bin (look_entry (has_vec (has_ne hv hw) hw) (by omega)) (look_entry (has_vec (has_ne hv hu) hu) (by omega))

theorem code_ends {s : VState K} {σ τ : VStore K} {c : VStmt K} (H : Rep fl s.st σ.all G)
    (hs : s.vecs = fun v => (σ.vecs v).map List.length) (hx : VExec σ c τ) (hc : ∀ d, c ≠ .on d) :
    EndsAs fl G τ.all (fun υ => ∃ ρ, υ = ρ.all ∧ VOutOf σ c ρ ∧ Shape σ ρ) (c.code o s.size s.st) := by
  have hrefl : Shape σ σ := fun _ => rfl
  cases hx with
  | on => exact absurd rfl (hc _)
  | @make v n h => exact (newVec_ends h H).mono fun _ h => ⟨σ, h, .make, hrefl⟩
  | @copy v w es hv hw =>
    rw [VStmt.code, size_has hs hw]
    refine (buffer_ends H _).bind (fun _ h => ⟨σ, h, .copy, hrefl⟩) fun s' H' => ?_
    have H'' : Rep fl s' (σ.vec v (some (es.take 0))).all G := by rw [List.take_zero, all_nil, vec_same hv]; exact H'
    refine (copyAll_ends (has_ne hv hw) hw es.length (i := 0) (by simp) H'').mono fun υ h => ⟨σ, ?_, .copy, hrefl⟩
    rw [h, List.take_zero, all_nil, vec_same hv]
  | @add v w u xs ys hv hw hu hl =>
    rw [VStmt.code, size_has hs hw, size_has hs hu, if_pos (by simpa using hl)]
    exact (sum_ends hv hw hu hl (by simp) H).mono fun _ h => ⟨σ, h, .sum, hrefl⟩
  | @sub v w u xs ys hv hw hu hl =>
    rw [VStmt.code, size_has hs hw, size_has hs hu, if_pos (by simpa using hl)]
    exact (sum_ends hv hw hu hl (by simp) H).mono fun _ h => ⟨σ, h, .sum, hrefl⟩
  | @scale div left v w e sc xs hv hw he =>
    rw [VStmt.code, size_has hs hw]
    have h := fillVec_ends (o := o) (v := v) (n := (xs.map some).length) (xs := xs.map (scaledBy div left sc))
      (rhs := scaled div left w e) hv (by simp) H (fun j hj es => by
        rw [List.getElem_map]
        exact scaled_val (has_vec (has_ne hv hw) hw) (by simpa using hj) (look_vec hv he))
    rw [List.map_map] at h
    exact h.mono fun _ h => ⟨σ, h, .scale, hrefl⟩
  | @dot k v w x xs y ys hk hv hw hl =>
    have h1 := look_entry (i := 0) hv (by simp)
    have h2 := look_entry (i := 0) hw (by simp)
    have h0 : σ.all (plain k) = none := by rw [all_plain, hk]
    rw [VStmt.code, size_has hs hv, size_has hs hw, if_pos (by simp [hl])]
    refine ((exec_ends H (.init h0 (.bin h1 h2)) tidy_bin).mono (C := fun υ => υ = σ.all)
      fun _ h => by cases h; rfl).bind (fun _ h => ⟨σ, h, .dot, hrefl⟩) fun s' H' => ?_
    rw [all_obj] at H'
    have h3 := dot_loop (o := o) hv hw (by simp [hl]) xs.length (i := 1) (by simp; omega) H'
    refine after_ends (B := fun υ => ∃ q, υ = (σ.obj k (some (.expr (some q)))).all) ?_ ?_
    · simpa [hl] using h3
    · rintro υ ⟨q, rfl⟩
      refine ⟨⟨.expr (some q), by rw [all_plain]; simp [VStore.obj]⟩, σ, ?_, .dot, hrefl⟩
      rw [← all_obj, set_set, set_same h0]
  | @assign v w es xs hv hw hl =>
    rw [VStmt.code]
    split
    · rename_i hvw
      subst hvw
      rw [vec_same hw]
      exact .ok H
    · rename_i hvw
      rw [size_has hs hv, size_has hs hw, if_pos (by simpa using hl)]
      have H' : Rep fl s.st (σ.vec v (some ([] ++ es))).all G := by rw [List.nil_append, vec_same hv]; exact H
      have h := assign_loop (o := o) (rhs := fun i => .copy ⟨entry w i, []⟩) xs (i := 0) (n := (xs.map some).length)
        (done := []) (rest := es) rfl (by simp) hl.symm (fun j hj ρ hρ => ⟨?_, tidy_copy⟩) H'
      · refine h.mono ?_
        rintro υ ⟨n, hn, rfl⟩
        refine ⟨_, rfl, ?_, ?_⟩
        · rw [List.nil_append, List.map_take]
          exact .assign n hv hw hl hn
        · intro u
          by_cases hu : u = v
          · subst hu; rw [vec_self, hv]; simp; omega
          · rw [vec_other hu]
      · rw [hρ, Nat.zero_add]
        exact .copy (look_entry (has_vec (Ne.symm hvw) hw) hj)
  | @self v es h => rw [VStmt.code, if_pos rfl]; exact .ok H
  | @destroy v es h =>
    rw [VStmt.code, size_has hs h]
    exact destroyAll_ends _ rfl (by rw [vec_same h]; exact H)

/-! ### Statements and programs -/

/-- The state holds the objects and the vectors of the store. -/
def VRep (fl : Nat → Bool) (s : VState K) (σ : VStore K) (G : List Nat) : Prop :=
  Rep fl s.st σ.all G ∧ s.vecs = fun v => (σ.vecs v).map List.length

inductive VSim (fl : Nat → Bool) (σ τ : VStore K) (c : VStmt K) (G : List Nat) : Out (VState K) Unit → Prop
  | ok {s' L} : VRep fl s' τ (L ++ G) → (VTidy σ c → L = []) → ¬ VThrowing σ c → VSim fl σ τ c G (.ok () s')
  | threw {x s' L} : VRep fl s' τ (L ++ G) → VThrowing σ c → VSim fl σ τ c G (.throw x s')
  | noMemory {s' L υ} : VRep fl s' υ (L ++ G) → VOutOf σ c υ → (∃ a, fl a = true) → VSim fl σ τ c G (.throw .badAlloc s')

omit [Num K] in
theorem direct_of {c : Stmt K} (h : OnOne c) : c.direct = true := by
  rcases h with ⟨k, h⟩ | ⟨v, i, ⟨rhs, rfl⟩ | rfl⟩
  · unfold Stmt.direct
    rw [target_subject, h, if_pos (by unfold plain; omega)]
  · rw [Stmt.direct]; split
    · rfl
    · simp [within, entry_ne_zero]
  · rw [Stmt.direct]; split
    · rfl
    · simp [within, entry_ne_zero]

theorem VRep.admits {s : VState K} {σ τ : VStore K} {c : VStmt K} (H : VRep fl s σ G) (hx : VExec σ c τ) :
    s.admits c = true := by
  have hk : ∀ n, s.st.objs n = (σ.all n).map kind := H.1.2
  cases hx with
  | on _ _ h => exact direct_of h
  | make h => simp [VState.admits, H.2, h]
  | copy h hq => simp [VState.admits, H.2, h, hq]
  | add h hw hu _ | sub h hw hu _ => simp [VState.admits, H.2, h, show _ = _ from hw, show _ = _ from hu]
  | scale h hw _ => simp [VState.admits, H.2, h, show _ = _ from hw]
  | dot h hv hw _ => simp [VState.admits, H.2, hk, all_plain, h, show _ = _ from hv, show _ = _ from hw]
  | assign hv hw _ => simp [VState.admits, H.2, hv, show _ = _ from hw]
  | self h => simp [VState.admits, H.2, h]
  | destroy h => simp [VState.admits, H.2, h]

omit [Num K] in
theorem live_vec {s : VState K} {σ : VStore K} (H : VRep fl s σ G) {v n : Nat} {es : List (Option (Expr K))}
    (h : n = es.length) : (fun u => if u = v then some n else s.vecs u) =
      fun u => ((σ.vec v (some es)).vecs u).map List.length := by
  funext u
  by_cases hu : u = v
  · subst hu; simp [VStore.vec, h]
  · simp [VStore.vec, hu, H.2]

theorem VRep.live {s : VState K} {σ τ : VStore K} {c : VStmt K} (H : VRep fl s σ G) (hx : VExec σ c τ) :
    s.live c = fun v => (τ.vecs v).map List.length := by
  cases hx with
  | on _ hs _ => simp only [VState.live]; rw [H.2]; funext v; exact (hs v).symm
  | make h => exact live_vec H (by simp)
  | copy h hq => exact live_vec H (size_has H.2 hq)
  | add h hw hu hl | sub h hw hu hl => exact live_vec H (by rw [size_has H.2 hw]; simp [hl])
  | scale h hw _ => exact live_vec H (by rw [size_has H.2 hw]; simp)
  | dot h hv hw _ => simp only [VState.live]; rw [H.2]; rfl
  | @assign v w es xs hv hw hl =>
    simp only [VState.live]
    rw [H.2]
    funext u
    by_cases hu : u = v
    · subst hu; simp [VStore.vec, hv, hl]
    · simp [VStore.vec, hu]
  | self h => exact H.2
  | @destroy v es h =>
    funext u
    by_cases hu : u = v
    · subst hu; simp [VState.live, VStore.vec]
    · simp [VState.live, VStore.vec, hu, H.2]

theorem outOf_shape {σ : VStore K} {c : Stmt K} {υ : Store K} (h : OutOf σ.all c υ) (hc : OnOne c) :
    ∃ ρ, υ = VStore.all ρ ∧ Shape σ ρ := by
  have hd : υ = σ.all ∨ ∃ x, υ = σ.all.set (subject c) x := by
    cases h <;> first | exact .inl rfl | exact .inr ⟨_, rfl⟩
  rcases hc with ⟨k, hk⟩ | ⟨v, i, ⟨rhs, rfl⟩ | rfl⟩
  · rcases hd with rfl | ⟨x, rfl⟩
    · exact ⟨σ, rfl, fun _ => rfl⟩
    · rw [hk, all_obj]; exact ⟨_, rfl, fun _ => rfl⟩
  · cases h; exact ⟨σ, rfl, fun _ => rfl⟩
  · cases h with
    | @inplace _ x y h1 h2 =>
      have h1' := h1
      rw [all_entry] at h1
      cases hv : σ.vecs v with
      | none => rw [hv] at h1; cases h1
      | some es =>
        rw [hv] at h1
        have hi : i < es.length := by
          simp only [Option.bind_some] at h1
          cases hi : es[i]? with
          | none => rw [hi] at h1; cases h1
          | some e => exact (List.getElem?_eq_some_iff.1 hi).1
        refine ⟨σ.vec v (some (es.set i (some y))), ?_, fun u => ?_⟩
        · rw [← all_set hi, vec_same hv]
        · by_cases hu : u = v
          · subst hu; simp [VStore.vec, hv]
          · rw [vec_other hu]

theorem vexec_sim {s : VState K} {σ τ : VStore K} {c : VStmt K} (H : VRep fl s σ G) (hx : VExec σ c τ) :
    VSim fl σ τ c G (c.exec o s) := by
  rw [VStmt.exec, if_pos (H.admits hx)]
  have hl := H.live hx
  by_cases hc : ∃ d, c = .on d
  · obtain ⟨d, rfl⟩ := hc
    cases hx with
    | on h1 h2 h3 =>
      have hs := exec_sim (o := o) H.1 h1
      rw [VStmt.code]
      have hsh : s.vecs = fun v => (τ.vecs v).map List.length := hl
      revert hs
      generalize exec o d s.st = r
      rintro (⟨h4, h5, h6⟩ | ⟨h4, h5⟩ | ⟨h4, h5, ⟨a, -, -, ha⟩⟩)
      · exact .ok ⟨h4, hl⟩ h5 h6
      · exact .threw ⟨h4, hsh⟩ h5
      · obtain ⟨ρ, rfl, hρ⟩ := outOf_shape h5 h3
        exact .noMemory ⟨h4, by rw [H.2]; funext v; exact (hρ v).symm⟩ (.on h5 hρ) ⟨a, ha⟩
  · have hc' : ∀ d, c ≠ .on d := fun d h => hc ⟨d, h⟩
    have hs := code_ends (o := o) H.1 H.2 hx hc'
    revert hs
    generalize c.code o s.size s.st = r
    rintro (h3 | ⟨h3, ⟨ρ, rfl, h4, h5⟩, h6⟩)
    · refine .ok (L := []) ⟨h3, hl⟩ (fun _ => rfl) ?_
      cases c <;> first | exact id | exact absurd rfl (hc' _)
    · exact .noMemory ⟨h3, by rw [H.2]; funext v; exact (h5 v).symm⟩ h4 h6

omit [Num K] in
theorem all_empty : (VStore.empty : VStore K).all = .empty := by
  refine (all_ext rfl (fun _ => rfl) fun _ _ => rfl).symm

theorem vclient_sim : ∀ {p : VClient K} {s : VState K} {σ : VStore K} {G : List Nat},
    VRep fl s σ G → VSafe σ p → ∃ s' L τ, p.run o s = .ok s' ∧ VRan σ p τ ∧ VRep fl s' τ (L ++ G)
  | .done, s, σ, G, H, _ => ⟨s, [], σ, rfl, .done, H⟩
  | .step c p q, s, σ, G, H, hS => by
    obtain ⟨⟨τ, hx⟩, hS⟩ := hS
    have hs := vexec_sim (o := o) H hx
    revert hs
    rw [VClient.run]
    generalize hr : c.exec o s = r
    rintro (@⟨s', L, h2, h3, h4⟩ | @⟨x, s', L, h2, h3⟩ | @⟨s', L, υ, h2, h3, -⟩)
    · obtain ⟨s'', M, υ, g1, g2, g3⟩ := vclient_sim h2 ((hS τ).1 (.normal hx h4))
      exact ⟨s'', M ++ L, υ, g1, .step (.normal hx h4) g2, by rw [List.append_assoc]; exact g3⟩
    · obtain ⟨s'', M, υ, g1, g2, g3⟩ := vclient_sim h2 ((hS τ).2 (.threw hx h3))
      exact ⟨s'', M ++ L, υ, g1, .step (.threw hx h3) g2, by rw [List.append_assoc]; exact g3⟩
    · obtain ⟨s'', M, υ', g1, g2, g3⟩ := vclient_sim h2 ((hS υ).2 (.noMemory h3))
      exact ⟨s'', M ++ L, υ', g1, .step (.noMemory h3) g2, by rw [List.append_assoc]; exact g3⟩

omit [Num K] in
theorem vstart_rep : VRep fl (VState.begin (K := K) fl) .empty [] := ⟨by rw [all_empty]; exact start_rep, rfl⟩

theorem vreaches_sim {p q : VClient K} {s t : VState K} {σ : VStore K} (hr : VReaches o p s q t) (H : VRep fl s σ G)
    (hS : VSafe σ p) : ∃ τ L, VRep fl t τ (L ++ G) ∧ VSafe τ q := by
  induction hr generalizing σ G with
  | refl => exact ⟨σ, [], H, hS⟩
  | @ok c p q s s' r t hx _ ih =>
    obtain ⟨⟨τ, hc⟩, hS⟩ := hS
    have hs := vexec_sim (o := o) H hc
    rw [hx] at hs
    cases hs with
    | @ok _ L h1 _ h2 =>
      obtain ⟨υ, M, h3, h4⟩ := ih h1 ((hS τ).1 (.normal hc h2))
      exact ⟨υ, M ++ L, by rw [List.append_assoc]; exact h3, h4⟩
  | @threw c p q s x s' r t hx _ ih =>
    obtain ⟨⟨τ, hc⟩, hS⟩ := hS
    have hs := vexec_sim (o := o) H hc
    rw [hx] at hs
    cases hs with
    | @threw _ _ L h1 h2 =>
      obtain ⟨υ, M, h3, h4⟩ := ih h1 ((hS τ).2 (.threw hc h2))
      exact ⟨υ, M ++ L, by rw [List.append_assoc]; exact h3, h4⟩
    | @noMemory _ L υ h1 h2 _ =>
      obtain ⟨υ', M, h3, h4⟩ := ih h1 ((hS υ).2 (.noMemory h2))
      exact ⟨υ', M ++ L, by rw [List.append_assoc]; exact h3, h4⟩

/-- Without enough memory or with: any point of a safe program. -/
theorem vclient_step {p q₁ q₂ : VClient K} {c : VStmt K} {s : VState K} (h : VSafe .empty p)
    (hs : VReaches o p (.begin fl) (.step c q₁ q₂) s) :
    ∃ σ τ G, VRep fl s σ G ∧ VExec σ c τ ∧ VSim fl σ τ c G (c.exec o s) := by
  obtain ⟨σ, L, h1, ⟨⟨τ, h2⟩, -⟩⟩ := vreaches_sim hs vstart_rep h
  exact ⟨σ, τ, _, h1, h2, vexec_sim h1 h2⟩

/-- A program, statement by statement. -/
def VStmt.runAll (o : Nat → Bool) : VState K → List (VStmt K) → Res (VState K)
  | s, [] => .ok s
  | s, c :: cs => match c.exec o s with
    | .ok _ s' => VStmt.runAll o s' cs
    | .throw x _ => .throw x
    | .ub => .ub

theorem vall_sim {σ τ : VStore K} {cs : List (VStmt K)} {s : VState K} (hf : ∀ a, fl a = false) (H : VRep fl s σ [])
    (hx : VExecAll σ cs τ) : ∃ s', VStmt.runAll o s cs = .ok s' ∧ VRep fl s' τ [] := by
  induction hx generalizing s with
  | nil => exact ⟨s, rfl, H⟩
  | @cons σ c τ cs υ h ht _ ih =>
    have hs := vexec_sim (o := o) H h
    revert hs
    rw [VStmt.runAll]
    generalize hr : c.exec o s = r
    rintro (@⟨s', L, h2, h3, h4⟩ | @⟨x, s', L, h2, h3⟩ | ⟨_, _, ⟨a, ha⟩⟩)
    · rw [h3 ht] at h2
      exact ih h2
    · cases c with
      | on c => exact absurd h3 (not_throwing_tidy ht)
      | _ => exact absurd h3 id
    · rw [hf a] at ha; cases ha


omit [Num K] in
theorem vec_all_other {σ : VStore K} {v n : Nat} {es : Option (List (Option (Expr K)))} (h : ¬ ∃ i, n = entry v i) :
    (σ.vec v es).all n = σ.all n := by
  rcases number n with rfl | ⟨k, rfl⟩ | ⟨w, i, rfl⟩
  · rfl
  · rw [all_plain, all_plain]; rfl
  · rw [all_entry, all_entry, vec_other fun hw => h ⟨i, by rw [hw]⟩]

theorem vexec_same {σ τ : VStore K} {c : VStmt K} (h : VExec σ c τ) {n : Nat} (hn : ¬ VSubject n c) :
    τ.all n = σ.all n := by
  cases h with
  | on h _ _ => exact exec_same h hn
  | dot => rw [← all_obj, set_other hn]
  | self => rfl
  | _ => exact vec_all_other hn

theorem voutOf_same {σ τ : VStore K} {c : VStmt K} (h : VOutOf σ c τ) {n : Nat} (hn : ¬ VSubject n c) :
    τ.all n = σ.all n := by
  cases h with
  | on h _ => exact outOf_same h hn
  | assign => exact vec_all_other hn
  | _ => rfl

end VM
