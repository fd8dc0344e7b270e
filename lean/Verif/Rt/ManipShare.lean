import Verif.Rt.ManipLemmas
/-
Manipulation with a functor that returns its argument.
-/
namespace VM
open Spec Run Act
variable {K : Type} {o : Nat → Bool} {h h1 h2 : Heap K} {a b : Nat} {e : Expr K} {F A : List Nat}

/-- Below `b` there is a node that is not allocated. -/
inductive Dead (c : Nat → Option (Cell K)) : Nat → Prop
  | here {b : Nat} : c b = none → Dead c b
  | kid {b : Nat} {l : Label K} {ks : List Nat} {k : Nat} : c b = some ⟨l, ks⟩ → k ∈ ks → Dead c k → Dead c b

/-- Below `b` there is a node in `F`. -/
inductive Shares (c : Nat → Option (Cell K)) (F : List Nat) : Nat → Prop
  | here {b : Nat} : b ∈ F → Shares c F b
  | kid {b : Nat} {l : Label K} {ks : List Nat} {k : Nat} : c b = some ⟨l, ks⟩ → k ∈ ks → Shares c F k → Shares c F b

theorem Shares.mono {c c' : Nat → Option (Cell K)} (hc : ∀ b, c b ≠ none → c' b = c b) (H : Shares c F b) :
    Shares c' F b := by
  induction H with
  | here h => exact .here h
  | kid h1 h2 _ ih => exact .kid (by rw [hc _ (by simp [h1]), h1]) h2 ih

theorem Shares.dead (H : Shares h.cells F b) : Dead (h.free F).cells b := by
  induction H with
  | here h => exact .here (by simp [Heap.free, h])
  | @kid b l ks k h1 h2 _ ih =>
    by_cases hb : b ∈ F
    · exact .here (by simp [Heap.free, hb])
    · exact .kid (by rw [Heap.free_out hb, h1]) h2 ih

/-- Whatever else is freed. -/
theorem Dead.mono {c c' : Nat → Option (Cell K)} (hc : ∀ b, c' b = none ∨ c' b = c b) (H : Dead c b) : Dead c' b := by
  induction H with
  | @here b h => exact .here ((hc b).elim id fun g => g.trans h)
  | @kid b l ks k h1 h2 _ ih =>
    rcases hc b with h | h
    · exact .here h
    · exact .kid (h.trans h1) h2 ih

/-- Reading gives a value or is undefined. -/
theorem loadN_throw (n : Nat) : ∀ a x, loadN h n a ≠ .throw x := by
  induction n with
  | zero => intro a x; simp [loadN]
  | succ n ih =>
    have key : ∀ ks x, readEach (loadN h n) ks ≠ .throw x := by
      intro ks
      induction ks with
      | nil => simp [readEach]
      | cons k ks ihk =>
        intro x
        rw [readEach]
        cases hk : loadN h n k with
        | throw y => exact absurd hk (ih k y)
        | ub => simp
        | ok e =>
          simp only [Res.bind_ok]
          cases hr : readEach (loadN h n) ks with
          | throw y => exact absurd hr (ihk y)
          | ub => simp
          | ok es => simp
    intro a x
    rw [loadN]
    split
    · simp
    · cases hr : readEach (loadN h n) _ with
      | throw y => exact absurd hr (key _ y)
      | ub => simp
      | ok es => simp only [Res.bind_ok]; split <;> simp

theorem Dead.load (H : Dead h.cells b) : ∀ n, loadN h n b = .ub := by
  induction H with
  | here h =>
    rintro (_ | n)
    · rfl
    · rw [loadN, h]
  | @kid b l ks k h1 h2 _ ih =>
    rintro (_ | n)
    · rfl
    rw [loadN, h1]
    have key : ∀ ks : List Nat, k ∈ ks → readEach (loadN h n) ks = .ub := by
      intro ks
      induction ks with
      | nil => simp
      | cons j ks ihk =>
        intro hm
        rw [readEach]
        cases hk : loadN h n j with
        | throw y => exact absurd hk (loadN_throw n j y)
        | ub => simp
        | ok e =>
          rcases List.mem_cons.1 hm with rfl | hm
          · rw [ih n] at hk; cases hk
          · simp [ihk hm]
    simp only [key ks h2, Res.bind_ub]

/-- `h2` is `h1` without some nodes. -/
def Less (h1 h2 : Heap K) : Prop := ∀ b, h2.cells b = none ∨ h2.cells b = h1.cells b

theorem Less.trans {h3 : Heap K} (H : Less h1 h2) (H' : Less h2 h3) : Less h1 h3 := fun b => by
  rcases H' b with h | h
  · exact .inl h
  · rcases H b with g | g
    · exact .inl (h.trans g)
    · exact .inr (h.trans g)

/-- Deleting frees nodes or is undefined. -/
def Frees (h : Heap K) {α : Type} : Out (Heap K) α → Prop
  | .ok _ h' => Less h h'
  | .throw _ _ => False
  | .ub => True

theorem deleteN_frees (n : Nat) : ∀ (a : Nat) (h : Heap K), Frees h (deleteN n a h) := by
  induction n with
  | zero => intro a h; trivial
  | succ n ih =>
    have key : ∀ (ks : List Nat) (h : Heap K), Frees h (each (deleteN n) ks h) := by
      intro ks
      induction ks with
      | nil => intro h b; exact .inr rfl
      | cons k ks ihk =>
        intro h
        have h1 := ih k h
        rw [each]
        revert h1
        cases hd : deleteN n k h with
        | throw x g => exact False.elim
        | ub => intro _; rw [bind_ub hd]; trivial
        | ok u g =>
          intro h1
          rw [bind_ok hd]
          have h2 := ihk g
          revert h2
          cases hr : each (deleteN n) ks g with
          | throw x g => exact False.elim
          | ub => intro _; rw [bind_ub hr]; trivial
          | ok us g' => intro h2; rw [bind_ok hr]; exact Less.trans h1 h2
    intro a h
    rw [deleteN]
    cases hc : h.cells a with
    | none => rw [bind_ub (m := cell a) (look_ub (by simp [hc]))]; trivial
    | some c =>
      rw [bind_ok (m := cell a) (look_ok (a := c) (by simp [hc]))]
      have h1 := key c.kids h
      revert h1
      cases hd : each (deleteN n) c.kids h with
      | throw x g => exact False.elim
      | ub => intro _; rw [bind_ub hd]; trivial
      | ok u g =>
        intro h1
        rw [bind_ok hd, release]
        cases g.cells a with
        | none => trivial
        | some c' =>
          refine Less.trans h1 fun b => ?_
          by_cases hb : b = a <;> simp [hb]

theorem Dead.delete (n : Nat) : ∀ {b : Nat} {h : Heap K}, Dead h.cells b → deleteN n b h = .ub := by
  induction n with
  | zero => intro b h _; rfl
  | succ n ih =>
    intro b h H
    rw [deleteN]
    cases H with
    | here hn => rw [bind_ub (m := cell b) (look_ub (by simp [hn]))]
    | @kid _ l ks k h1 h2 h3 =>
      rw [bind_ok (m := cell b) (look_ok (a := ⟨l, ks⟩) (by simp [h1]))]
      have key : ∀ (ks : List Nat) (h : Heap K), k ∈ ks → Dead h.cells k → each (deleteN n) ks h = .ub := by
        intro ks
        induction ks with
        | nil => simp
        | cons j ks ihk =>
          intro h hm hd
          rw [each]
          have g1 := deleteN_frees n j h
          revert g1
          cases hj : deleteN n j h with
          | throw x g => exact False.elim
          | ub => intro _; rw [bind_ub hj]
          | ok u g =>
            intro g1
            rcases List.mem_cons.1 hm with rfl | hm
            · rw [ih hd] at hj; cases hj
            · rw [bind_ok hj, bind_ub (ihk g hm (hd.mono g1))]
      rw [bind_ub (key ks h h2 h3)]

/-! ### The result shares nodes with the argument -/

/-- How a manipulation ended that returns nodes it was given. -/
inductive Shared (h : Heap K) (F : List Nat) : Out (Heap K) Nat → Prop
  | ok {b : Nat} {h' : Heap K} {A : List Nat} : Adds h h' A → Shares h'.cells F b → Shared h F (.ok b h')
  | throw {h' : Heap K} {A : List Nat} : Adds h h' A → h.Scarce h' → Shared h F (.throw .badAlloc h')

theorem Shared.new {l : Label K} {ks : List Nat} {k : Nat} (E : Adds h h1 A) (hk : k ∈ ks) (H : Shares h1.cells F k) :
    Shared h F (new l ks h1) := by
  rcases new_eq (h := h1) l ks with hn | ⟨hn, hs⟩
  · rw [hn]
    have E' := Heap.put_adds E.wf' l ks
    exact .ok (E.trans E') (.kid (l := l) (ks := ks) (by simp [Heap.put]) hk (H.mono fun b hb => E'.keep hb))
  · rw [hn]
    exact .throw (E.trans (Heap.skip_adds E.wf')) (E.scarce hs)

/-- A call in the middle of another one. -/
theorem Shared.bind {m : Act K Nat} {k : Nat → Act K Nat} (E : Adds h h1 A) (hm : Shared h1 F (m h1))
    (hk : ∀ b h2 B, Adds h1 h2 B → Shares h2.cells F b → Shared h F (k b h2)) : Shared h F ((m >>= k) h1) := by
  revert hm
  cases hm1 : m h1 with
  | ok b h2 =>
    rintro (⟨g1, g2⟩)
    rw [bind_ok hm1]
    exact hk _ _ _ g1 g2
  | throw x h2 =>
    rintro (_ | ⟨g1, g2⟩)
    rw [bind_throw hm1]
    exact .throw (E.trans g1) (E.scarce g2)
  | ub => rintro (_ | _)

theorem Shared.clone {k : Nat → Act K Nat} {G : List Nat} (E : Adds h h1 A) (H : Own h.cells a e G)
    (hk : ∀ b h2 B, Adds h1 h2 B → Shared h F (k b h2)) : Shared h F ((VM.clone a >>= k) h1) := by
  have hm := clone_makes (U := False) (Lk := False) (H.adds E) _ _ (.refl E.wf')
  revert hm
  cases hm1 : VM.clone a h1 with
  | ok b h2 =>
    rintro (⟨-, -, g1, -⟩)
    rw [bind_ok hm1]
    exact hk _ _ _ g1
  | throw x h2 =>
    rintro (_ | ⟨g1, g2⟩)
    rw [bind_throw hm1]
    obtain ⟨rfl, g3⟩ := g1.resolve_left fun g => absurd rfl (g _)
    exact .throw (E.trans g2) (E.scarce g3)
  | ub => rintro (_ | _ | ⟨_, h⟩); cases h

theorem manipFN_shares {modifies : Expr K → Bool} (e : Expr K) :
    ∀ {n a G} {h h1 : Heap K} {A : List Nat}, a < n → Own h.cells a e G → (∀ b ∈ G, b ∈ F) → Adds h h1 A →
    Shared h1 F (manipFN o modifies pure n a h1) := by
  induction e using Expr.ind' with
  | h e ih =>
    intro n a G h h1 A hn H hG E
    obtain ⟨n, rfl⟩ : ∃ m, n = m + 1 := ⟨n - 1, by omega⟩
    have root : Shared h1 F (.ok a h1) := .ok (.refl E.wf') (.here (hG a H.root_mem))
    have H0 := H.adds E
    rw [manipFN]
    cases H with
    | @node _ _ ks G0 g1 g2 g3 =>
    have hw : Act.cell a h1 = .ok ⟨e.label, ks⟩ h1 := look_ok (by rw [E.keep (by rw [g1]; simp), g1])
    rw [bind_ok hw]
    have hk : ∀ k ∈ ks, k < n := fun k hk => by
      obtain ⟨x, -, Gx, i1, i2⟩ := g2.of_mem k hk
      have := g3 k (i2 k i1.root_mem); omega
    have hsub : ∀ b ∈ G0, b ∈ F := fun b hb => hG b (by simp [hb])
    have branch : ∀ {m : Act K Nat}, Shared h1 F (m h1) →
        Shared h1 F ((ask (fun e => .ok (modifies e)) a >>= fun b => if b then (pure a : Act K Nat) else m) h1) := by
      intro m hm
      rw [bind_ok (a := modifies e) (s' := h1) (by rw [ask_eq H0 (.refl E.wf')]; rfl)]
      cases modifies e
      · exact hm
      · exact root
    cases e with
    | const c => cases g2; exact root
    | var c => cases g2; exact root
    | fsym c t => cases g2; exact root
    | vec es => exact root
    | un op y =>
      cases g2 with
      | @cons k _ F1 ks _ F2 a1 a2 =>
      cases a2
      refine branch ?_
      refine Shared.bind (.refl E.wf') (ih y (by simp [Expr.operands]) (hk k (by simp)) a1
        (fun b hb => hsub b (by simp [hb])) E) fun b h2 B i1 i2 => ?_
      exact .new i1 (by simp) i2
    | bin op y z =>
      cases g2 with
      | @cons k1 _ F1 ks1 _ G1 a1 b1 =>
      cases b1 with
      | @cons k2 _ F2 ks2 _ G2 a2 b2 =>
      cases b2
      refine branch ?_
      have r1 := fun {h2 B} (E' : Adds h h2 B) => ih y (by simp [Expr.operands]) (hk k1 (by simp)) a1
        (fun b hb => hsub b (by simp [hb])) E'
      have r2 := fun {h2 B} (E' : Adds h h2 B) => ih z (by simp [Expr.operands]) (hk k2 (by simp)) a2
        (fun b hb => hsub b (by simp [hb])) E'
      rw [newBin]
      split
      · refine Shared.bind (.refl E.wf') (r1 E) fun b h2 B i1 i2 => ?_
        refine Shared.bind i1 (r2 (E.trans i1)) fun b' h3 B' j1 j2 => ?_
        exact .new (i1.trans j1) (k := b) (by simp) (i2.mono fun b hb => j1.keep hb)
      · refine Shared.bind (.refl E.wf') (r2 E) fun b h2 B i1 i2 => ?_
        refine Shared.bind i1 (r1 (E.trans i1)) fun b' h3 B' j1 j2 => ?_
        exact .new (i1.trans j1) (k := b') (by simp) j2
    | integ _ _ i y =>
      cases g2 with
      | @cons k1 _ F1 ks1 _ G1 a1 b1 =>
      cases b1 with
      | @cons k2 _ F2 ks2 _ G2 a2 b2 =>
      cases b2 with
      | @cons k3 _ F3 ks3 _ G3 a3 b3 =>
      cases b3
      refine branch ?_
      have r := fun {h2 B} (E' : Adds h h2 B) => ih y (by simp [Expr.operands]) (hk k3 (by simp)) a3
        (fun b hb => hsub b (by simp [hb])) E'
      rw [newInteg]
      split
      · refine Shared.bind (.refl E.wf') (r E) fun b h2 B i1 i2 => ?_
        refine Shared.clone i1 (a1.adds E) fun l h3 B' j1 => ?_
        refine Shared.clone (i1.trans j1) (a2.adds E) fun u h4 B'' k1 => ?_
        exact .new ((i1.trans j1).trans k1) (k := b) (by simp)
          ((i2.mono fun b hb => j1.keep hb).mono fun b hb => k1.keep hb)
      · refine Shared.clone (.refl E.wf') (a1.adds E) fun l h3 B' j1 => ?_
        refine Shared.clone j1 (a2.adds E) fun u h4 B'' k1 => ?_
        refine Shared.bind (j1.trans k1) (r ((E.trans j1).trans k1)) fun b h2 B i1 i2 => ?_
        exact .new ((j1.trans k1).trans i1) (k := b) (by simp) i2

end VM
