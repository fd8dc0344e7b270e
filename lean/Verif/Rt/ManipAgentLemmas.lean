import Verif.Spec.ManipAgent
import Verif.Rt.ManipLemmas
import Verif.Spec.Traverse
/-
Manipulation with a functor with a state: memory compared with expressions.
-/
namespace VM
open Spec Run Act Prog
variable {K σ α : Type} {o : Nat → Bool} {I : σ → Heap K → Prop} {Lk : Prop} {A : Replies K σ} {F : Agent K σ}
  {h h1 h2 : Heap K} {t : σ} {a : Nat} {e : Expr K} {G L : List Nat} {out : Res (Expr K) × σ}

theorem aside_ok {S : Type} {m : Run S α} {s s' : S} {v : α} (hm : m s = .ok v s') :
    aside m (s, t) = .ok v (s', t) := by simp [aside, hm]
theorem aside_throw {S : Type} {m : Run S α} {s s' : S} {x : Exc} (hm : m s = .throw x s') :
    aside (α := α) m (s, t) = .throw x (s', t) := by simp [aside, hm]

theorem Spec.Obeys.bind {m : Run (Heap K × σ) Nat} {k : Nat → Run (Heap K × σ) Nat}
    {g : Expr K → σ → Res (Expr K) × σ} (E : Adds h h1 L) (hm : Obeys I Lk h1 out (m (h1, t)))
    (hk : ∀ e b h2 F M, out.1 = .ok e → Own h2.cells b e F → Adds h1 h2 (F ++ M) → (Lk ∨ M = []) → I out.2 h2 →
      Obeys I Lk h (g e out.2) (k b (h2, out.2))) : Obeys I Lk h (andThen out g) ((m >>= k) (h1, t)) := by
  obtain ⟨r, t'⟩ := out
  revert hm
  generalize hr : m (h1, t) = res
  rintro (@⟨e, b, h2, F, M, g1, g2, g3, g4, g5⟩ | @⟨x, h2, M, g1, g2, g3⟩ | @⟨h2, t2, M, g1, g2, g3⟩)
  · rw [Run.bind_ok hr]
    have := hk e b h2 F M g1 g2 g3 g4 g5
    simp only at g1
    subst g1
    exact this
  · rw [Run.bind_throw hr]
    simp only at g1
    subst g1
    exact .throw (out := (.throw x, t')) rfl (E.trans g2) g3
  · rw [Run.bind_throw hr]
    exact .memory (E.trans g1) (E.scarce g2) g3

theorem Spec.Obeys.clone {k : Nat → Run (Heap K × σ) Nat} (hF : Honest I Lk A F) (E : Adds h h1 L)
    (H : Own h1.cells a e G) (hI : I t h1)
    (hk : ∀ b h2 F', Own h2.cells b e F' → Adds h1 h2 F' → I t h2 → Obeys I Lk h out (k b (h2, t))) :
    Obeys I Lk h out ((aside (VM.clone a) >>= k) (h1, t)) := by
  have hm := clone_makes (U := False) (Lk := False) H _ _ (.refl E.wf')
  revert hm
  cases hr : VM.clone a h1 with
  | ok b h2 =>
    rintro (@⟨_, _, _, F', M, g1, g2, g3, g4⟩)
    cases g1
    rw [g4.resolve_left id, List.append_nil] at g3
    rw [Run.bind_ok (aside_ok hr)]
    exact hk _ _ _ g2 g3 (hF.keeps _ _ _ _ hI g3)
  | throw x h2 =>
    rintro (_ | ⟨g1, g2⟩)
    obtain ⟨rfl, g3⟩ := g1.resolve_left fun g => absurd rfl (g _)
    rw [Run.bind_throw (aside_throw hr)]
    exact .memory (E.trans g2) (E.scarce g3) (hF.keeps _ _ _ _ hI g2)
  | ub => rintro (_ | _ | ⟨_, h⟩); cases h

theorem Spec.Obeys.new {ks B : List Nat} (hF : Honest I Lk A F) (E : Adds h h1 (B ++ L))
    (H : OwnL h1.cells ks e.operands B) (hL : Lk ∨ L = []) (hI : I t h1) :
    Obeys I Lk h (.ok e, t) (aside (Act.new e.label ks) (h1, t)) := by
  rcases new_eq (h := h1) e.label ks with hn | ⟨hn, hs⟩
  · rw [aside_ok hn]
    have E' := Heap.put_adds E.wf' e.label ks
    exact .ok (out := (.ok e, t)) rfl (Heap.put_own E.wf' H)
      ((E.trans E').perm (by simpa using List.perm_append_comm (l₁ := B ++ L) (l₂ := [h1.next])))
      hL (hF.keeps _ _ _ _ hI E')
  · rw [aside_throw hn]
    have E' := Heap.skip_adds E.wf'
    exact .memory (E.trans E') (E.scarce hs) (hF.keeps _ _ _ _ hI E')

/-- The operand that a step leads to. -/
def stepTo (c : Nat → Option (Cell K)) (a : Nat) (d : Dir) : Nat :=
  match c a with
  | none => a
  | some n => match d with
    | .left => n.kids.headD 0
    | .right => n.kids.getLastD 0
    | .arg => n.kids.getLastD 0

/-- The address of the node at a position. -/
def addr (c : Nat → Option (Cell K)) (a : Nat) (p : List Dir) : Nat := p.foldl (stepTo c) a

theorem addr_snoc (c : Nat → Option (Cell K)) (a : Nat) (p : List Dir) (d : Dir) :
    addr c a (p ++ [d]) = stepTo c (addr c a p) d := by simp [addr]

theorem addr_own {n : Expr K} {p : List Dir} (hp : At e p n) : ∀ {a G}, Own h.cells a e G →
    ∃ G', Own h.cells (addr h.cells a p) n G' := by
  induction hp with
  | here => intro a G H; exact ⟨G, H⟩
  | un _ ih =>
    intro a G H
    cases H with | node g1 g2 g3 =>
    cases g2 with | cons a1 a2 =>
    cases a2
    simpa [addr, stepTo, g1] using ih a1
  | integ _ ih =>
    intro a G H
    cases H with | node g1 g2 g3 =>
    cases g2 with | cons a1 a2 =>
    cases a2 with | cons a2 a3 =>
    cases a3 with | cons a3 a4 =>
    cases a4
    simpa [addr, stepTo, g1] using ih a3
  | left _ ih =>
    intro a G H
    cases H with | node g1 g2 g3 =>
    cases g2 with | cons a1 a2 =>
    simpa [addr, stepTo, g1] using ih a1
  | right _ ih =>
    intro a G H
    cases H with | node g1 g2 g3 =>
    cases g2 with | cons a1 a2 =>
    cases a2 with | cons a2 a3 =>
    cases a3
    simpa [addr, stepTo, g1] using ih a2

theorem manipSN_obeys (hF : Honest I Lk A F) {root : Nat} (e : Expr K) :
    ∀ {n a G h1 L p t}, a < n → Own h.cells a e G → Adds h h1 L → addr h.cells root p = a → I t h1 →
    Obeys I Lk h1 (edit (A.on (addr h.cells root)) (fun p => o (addr h.cells root p)) p e t)
      (manipSN o F n a (h1, t)) := by
  induction e using Expr.ind' with
  | h e ih =>
    intro n a G h1 L p t hn H E hp hI
    obtain ⟨n, rfl⟩ : ∃ m, n = m + 1 := ⟨n - 1, by omega⟩
    have H0 := H.adds E
    have leaf := hF.apply _ _ _ _ _ E.wf' H0 hI
    rw [manipSN]
    cases H with
    | @node _ _ ks G0 g1 g2 g3 =>
    have hw : aside (Act.cell a) (h1, t) = .ok ⟨e.label, ks⟩ (h1, t) :=
      aside_ok (look_ok (by rw [E.keep (by rw [g1]; simp), g1]))
    rw [Run.bind_ok hw]
    have hk : ∀ k ∈ ks, k < n := fun k hk => by
      obtain ⟨x, -, Gx, i1, i2⟩ := g2.of_mem k hk
      have := g3 k (i2 k i1.root_mem); omega
    have branch : ∀ {m : Run (Heap K × σ) Nat} {g : σ → Res (Expr K) × σ},
        (∀ t, I t h1 → Obeys I Lk h1 (g t) (m (h1, t))) →
        Obeys I Lk h1 (andThen ((A.on (addr h.cells root)).modifies p e t) fun b t =>
            if b then (A.on (addr h.cells root)).apply p e t else g t)
          ((F.modifies a >>= fun b => if b then F.apply a else m) (h1, t)) := by
      intro m g hm
      simp only [Replies.on, hp]
      obtain ⟨h3, h4⟩ := hF.modifies _ _ _ _ _ E.wf' H0 hI
      revert h3 h4
      generalize A.modifies a e t = ans
      obtain ⟨r, t'⟩ := ans
      rintro (⟨b, rfl, h3⟩ | ⟨x, rfl, h3⟩) h4
      · rw [Run.bind_ok h3]
        cases b
        · exact hm _ h4
        · exact hF.apply _ _ _ _ _ E.wf' H0 h4
      · rw [Run.bind_throw h3]
        exact .throw (out := (.throw x, t')) rfl (.refl E.wf') h4
    have step : ∀ d, addr h.cells root (p ++ [d]) = stepTo h.cells a d := fun d => by rw [addr_snoc, hp]
    cases e with
    | const c => cases g2; subst hp; exact leaf
    | var c => cases g2; subst hp; exact leaf
    | fsym c t => cases g2; subst hp; exact leaf
    | vec es => subst hp; exact leaf
    | un op y =>
      cases g2 with
      | @cons k _ F1 ks _ F2 a1 a2 =>
      cases a2
      rw [edit]
      refine branch fun t hI => ?_
      refine Obeys.bind (.refl E.wf') (ih y (by simp [Expr.operands]) (hk k (by simp)) a1 E
        (by simp [step, stepTo, g1]) hI) ?_
      intro e b h2 F M i1 i2 i3 i4 i5
      have := OwnL.cons i2 .nil
      rw [List.append_nil] at this
      exact Obeys.new (e := .un op e) hF i3 this i4 i5
    | bin op y z =>
      cases g2 with
      | @cons k1 _ F1 ks1 _ G1 a1 b1 =>
      cases b1 with
      | @cons k2 _ F2 ks2 _ G2 a2 b2 =>
      cases b2
      rw [edit]
      refine branch fun t hI => ?_
      have r1 := fun {h2 B t} (E' : Adds h h2 B) (hI : I t h2) => ih y (by simp [Expr.operands]) (p := p ++ [.left])
        (hk k1 (by simp)) a1 E' (by simp [step, stepTo, g1]) hI
      have r2 := fun {h2 B t} (E' : Adds h h2 B) (hI : I t h2) => ih z (by simp [Expr.operands]) (p := p ++ [.right])
        (hk k2 (by simp)) a2 E' (by simp [step, stepTo, g1]) hI
      simp only [hp]
      split
      · refine Obeys.bind (.refl E.wf') (r1 E hI) ?_
        intro e1 b1 h2 F1 M1 i1 i2 i3 i4 i5
        refine Obeys.bind i3 (r2 (E.trans i3) i5) ?_
        intro e2 b2 h3 F2 M2 j1 j2 j3 j4 j5
        have := OwnL.cons (i2.adds j3) (OwnL.cons j2 .nil)
        rw [List.append_nil] at this
        exact Obeys.new (e := .bin op e1 e2) (L := M1 ++ M2) hF ((i3.trans j3).perm (by perm_parts)) this
          (or_nil i4 j4) j5
      · refine Obeys.bind (.refl E.wf') (r2 E hI) ?_
        intro e2 b2 h3 F2 M2 j1 j2 j3 j4 j5
        refine Obeys.bind j3 (r1 (E.trans j3) j5) ?_
        intro e1 b1 h2 F1 M1 i1 i2 i3 i4 i5
        have := OwnL.cons i2 (OwnL.cons (j2.adds i3) .nil)
        rw [List.append_nil] at this
        exact Obeys.new (e := .bin op e1 e2) (L := M1 ++ M2) hF ((j3.trans i3).perm (by perm_parts)) this
          (or_nil i4 j4) i5
    | integ lo hi x y =>
      cases g2 with
      | @cons k1 _ F1 ks1 _ G1 a1 b1 =>
      cases b1 with
      | @cons k2 _ F2 ks2 _ G2 a2 b2 =>
      cases b2 with
      | @cons k3 _ F3 ks3 _ G3 a3 b3 =>
      cases b3
      rw [edit]
      refine branch fun t hI => ?_
      have r := fun {h2 B t} (E' : Adds h h2 B) (hI : I t h2) => ih y (by simp [Expr.operands]) (p := p ++ [.arg])
        (hk k3 (by simp)) a3 E' (by simp [step, stepTo, g1]) hI
      split
      · refine Obeys.bind (.refl E.wf') (r E hI) ?_
        intro e1 b1 h2 F1 M1 i1 i2 i3 i4 i5
        refine Obeys.clone hF i3 ((a1.adds E).adds i3) i5 fun l h3 F3 j1 j2 j3 => ?_
        refine Obeys.clone hF (i3.trans j2) (((a2.adds E).adds i3).adds j2) j3 fun u h4 F4 k1 k2 k3 => ?_
        have := OwnL.cons (j1.adds k2) (OwnL.cons k1 (OwnL.cons ((i2.adds j2).adds k2) .nil))
        rw [List.append_nil] at this
        exact Obeys.new (e := .integ lo hi x e1) hF (((i3.trans j2).trans k2).perm (by perm_parts)) this i4 k3
      · refine Obeys.clone hF (.refl E.wf') (a1.adds E) hI fun l h3 F3 j1 j2 j3 => ?_
        refine Obeys.clone hF j2 ((a2.adds E).adds j2) j3 fun u h4 F4 k1 k2 k3 => ?_
        refine Obeys.bind (j2.trans k2) (r ((E.trans j2).trans k2) k3) ?_
        intro e1 b1 h2 F1 M1 i1 i2 i3 i4 i5
        have := OwnL.cons ((j1.adds k2).adds i3) (OwnL.cons (k1.adds i3) (OwnL.cons i2 .nil))
        rw [List.append_nil] at this
        exact Obeys.new (e := .integ lo hi x e1) hF (((j2.trans k2).trans i3).perm (by perm_parts)) this i4 i5

theorem manipSA_obeys (hF : Honest I Lk A F) (hw : h.WF) (H : Own h.cells a e G) (hI : I t h) :
    Obeys I Lk h (recursiveManipulation (A.on (addr h.cells a)) (fun p => o (addr h.cells a p)) e t)
      (manipSA o F a (h, t)) :=
  manipSN_obeys hF e (Nat.lt_succ_self a) H (.refl hw) rfl hI

/-- `t` is constructed from what the manipulation returns. -/
theorem manipInitS_sim {f : Nat → Bool} (hF : Honest I Lk A F) {s : State K} {τ : Store K} (H : Rep f s τ G) {i : Nat}
    {src : Src} (hi : τ i = none) (he : Spec.look τ src = some e) (ha : s.target src = .ok (.node a))
    (hI : I t s.heap)
    (hout : out = recursiveManipulation (A.on (addr s.heap.cells a)) (fun p => o (addr s.heap.cells a p)) e t) :
    (∃ z s' L, out = (.ok z, out.2) ∧ manipInitS o F i src (s, t) = .ok () (s', out.2) ∧
      Rep f s' (τ.set i (some (.expr (some z)))) (L ++ G) ∧ I out.2 s'.heap ∧ (Lk ∨ L = []) ∧
      ∃ b, s'.target ⟨i, []⟩ = .ok (.node b) ∧ (L = [] → Clean s.heap s'.heap b z)) ∨
    (∃ x s' L, out = (.throw x, out.2) ∧ manipInitS o F i src (s, t) = .throw x (s', out.2) ∧ Rep f s' τ (L ++ G) ∧
      I out.2 s'.heap) ∨
    ∃ s' t' L, manipInitS o F i src (s, t) = .throw .badAlloc (s', t') ∧ Rep f s' τ (L ++ G) ∧ I t' s'.heap ∧
      ∃ b, f b = true := by
  obtain ⟨F0, hO⟩ := own_target H he ha
  obtain ⟨⟨fp, H⟩, hk⟩ := H
  have hi' : s.objs i = none := by rw [hk i, hi]; rfl
  have hm := manipSA_obeys (o := o) hF H.wf hO hI
  rw [← hout] at hm
  have start : ∀ r, heapS (manipSA o F a) (s, t) = r →
      manipInitS o F i src (s, t) = (match r with
        | .ok b s' => (do aside (setObj i (some .expr) : Prog K Unit); aside (reset (.one i) (some b) : Prog K Unit) :
            Run (State K × σ) Unit) s'
        | .throw x s' => .throw x s'
        | .ub => .ub) := by
    intro r hr
    rw [manipInitS, Run.bind_ok (aside_ok (v := none) (look_ok (by rw [hi'])))]
    simp only
    rw [Run.bind_ok (aside_ok (look_ok (f := fun s : State K => s.target src) ha))]
    simp only
    cases r with
    | ok b s' => exact Run.bind_ok hr
    | throw x s' => exact Run.bind_throw hr
    | ub => exact Run.bind_ub hr
  revert hm
  generalize hr : manipSA o F a (s.heap, t) = res
  rintro (@⟨z, b, h', F1, L, g1, g2, g3, g4, g5⟩ | @⟨x, h', L, g1, g2, g3⟩ | @⟨h', t', L, g1, g2, g3⟩)
  · refine .inl ⟨z, ⟨h'.free (fp (.one i)), at' s.ptr (.one i) (some b),
      fun j => if j = i then some .expr else s.objs j⟩, L, by rw [← g1],
      (start (.ok b (⟨h', s.ptr, s.objs⟩, out.2)) (by simp [heapS, hr])).trans ?_, ?_, ?_, g4, b, ?_, ?_⟩
    · simp only
      rw [Run.bind_ok (aside_ok (setObj_eq _ _ _)), aside_ok (H.reset g3 (.one i) (some b))]
    · refine ⟨⟨at' fp (.one i) F1, ?_⟩, hk.set i (some (.expr (some z)))⟩
      rw [own_expr (own_free hi).2]
      exact H.put g3 g2 (.one i)
    · rw [show fp (.one i) = [] from (H.unset _ (own_free hi).1).2, Heap.free_nil]
      exact g5
    · simp [State.target, follow]
    · rintro rfl
      rw [List.append_nil] at g3
      rw [show fp (.one i) = [] from (H.unset _ (own_free hi).1).2, Heap.free_nil]
      exact clean_own g2 g3
  · exact .inr (.inl ⟨x, ⟨h', s.ptr, s.objs⟩, L, by rw [← g1],
      start (.throw x (⟨h', s.ptr, s.objs⟩, out.2)) (by simp [heapS, hr]), ⟨⟨fp, H.leak g2⟩, hk⟩, g3⟩)
  · exact .inr (.inr ⟨⟨h', s.ptr, s.objs⟩, t', L,
      start (.throw .badAlloc (⟨h', s.ptr, s.objs⟩, t')) (by simp [heapS, hr]), ⟨⟨fp, H.leak g1⟩, hk⟩, g3,
      by obtain ⟨b, -, -, h⟩ := H.scarce g2; exact ⟨b, h⟩⟩)

end VM
