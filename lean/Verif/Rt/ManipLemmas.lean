import Verif.Spec.Manip
import Verif.Rt.BodyLemmas
/-
Manipulation in memory, compared with manipulation of expressions.
-/
namespace VM
open Spec Run Act Prog
variable {K : Type} [Num K] {o : Nat → Bool} {F : Manip K} {act : Nat → Act K Nat} {h : Heap K} {a : Nat} {e : Expr K}
  {G : List Nat}

omit [Num K] in
theorem Spec.GivesAway.makes (hF : GivesAway F act) (H : Own h.cells a e G) :
    Makes False False h (F.apply e) (act a) :=
  fun _ _ E => hF _ _ _ _ E.wf' (H.adds E)

theorem manipFN_makes (hF : GivesAway F act) (e : Expr K) :
    ∀ {n a G} {h : Heap K}, a < n → Own h.cells a e G →
    Makes False False h (manipulate F e) (manipFN o F.modifies act n a) := by
  induction e using Expr.ind' with
  | h e ih =>
    intro n a G h hn H
    obtain ⟨n, rfl⟩ : ∃ m, n = m + 1 := ⟨n - 1, by omega⟩
    refine .cell H fun ks G H1 hF' hlt => ?_
    have hk : ∀ k ∈ ks, k < n := fun k hk => by
      obtain ⟨x, -, Gx, g1, g2⟩ := H1.of_mem k hk
      have := hlt k (g2 k g1.root_mem); omega
    have branch : ∀ {r : Res (Expr K)} {m : Act K Nat}, Makes False False h r m →
        Makes False False h (if F.modifies e then F.apply e else r)
          (ask (fun e => .ok (F.modifies e)) a >>= fun b => if b then act a else m) := by
      intro r m hm
      refine (Makes.ask (t := fun b => if b then F.apply e else r) H (by simp) ?_).conv rfl
      intro v hv
      cases hv
      cases F.modifies e
      · exact hm
      · exact hF.makes H
    cases e with
    | const c => cases H1; exact hF.makes H
    | var c => cases H1; exact hF.makes H
    | fsym c t => cases H1; exact hF.makes H
    | vec es => exact hF.makes H
    | integ _ _ i y =>
      cases H1 with
      | @cons k1 _ F1 ks1 _ G1 a1 b1 =>
      cases b1 with
      | @cons k2 _ F2 ks2 _ G2 a2 b2 =>
      cases b2 with
      | @cons k3 _ F3 ks3 _ G3 a3 b3 =>
      cases b3
      exact branch (newInteg_makes a1 a2 (ih y (by simp [Expr.operands]) (hk k3 (by simp)) a3))
    | bin op y z =>
      cases H1 with
      | @cons k1 _ F1 ks1 _ G1 a1 b1 =>
      cases b1 with
      | @cons k2 _ F2 ks2 _ G2 a2 b2 =>
      cases b2
      exact branch (newBin_makes (ih y (by simp [Expr.operands]) (hk k1 (by simp)) a1)
        (ih z (by simp [Expr.operands]) (hk k2 (by simp)) a2))
    | un op y =>
      cases H1 with
      | @cons k _ F1 ks _ F2 a1 a2 =>
      cases a2
      exact branch (newUn_makes (op := op) (ih y (by simp [Expr.operands]) (hk k (by simp)) a1))

theorem manipFA_makes (hF : GivesAway F act) (H : Own h.cells a e G) :
    Makes False False h (manipulate F e) (manipFA o F.modifies act a) :=
  manipFN_makes hF e (Nat.lt_succ_self a) H

/-- Cooking. -/
theorem build_makes (H : Own h.cells a e G) (r : Recipe K) : ∀ {x}, dish e r = some x →
    Makes False False h (.ok x) (r.build o a) := by
  induction r with
  | part ks =>
    intro x hx h1 A E
    obtain ⟨b, F', h2, h3, -⟩ := (follow_own ks (H.adds E)).2 x hx
    rw [Recipe.build, bind_ok (look_ok (f := fun h : Heap K => follow h a ks) h2)]
    exact clone_makes h3 _ _ (.refl E.wf')
  | const c =>
    intro x hx h1 A E
    cases hx
    exact new_ends (e := .const c) (A := []) (L := []) (.refl E.wf') .nil (.inr rfl)
  | var i =>
    intro x hx h1 A E
    cases hx
    exact new_ends (e := .var i) (A := []) (L := []) (.refl E.wf') .nil (.inr rfl)
  | fsym i t =>
    intro x hx h1 A E
    cases hx
    exact new_ends (e := .fsym i t) (A := []) (L := []) (.refl E.wf') .nil (.inr rfl)
  | un op r ih =>
    intro x hx
    simp only [dish, Option.map_eq_some_iff] at hx
    obtain ⟨y, hy, rfl⟩ := hx
    exact newUn_makes (ih hy)
  | bin op r r' ih ih' =>
    intro x hx
    simp only [dish, Option.bind_eq_some_iff, Option.map_eq_some_iff] at hx
    obtain ⟨y, hy, z, hz, rfl⟩ := hx
    exact newBin_makes (ih hy) (ih' hz)

theorem cook_givesAway {modifies : Expr K → Bool} {plan : Expr K → Except Exc (Recipe K)} (hp : Sound plan) :
    GivesAway (planned modifies plan) (cook o plan) := by
  intro h a e G hw H
  rw [cook, bind_ok (a := plan e) (s' := h) (by rw [ask_eq H (.refl hw)]; rfl)]
  simp only [planned]
  cases hpe : plan e with
  | error x => exact .throw (.inl (by simp)) (.refl hw)
  | ok r =>
    simp only
    cases hd : dish e r with
    | none => exact absurd hd (hp e r hpe)
    | some x => exact build_makes H r hd _ _ (.refl hw)

omit [Num K] in
theorem clean_own {h' : Heap K} {b : Nat} {z : Expr K} (g2 : Own h'.cells b z G) (g3 : Adds h h' G) : Clean h h' b z := by
  refine ⟨fun b hb => g3.keep hb, load_own g2, fun ks c hc => ?_, fun c hc => ?_⟩
  · have hc' : c ∈ G := follow_mem ks g2 hc
    have := g3.fresh c hc'
    cases hc : h.cells c with
    | none => rfl
    | some d => exact absurd (g3.wf.lt (b := c) (by simp [hc])) (by omega)
  · by_cases hn : h.next ≤ c
    · exact .inr (reach z g2 ((g3.mem c hn).1 hc))
    · rw [g3.old c (by omega)] at hc
      exact .inl hc

omit [Num K] in
/-- A node that a reference refers to. -/
theorem own_target {f : Nat → Bool} {s : State K} {σ : Store K} (H : Rep f s σ G) {src : Src}
    (he : Spec.look σ src = some e) (ha : s.target src = .ok (.node a)) : ∃ F0, Own s.heap.cells a e F0 := by
  obtain ⟨⟨fp, H⟩, hk⟩ := H
  rcases target_some H hk he with ⟨a', p, F, ht, hb, -⟩ | ⟨op, x, y, ht, -⟩ | ⟨op, x, ht, -⟩
  · rw [ha] at ht; cases ht; exact ⟨F, hb⟩
  · rw [ha] at ht; cases ht
  · rw [ha] at ht; cases ht

/-- `t` is constructed from what the manipulation returns. -/
theorem manipInit_sim {f : Nat → Bool} (hF : GivesAway F act) {s : State K} {σ : Store K}
    (H : Rep f s σ G) {i : Nat} {src : Src} (hi : σ i = none)
    (he : Spec.look σ src = some e) (ha : s.target src = .ok (.node a)) :
    (∃ z s', manipulate F e = .ok z ∧ manipInit o F.modifies act i src s = .ok () s' ∧
      Rep f s' (σ.set i (some (.expr (some z)))) G) ∨
    ∃ x s' L, manipInit o F.modifies act i src s = .throw x s' ∧ Rep f s' σ (L ++ G) ∧
      (∀ b, s.heap.cells b ≠ none → s'.heap.cells b = s.heap.cells b) ∧
      ((∀ z, manipulate F e ≠ .ok z) ∨ x = .badAlloc ∧ ∃ b, f b = true) := by
  obtain ⟨F0, hO⟩ := own_target H he ha
  obtain ⟨⟨fp, H⟩, hk⟩ := H
  have hi' : s.objs i = none := by rw [hk i, hi]; rfl
  have hm := manipFA_makes (o := o) hF hO _ _ (.refl H.wf)
  have start : ∀ r, heap (manipFA o F.modifies act a) s = r →
      manipInit o F.modifies act i src s = (match r with
        | .ok b s' => (do setObj i (some .expr); reset (.one i) (some b) : Prog K Unit) s'
        | .throw x s' => .throw x s'
        | .ub => .ub) := by
    intro r hr
    rw [manipInit, look_bind (f := fun s : State K => s.objs i), hi']
    simp only
    rw [bind_ok (look_ok (f := fun s : State K => s.target src) ha)]
    simp only
    cases r with
    | ok b s' => exact bind_ok hr
    | throw x s' => exact bind_throw hr
    | ub => exact bind_ub hr
  revert hm
  cases hr : manipFA o F.modifies act a s.heap with
  | ub => rintro (_ | _ | ⟨_, h⟩); cases h
  | throw x h' =>
    rintro (_ | @⟨_, _, L, g1, g2⟩)
    exact .inr ⟨x, ⟨h', s.ptr, s.objs⟩, L, start _ (heap_throw hr), ⟨⟨fp, H.leak g2⟩, hk⟩, fun b hb => g2.keep hb,
      g1.imp id fun g => ⟨g.1, by obtain ⟨b, -, -, h⟩ := H.scarce g.2; exact ⟨b, h⟩⟩⟩
  | ok b h' =>
    rintro (@⟨z, _, _, F1, L, g1, g2, g3, g4⟩)
    have hL : L = [] := g4.resolve_left id
    subst hL
    refine .inl ⟨z, ⟨h'.free (fp (.one i)), at' s.ptr (.one i) (some b),
      fun j => if j = i then some .expr else s.objs j⟩, g1, (start _ (heap_ok hr)).trans ?_, ?_⟩
    · simp only
      rw [bind_ok (setObj_eq _ _ _), H.reset g3 (.one i) (some b)]
    · refine ⟨⟨at' fp (.one i) F1, ?_⟩, hk.set i (some (.expr (some z)))⟩
      rw [own_expr (own_free hi).2]
      exact H.put g3 g2 (.one i)

end VM
