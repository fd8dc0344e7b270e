import Verif.Rt.Traverse
import Verif.Rt.TraverseLemmas
import Verif.Rt.EvalLemmas
import Verif.Spec.Traverse
import Verif.Spec.Subst
import Verif.NumRat
/-
Properties C25 (traversal), C26 (manipulation), C29 (substitution of symbolic intervals).
-/
namespace VM.Props
open Spec
variable {K σ : Type}

/-- C25.  For a visitor that decides by the node alone whether to step into it (`step`): there is a list of
positions with their nodes, without repetition, in visiting order, which consists of exactly the positions
that are not below a declined binary node; the traversal calls the visitor on these nodes, in this order,
and does nothing else (an exception of the visitor ends it). -/
theorem C25_traversal (step : Expr K → Bool) (e : Expr K) :
    ∃ vs : List (List Dir × Expr K),
      (∀ q ∈ vs, At e q.1 q.2) ∧ (vs.map (·.1)).Nodup ∧ (vs.map (·.1)).Pairwise Before ∧
      (∀ p, p ∈ vs.map (·.1) ↔ (∃ s, At e p s) ∧
        ∀ q d r op a b, p = q ++ d :: r → At e q (.bin op a b) → step (.bin op a b) = true) ∧
      ∀ (σ : Type) (visit : Expr K → σ → Res σ) (s : σ),
        traverse ⟨visit, fun e _ => step e⟩ e s = callAll visit (vs.map (·.2)) s :=
  ⟨visits step e, visits_at, nodup_of_before visits_sorted, visits_sorted,
    visits_mem, fun _ visit s => visits_traverse step e visit s⟩

/-- C25, a visitor that never declines: every position of the expression is visited exactly once. -/
theorem C25_all_nodes (e : Expr K) :
    ∃ vs : List (List Dir × Expr K),
      (∀ q ∈ vs, At e q.1 q.2) ∧ (∀ p s, At e p s → (vs.map (·.1)).count p = 1) ∧
      (vs.map (·.1)).Pairwise Before ∧
      ∀ (σ : Type) (visit : Expr K → σ → Res σ) (s : σ),
        traverse ⟨visit, fun _ _ => true⟩ e s = callAll visit (vs.map (·.2)) s := by
  obtain ⟨vs, h1, h2, h3, h4, h5⟩ := C25_traversal (fun _ => true) e
  exact ⟨vs, h1, fun p s h => by
    rw [h2.count, if_pos ((h4 p).2 ⟨⟨s, h⟩, fun _ _ _ _ _ _ _ _ => rfl⟩)], h3, h5⟩

/-- C25, visitors with changing opinions: whatever the visitor does and however its decisions to step in
depend on what it has seen, the traversal consists of calls on nodes in visiting order, none twice. -/
theorem C25_any_visitor (V : Visitor K σ) (e : Expr K) (s : σ) :
    ∃ vs : List (List Dir × Expr K), (∀ q ∈ vs, At e q.1 q.2) ∧ (vs.map (·.1)).Nodup ∧
      (vs.map (·.1)).Pairwise Before ∧ traverse V e s = callAll V.visit (vs.map (·.2)) s := by
  have key : ∃ vs : List (List Dir × Expr K), (∀ q ∈ vs, At e q.1 q.2) ∧
      (vs.map (·.1)).Pairwise Before ∧ traverse V e s = callAll V.visit (vs.map (·.2)) s := by
    have single : ∀ (e : Expr K) s, callAll V.visit [e] s = V.visit e s := by
      intro e s; simp only [callAll]; cases V.visit e s <;> rfl
    induction e using Expr.ind generalizing s with
    | const | var | fsym | vec =>
      exact ⟨[([], _)], by simp; exact .here, by simp, by simp [traverse, single]⟩
    | un op e ih =>
      simp only [traverse]
      cases hv : V.visit _ s with
      | throw x => exact ⟨[([], _)], by simp; exact .here, by simp, by simp [hv, single]⟩
      | ub => exact ⟨[([], _)], by simp; exact .here, by simp, by simp [hv, single]⟩
      | ok s' =>
        obtain ⟨vs, h1, h2, h3⟩ := ih s'
        refine ⟨([], .un op e) :: vs.map fun q => (.arg :: q.1, q.2), ?_, ?_, ?_⟩
        rotate_left 2
        · simp only [List.map_cons, map_snd_dir, callAll, hv, Res.bind_ok]; exact h3
        · intro q hq
          simp only [List.mem_cons, List.mem_map] at hq
          rcases hq with rfl | ⟨q, hq, rfl⟩
          · exact .here
          · constructor; exact h1 q hq
        · simp only [List.map_cons, List.pairwise_cons]
          refine ⟨?_, pairwise_dir _ h2⟩
          intro p hp
          simp only [List.mem_map] at hp
          obtain ⟨_, ⟨q, _, rfl⟩, rfl⟩ := hp
          exact .nodeArg
    | integ lo hi x e _ _ ih =>
      simp only [traverse]
      cases hv : V.visit _ s with
      | throw y => exact ⟨[([], _)], by simp; exact .here, by simp, by simp [hv, single]⟩
      | ub => exact ⟨[([], _)], by simp; exact .here, by simp, by simp [hv, single]⟩
      | ok s' =>
        obtain ⟨vs, h1, h2, h3⟩ := ih s'
        refine ⟨([], .integ lo hi x e) :: vs.map fun q => (.arg :: q.1, q.2), ?_, ?_, ?_⟩
        rotate_left 2
        · simp only [List.map_cons, map_snd_dir, callAll, hv, Res.bind_ok]; exact h3
        · intro q hq
          simp only [List.mem_cons, List.mem_map] at hq
          rcases hq with rfl | ⟨q, hq, rfl⟩
          · exact .here
          · constructor; exact h1 q hq
        · simp only [List.map_cons, List.pairwise_cons]
          refine ⟨?_, pairwise_dir _ h2⟩
          intro p hp
          simp only [List.mem_map] at hp
          obtain ⟨_, ⟨q, _, rfl⟩, rfl⟩ := hp
          exact .nodeArg
    | bin op l r ihl ihr =>
      simp only [traverse]
      split
      · obtain ⟨vl, l1, l2, l3⟩ := ihl s
        cases hl : traverse V l s with
        | throw x =>
          refine ⟨vl.map fun q => (.left :: q.1, q.2), ?_, pairwise_dir _ l2, ?_⟩
          · intro q hq
            simp only [List.mem_map] at hq
            obtain ⟨q, hq, rfl⟩ := hq
            exact .left (l1 q hq)
          · rw [map_snd_dir, ← l3, hl]; rfl
        | ub =>
          refine ⟨vl.map fun q => (.left :: q.1, q.2), ?_, pairwise_dir _ l2, ?_⟩
          · intro q hq
            simp only [List.mem_map] at hq
            obtain ⟨q, hq, rfl⟩ := hq
            exact .left (l1 q hq)
          · rw [map_snd_dir, ← l3, hl]; rfl
        | ok s1 =>
          have hr : ∃ vr : List (List Dir × Expr K), (∀ q ∈ vr, At r q.1 q.2) ∧
              (vr.map (·.1)).Pairwise Before ∧ (V.visit (.bin op l r) s1).bind (traverse V r) =
                callAll V.visit (.bin op l r :: vr.map (·.2)) s1 := by
            cases hv : V.visit (.bin op l r) s1 with
            | throw x => exact ⟨[], by simp, by simp, by simp [callAll, hv]⟩
            | ub => exact ⟨[], by simp, by simp, by simp [callAll, hv]⟩
            | ok s2 =>
              obtain ⟨vr, r1, r2, r3⟩ := ihr s2
              exact ⟨vr, r1, r2, by simp [callAll, hv, r3]⟩
          obtain ⟨vr, r1, r2, r3⟩ := hr
          refine ⟨vl.map (fun q => (.left :: q.1, q.2)) ++ ([], .bin op l r) ::
            vr.map fun q => (.right :: q.1, q.2), ?_, ?_, ?_⟩
          · intro q hq
            simp only [List.mem_append, List.mem_cons, List.mem_map] at hq
            rcases hq with ⟨q, hq, rfl⟩ | rfl | ⟨q, hq, rfl⟩
            · exact .left (l1 q hq)
            · exact .here
            · exact .right (r1 q hq)
          · simp only [List.map_append, List.map_cons, List.pairwise_append, List.pairwise_cons]
            refine ⟨pairwise_dir _ l2, ⟨?_, pairwise_dir _ r2⟩, ?_⟩
            · intro p hp
              simp only [List.mem_map] at hp
              obtain ⟨_, ⟨q, _, rfl⟩, rfl⟩ := hp
              exact .nodeRight
            · intro p hp p' hp'
              simp only [List.mem_map, List.mem_cons] at hp hp'
              obtain ⟨_, ⟨q, _, rfl⟩, rfl⟩ := hp
              rcases hp' with rfl | ⟨_, ⟨q', _, rfl⟩, rfl⟩
              · exact .leftNode
              · exact .leftRight
          · simp only [List.map_append, List.map_cons, map_snd_dir, callAll_append, ← l3, hl, Res.bind_ok]
            exact r3
      · exact ⟨[([], _)], by simp; exact .here, by simp, by simp [single]⟩
  obtain ⟨vs, h1, h2, h3⟩ := key
  exact ⟨vs, h1, nodup_of_before h2, h2, h3⟩

/-- Recording visitor on `(x0 + sin x1) * x2`: left operand, node, right operand. -/
example :
    let l : Expr XRat := .bin .plus (.var 0) (.un (.fn .sin) (.var 1))
    let e : Expr XRat := .bin .mult l (.var 2)
    (traverse ⟨fun n s => .ok (s ++ [n]), fun _ _ => true⟩ e [] =
      .ok [.var 0, l, .un (.fn .sin) (.var 1), .var 1, e, .var 2]) ∧
    (traverse ⟨fun n s => .ok (s ++ [n]), fun n _ => match n with | .bin .plus _ _ => false | _ => true⟩ e [] =
      .ok [l, e, .var 2]) := ⟨rfl, rfl⟩

/-- C26.  What `recursive_manipulation` returns: the expression in which every outermost modified node and
every leaf is replaced by what the functor makes of it; replacements are inserted as they are (not visited
again), and nothing else changes. -/
theorem C26_replaced (F : Manip K) (e e' : Expr K) (h : manipulate F e = .ok e') :
    Replaced (fun t r => (IsLeaf t ∨ F.modifies t = true) ∧ F.apply t = .ok r)
      (fun t => ¬ IsLeaf t ∧ F.modifies t = false) e e' := by
  induction e using Expr.ind generalizing e' with
  | const | var | fsym | vec => exact .hit ⟨.inl trivial, h⟩
  | un op e ih =>
    simp only [manipulate] at h
    split at h
    · exact .hit ⟨.inr ‹_›, h⟩
    · obtain ⟨d, hd, rfl⟩ := Res.map_eq_ok.1 h
      exact .un ⟨nofun, Bool.eq_false_iff.2 ‹_›⟩ (ih _ hd)
  | integ lo hi x e _ _ ih =>
    simp only [manipulate] at h
    split at h
    · exact .hit ⟨.inr ‹_›, h⟩
    · obtain ⟨d, hd, rfl⟩ := Res.map_eq_ok.1 h
      exact .integ ⟨nofun, Bool.eq_false_iff.2 ‹_›⟩ (ih _ hd)
  | bin op l r ihl ihr =>
    simp only [manipulate] at h
    split at h
    · exact .hit ⟨.inr ‹_›, h⟩
    · obtain ⟨d, hd, h⟩ := Res.bind_eq_ok.1 h
      obtain ⟨d', hd', rfl⟩ := Res.map_eq_ok.1 h
      exact .bin ⟨nofun, Bool.eq_false_iff.2 ‹_›⟩ (ihl _ hd) (ihr _ hd')

/-- C26.  A functor that modifies nothing (no node, and copies leaves) returns an equal expression. -/
theorem C26_nothing (F : Manip K) (e : Expr K) (hm : ∀ t, F.modifies t = false)
    (hl : ∀ t, IsLeaf t → F.apply t = .ok t) : manipulate F e = .ok e := by
  induction e using Expr.ind with
  | const | var | fsym | vec => exact hl _ trivial
  | un op e ih => simp [manipulate, hm, ih]
  | integ lo hi x e _ _ ih => simp [manipulate, hm, ih]
  | bin op l r ihl ihr => simp [manipulate, hm, ihl, ihr]

/-- C26.  If the functor's replacements of modified nodes and of leaves keep the value at `v`, the result of
`recursive_manipulation` has the value of the whole expression at `v`. -/
theorem C26_value [Num K] (F : Manip K) (o : Order K) (v : List K) (e e' : Expr K) (a : K)
    (hF : ∀ t r b, (IsLeaf t ∨ F.modifies t = true) → F.apply t = .ok r → eval o v t = .ok b →
      eval o v r = .ok b)
    (h : manipulate F e = .ok e') (he : eval o v e = .ok a) : eval o v e' = .ok a := by
  induction e using Expr.ind generalizing e' a with
  | const | var | fsym | vec => exact hF _ _ _ (.inl (by exact trivial)) h he
  | un op e ih =>
    simp only [manipulate] at h
    split at h
    · exact hF _ _ _ (.inr ‹_›) h he
    · obtain ⟨d, hd, rfl⟩ := Res.map_eq_ok.1 h
      obtain ⟨b, hb, he⟩ := Res.bind_eq_ok.1 he
      simp [eval, ih _ _ hd hb, he]
  | integ lo hi x e _ _ ih =>
    obtain ⟨b, hb, he⟩ := Res.bind_eq_ok.1 he
    cases he
  | bin op l r ihl ihr =>
    simp only [manipulate] at h
    split at h
    · exact hF _ _ _ (.inr ‹_›) h he
    · obtain ⟨d, hd, h⟩ := Res.bind_eq_ok.1 h
      obtain ⟨d', hd', rfl⟩ := Res.map_eq_ok.1 h
      obtain ⟨x, y, hx, hy, he⟩ := Res.both_eq_ok.1 he
      simp [eval, ihl _ _ hd hx, ihr _ _ hd' hy, he]

/-- A functor that replaces `x0 + x0` by `2 * x0`, on `sin(x0 + x0) * (x0 + x0)`. -/
example :
    let F : Manip XRat := ⟨fun | .bin .plus (.var 0) (.var 0) => .ok (.bin .mult (.const (some 2)) (.var 0)) | e => .ok e,
      fun | .bin .plus (.var 0) (.var 0) => true | _ => false⟩
    let s : Expr XRat := .bin .plus (.var 0) (.var 0)
    let t : Expr XRat := .bin .mult (.const (some 2)) (.var 0)
    manipulate F (.bin .mult (.un (.fn .sin) s) s) = .ok (.bin .mult (.un (.fn .sin) t) t) := rfl

/-- C29, for expressions whose only symbolic interval is `k` and which use it in no other integral over it,
no vector and no integration bound.  Missing: other symbolic intervals and these places, where the claim
fails (below). -/
theorem C29_interval_partial (k : Nat) (lo hi : Expr K) (x : Nat) (e : Expr K) (h : OnlyInterval k e) :
    ∃ e', substituteInterval k lo hi x e = .ok e' ∧ IntervalReplaced k lo hi x e e' := by
  unfold substituteInterval
  induction h with
  | const c => exact ⟨_, rfl, .const c⟩
  | var c => exact ⟨_, rfl, .var c⟩
  | fsym c t => exact ⟨_, rfl, .fsym c t⟩
  | symInt h => exact ⟨_, rfl, .symInt h.replaced⟩
  | @un op e h _ ih =>
    obtain ⟨e', h1, h2⟩ := ih
    refine ⟨.un op e', ?_, .un (h _) h2⟩
    have : (symIntFunctor lo hi x).modifies (.un op e) = false := by
      cases op <;> first | rfl | exact absurd rfl (h _)
    simp [manipulate, this, h1]
  | integ y a b _ ih =>
    obtain ⟨e', h1, h2⟩ := ih
    refine ⟨_, ?_, .integ y a.replaced b.replaced h2⟩
    simp [manipulate, h1, symIntFunctor] at *
  | bin op _ _ ih1 ih2 =>
    obtain ⟨l', h1, h2⟩ := ih1
    obtain ⟨r', h3, h4⟩ := ih2
    refine ⟨_, ?_, .bin op h2 h4⟩
    simp [manipulate, symIntFunctor] at *
    simp [h1, h3]
  | vec h => exact ⟨_, rfl, (NoSymInt.vec h).replaced⟩

/-- The claim fails for other intervals: whatever interval `k` is searched, the integral over interval `j` is
replaced as well. -/
theorem C29_other_interval (k j : Nat) (lo hi : Expr K) (x : Nat) (e : Expr K) (hjk : j ≠ k) :
    substituteInterval k lo hi x (.un (.symInt j) e) = .ok (.integ lo hi x e) ∧
      ¬ IntervalReplaced k lo hi x (.un (.symInt j) e) (.integ lo hi x e) :=
  ⟨rfl, by intro h; cases h; exact hjk rfl⟩

/-- The claim fails for nested integrals: the inner one stays. -/
theorem C29_nested (k : Nat) (lo hi : Expr K) (x : Nat) (e : Expr K) :
    substituteInterval k lo hi x (.un (.symInt k) (.un (.symInt k) e)) =
        .ok (.integ lo hi x (.un (.symInt k) e)) ∧
      ¬ IntervalReplaced k lo hi x (.un (.symInt k) (.un (.symInt k) e))
        (.integ lo hi x (.un (.symInt k) e)) := by
  refine ⟨rfl, ?_⟩
  intro h
  cases h with
  | symInt h =>
    cases h with
    | un h => exact h rfl

/-- The claim fails for entries of vectors: they stay. -/
theorem C29_vector (k : Nat) (lo hi : Expr K) (x : Nat) (e : Expr K) :
    substituteInterval k lo hi x (.vec [.un (.symInt k) e]) = .ok (.vec [.un (.symInt k) e]) ∧
      ¬ IntervalReplaced k lo hi x (.vec [.un (.symInt k) e]) (.vec [.un (.symInt k) e]) := by
  refine ⟨rfl, ?_⟩
  intro h
  cases h with
  | vec _ h =>
    have := h 0 _ _ rfl rfl
    cases this with
    | un h => exact h rfl

/-- C29, no exception and no undefined behaviour for any expression, and what the result is: the outermost
integrals over symbolic intervals (of any id) outside of vectors become integrals over `[lo, hi]`. -/
theorem C29_result (k : Nat) (lo hi : Expr K) (x : Nat) (e : Expr K) :
    ∃ e', substituteInterval k lo hi x e = .ok e' ∧
      Replaced (fun t r => (IsLeaf t ∧ r = t) ∨ ∃ j b, t = .un (.symInt j) b ∧ r = .integ lo hi x b)
        (fun t => ∀ j b, t ≠ .un (.symInt j) b) e e' := by
  have hok : ∃ e', substituteInterval k lo hi x e = .ok e' := by
    unfold substituteInterval
    induction e using Expr.ind with
    | const | var | fsym | vec => exact ⟨_, rfl⟩
    | un op e ih =>
      obtain ⟨e', h⟩ := ih
      cases op <;> simp [manipulate, symIntFunctor] <;> simp [symIntFunctor] at h <;> simp [h]
    | integ a b y e _ _ ih =>
      obtain ⟨e', h⟩ := ih
      refine ⟨.integ a b y e', ?_⟩
      simp [manipulate, symIntFunctor] at *
      simp [h]
    | bin op l r ihl ihr =>
      obtain ⟨l', h⟩ := ihl
      obtain ⟨r', h'⟩ := ihr
      refine ⟨.bin op l' r', ?_⟩
      simp [manipulate, symIntFunctor] at *
      simp [h, h']
  obtain ⟨e', h⟩ := hok
  refine ⟨e', h, (C26_replaced _ _ _ h).mono ?_ ?_⟩
  · rintro t r ⟨ht, hr⟩
    rcases ht with ht | ht
    · left
      refine ⟨ht, ?_⟩
      cases t <;> first | cases hr; rfl | cases ht
    · right
      revert ht hr
      simp only [symIntFunctor]
      split
      · intro hr _; exact ⟨_, _, rfl, (Res.ok.inj hr).symm⟩
      · simp_all
  · rintro t ⟨_, ht⟩ j b rfl
    cases ht

/-- `∫_Ω1 u*v + ∫_Ω1 sin(u)` over `[0, 1]`. -/
example : OnlyInterval (K := XRat) 1 (.bin .plus (.un (.symInt 1) (.bin .mult (.fsym 0 0) (.fsym 0 1)))
    (.un (.symInt 1) (.un (.fn .sin) (.fsym 0 0)))) :=
  .bin _ (.symInt (.bin _ (.fsym _ _) (.fsym _ _))) (.symInt (.un nofun (.fsym _ _)))

end VM.Props
