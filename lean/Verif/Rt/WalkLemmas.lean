import Verif.Rt.Walk
import Verif.Spec.Walk
import Verif.Rt.ManipStateLemmas
import Verif.Rt.TraverseLemmas
/-
The calls made by a traversal, by recursion over the expression.
-/
namespace VM
open Spec
variable {K σ : Type}

/-- The call, seen from one node higher up. -/
def Spec.WCall.under (d : List Dir) : WCall → WCall
  | .stepped p r => .stepped (d ++ p) r
  | .visited p r => .visited (d ++ p) r

@[simp] theorem Spec.WCall.pos_under (d : List Dir) (c : WCall) : (c.under d).pos = d ++ c.pos := by
  cases c <;> rfl
@[simp] theorem Spec.WCall.what_under (d : List Dir) (c : WCall) :
    (c.under d).what = (c.what.1, d ++ c.what.2) := by cases c <;> rfl
theorem Spec.WCall.under_under (d d' : List Dir) (c : WCall) : (c.under d').under d = c.under (d ++ d') := by
  cases c <;> simp [WCall.under]
@[simp] theorem Spec.WCall.returned_under {d : List Dir} {c : WCall} : (c.under d).Returned ↔ c.Returned := by
  cases c <;> rfl
@[simp] theorem Spec.WCall.threw_under {d : List Dir} {c : WCall} {x} : (c.under d).Threw x ↔ c.Threw x := by
  cases c <;> rfl
@[simp] theorem Spec.WCall.undefined_under {d : List Dir} {c : WCall} :
    (c.under d).Undefined ↔ c.Undefined := by cases c <;> rfl

theorem map_under_walk (p d : List Dir) (cs : List WCall) :
    (cs.map (WCall.under d)).map (WCall.under p) = cs.map (WCall.under (p ++ d)) := by
  simp [List.map_map, Function.comp_def, WCall.under_under]

/-- Not a value. -/
def Stops {α : Type} (r : Res α) : Prop := ∀ a, r ≠ .ok a

/-- What the calls are like, by recursion. -/
inductive WalkTrace : Expr K → List WCall → Res Unit → Prop
  | leaf {e r} : IsLeaf e → WalkTrace e [.visited [] r] r
  | un {op e cs r} : WalkTrace e cs r →
      WalkTrace (.un op e) (.visited [] (.ok ()) :: cs.map (WCall.under [.arg])) r
  | unStop {op e r} : Stops r → WalkTrace (.un op e) [.visited [] r] r
  | integ {lo hi x e cs r} : WalkTrace e cs r →
      WalkTrace (.integ lo hi x e) (.visited [] (.ok ()) :: cs.map (WCall.under [.arg])) r
  | integStop {lo hi x e r} : Stops r → WalkTrace (.integ lo hi x e) [.visited [] r] r
  | declined {op l r res} : WalkTrace (.bin op l r) [.stepped [] (.ok false), .visited [] res] res
  | threw {op l r x} : WalkTrace (.bin op l r) [.stepped [] (.throw x)] (.throw x)
  | ub {op l r} : WalkTrace (.bin op l r) [.stepped [] .ub] .ub
  | left {op l r cs res} : WalkTrace l cs res → Stops res →
      WalkTrace (.bin op l r) (.stepped [] (.ok true) :: cs.map (WCall.under [.left])) res
  | node {op l r cs res} : WalkTrace l cs (.ok ()) → Stops res →
      WalkTrace (.bin op l r) (.stepped [] (.ok true) :: (cs.map (WCall.under [.left]) ++ [.visited [] res])) res
  | right {op l r cs ds res} : WalkTrace l cs (.ok ()) → WalkTrace r ds res →
      WalkTrace (.bin op l r) (.stepped [] (.ok true) ::
        (cs.map (WCall.under [.left]) ++ .visited [] (.ok ()) :: ds.map (WCall.under [.right]))) res

theorem Spec.Walked.append {m : List Dir → Expr K → σ → Res Bool × σ} {a : List Dir → Expr K → σ → Res Unit × σ}
    {e : Expr K} {cs ds : List WCall} {s s' s'' : σ} (h : Walked m a e cs s s') (h' : Walked m a e ds s' s'') :
    Walked m a e (cs ++ ds) s s'' := by
  induction h with
  | none => exact h'
  | stepped h1 h2 _ ih => exact .stepped h1 h2 (ih h')
  | visited h1 h2 _ ih => exact .visited h1 h2 (ih h')

/-- The calls of a traversal of a part of an expression. -/
def Walks (V : Walker K σ) (e₀ : Expr K) (p : List Dir) (e : Expr K) (s : σ) (out : Res Unit × σ) : Prop :=
  ∃ cs, WalkTrace e cs out.1 ∧ Walked V.stepInto V.visit e₀ (cs.map (WCall.under p)) s out.2

theorem walks (V : Walker K σ) (e₀ : Expr K) : ∀ (e : Expr K) (p : List Dir) (s : σ),
    At e₀ p e → Walks V e₀ p e s (walk V p e s) := by
  have one : ∀ {p : List Dir} {e : Expr K} {s s' : σ} {r}, At e₀ p e → V.visit p e s = (r, s') →
      Walked V.stepInto V.visit e₀ ([WCall.visited [] r].map (WCall.under p)) s s' := by
    intro p e s s' r h h'
    simp only [List.map_cons, List.map_nil, WCall.under, List.append_nil]
    exact .visited h h' .none
  intro e
  induction e using Expr.ind with
  | const | var | fsym | vec =>
    intro p s h
    exact ⟨_, .leaf (by trivial), one h rfl⟩
  | un op e ih =>
    intro p s h
    rw [walk]
    cases hv : V.visit p (.un op e) s with
    | mk r s1 =>
      cases r with
      | throw x => exact ⟨_, .unStop (by simp [Stops, andThen]), one h hv⟩
      | ub => exact ⟨_, .unStop (by simp [Stops, andThen]), one h hv⟩
      | ok u =>
        obtain ⟨cs, h1, h2⟩ := ih (p ++ [.arg]) s1 (h.child (.un .here))
        refine ⟨_, .un h1, ?_⟩
        simp only [List.map_cons, map_under_walk, WCall.under, List.append_nil]
        exact .visited h hv h2
  | integ lo hi x e _ _ ih =>
    intro p s h
    rw [walk]
    cases hv : V.visit p (.integ lo hi x e) s with
    | mk r s1 =>
      cases r with
      | throw x => exact ⟨_, .integStop (by simp [Stops, andThen]), one h hv⟩
      | ub => exact ⟨_, .integStop (by simp [Stops, andThen]), one h hv⟩
      | ok u =>
        obtain ⟨cs, h1, h2⟩ := ih (p ++ [.arg]) s1 (h.child (.integ .here))
        refine ⟨_, .integ h1, ?_⟩
        simp only [List.map_cons, map_under_walk, WCall.under, List.append_nil]
        exact .visited h hv h2
  | bin op l r ihl ihr =>
    intro p s h
    rw [walk]
    cases hm : V.stepInto p (.bin op l r) s with
    | mk b s1 =>
      cases b with
      | throw x =>
        refine ⟨_, .threw, ?_⟩
        simp only [List.map_cons, List.map_nil, WCall.under, List.append_nil]
        exact .stepped h hm .none
      | ub =>
        refine ⟨_, .ub, ?_⟩
        simp only [List.map_cons, List.map_nil, WCall.under, List.append_nil]
        exact .stepped h hm .none
      | ok b =>
        simp only [andThen]
        cases b with
        | false =>
          simp only [Bool.false_eq_true, if_false]
          refine ⟨_, .declined, ?_⟩
          simp only [List.map_cons, List.map_nil, WCall.under, List.append_nil]
          exact .stepped h hm (.visited h rfl .none)
        | true =>
          simp only [if_true]
          obtain ⟨cs, h1, h2⟩ := ihl (p ++ [.left]) s1 (h.child (.left .here))
          generalize walk V (p ++ [.left]) l s1 = out at h1 h2
          obtain ⟨res, s2⟩ := out
          have hleft : Stops res → Walks V e₀ p (.bin op l r) s (res, s2) := fun hs => by
            refine ⟨_, .left h1 hs, ?_⟩
            simp only [List.map_cons, map_under_walk, WCall.under, List.append_nil]
            exact .stepped h hm h2
          cases res with
          | throw x => exact hleft (by simp [Stops])
          | ub => exact hleft (by simp [Stops])
          | ok u =>
            simp only
            cases hv : V.visit p (.bin op l r) s2 with
            | mk rv s3 =>
              have hnode : Stops rv → Walks V e₀ p (.bin op l r) s (rv, s3) := fun hs => by
                refine ⟨_, .node h1 hs, ?_⟩
                simp only [List.map_cons, List.map_append, List.map_nil, map_under_walk, WCall.under, List.append_nil]
                exact .stepped h hm (h2.append (.visited h hv .none))
              cases rv with
              | throw x => exact hnode (by simp [Stops])
              | ub => exact hnode (by simp [Stops])
              | ok u =>
                obtain ⟨ds, h3, h4⟩ := ihr (p ++ [.right]) s3 (h.child (.right .here))
                refine ⟨_, .right h1 h3, ?_⟩
                simp only [List.map_cons, List.map_append, map_under_walk, WCall.under, List.append_nil]
                exact .stepped h hm (h2.append (.visited h hv h4))

theorem mem_stepped {d : List Dir} {L : List WCall} {p : List Dir} {b : Res Bool} :
    WCall.stepped p b ∈ L.map (WCall.under d) ↔ ∃ q, p = d ++ q ∧ WCall.stepped q b ∈ L := by
  constructor
  · intro h
    obtain ⟨c, h1, h2⟩ := List.mem_map.1 h
    cases c with
    | stepped q r => simp only [WCall.under, WCall.stepped.injEq] at h2; exact ⟨q, h2.1.symm, h2.2 ▸ h1⟩
    | visited q r => cases h2
  · rintro ⟨q, rfl, h⟩; exact List.mem_map.2 ⟨_, h, rfl⟩

theorem mem_visited {d : List Dir} {L : List WCall} {p : List Dir} {n : Res Unit} :
    WCall.visited p n ∈ L.map (WCall.under d) ↔ ∃ q, p = d ++ q ∧ WCall.visited q n ∈ L := by
  constructor
  · intro h
    obtain ⟨c, h1, h2⟩ := List.mem_map.1 h
    cases c with
    | visited q r => simp only [WCall.under, WCall.visited.injEq] at h2; exact ⟨q, h2.1.symm, h2.2 ▸ h1⟩
    | stepped q r => cases h2
  · rintro ⟨q, rfl, h⟩; exact List.mem_map.2 ⟨_, h, rfl⟩

theorem nodup_walk {d : List Dir} {L : List WCall} (h : (L.map WCall.what).Nodup) :
    ((L.map (WCall.under d)).map WCall.what).Nodup := by
  have e : (L.map (WCall.under d)).map WCall.what = (L.map WCall.what).map fun w => (w.1, d ++ w.2) := by
    simp [List.map_map, Function.comp_def]
  rw [e]
  refine h.map ?_
  rintro ⟨a, b⟩ ⟨a', b'⟩ hh
  simp only [Prod.mk.injEq, List.append_cancel_left_eq] at hh
  rw [hh.1, hh.2]

theorem single_split {α : Type} {c d : α} {b z : List α} (h : [d] = b ++ c :: z) : b = [] ∧ c = d ∧ z = [] := by
  rcases split_cons h with ⟨h1, h2, h3⟩ | ⟨b, _, h⟩
  · exact ⟨h1, h2, h3⟩
  · simp at h

theorem seen_node {d : Dir} {L M : List WCall} {p : List Dir} (hM : ∀ c ∈ L, c.under [d] ∈ M)
    (h : DealtWith L p) : DealtWith M (d :: p) := by
  rcases h with h | ⟨q, d', r, rfl, h⟩
  · exact .inl (hM _ h)
  · exact .inr ⟨d :: q, d', r, rfl, hM _ h⟩

theorem not_left {e n : Expr K} {q : List Dir} (hb : ∀ op a b, e ≠ .bin op a b) (h : At e q n)
    (hq : Before q []) : False := by
  cases hq
  cases h
  exact hb _ _ _ rfl

/-- One call on the node itself. -/
theorem inOrder_visit {e : Expr K} {r : Res Unit} (hb : ∀ op a b, e ≠ .bin op a b) : InOrder e [.visited [] r] where
  once := by simp
  above := by
    intro before c after hs q d r hc
    rcases split_cons hs with ⟨_, rfl, _⟩ | ⟨b, _, h⟩
    · simp [WCall.pos] at hc
    · simp at h
  asked := by simp
  first := by
    intro before p r after hs op a b hat
    rcases split_cons hs with ⟨_, h, _⟩ | ⟨b, _, h⟩
    · cases h; cases hat; exact absurd rfl (hb op a b)
    · simp at h
  declined := by
    intro before p after hs
    rcases split_cons hs with ⟨_, h, _⟩ | ⟨b, _, h⟩
    · cases h
    · simp at h
  earlier := by
    intro before c after hs q n hat hq _
    obtain ⟨_, rfl, _⟩ := single_split hs
    exact (not_left hb hat hq).elim
  together q := by
    cases q with
    | nil => exact ⟨[], _, [], by simp only [List.nil_append, List.append_nil]; exact ⟨rfl, by simp, by simp⟩⟩
    | cons => exact ⟨_, [], [], by simp only [List.append_nil]; rfl, by simp, by simp [WCall.pos]⟩

/-- A unary node, then what is below it. -/
theorem inOrder_arg {e e₁ : Expr K} {L : List WCall} (h : InOrder e₁ L) (he : At e [.arg] e₁)
    (hb : ∀ op a b, e ≠ .bin op a b) : InOrder e (.visited [] (.ok ()) :: L.map (WCall.under [.arg])) where
  once := by
    simp only [List.map_cons, List.nodup_cons]
    refine ⟨?_, nodup_walk h.once⟩
    intro hm
    simp only [List.map_map, List.mem_map, Function.comp_apply, WCall.what_under] at hm
    obtain ⟨c, _, h0⟩ := hm
    simp [WCall.what] at h0
  above := by
    intro before c after hs q d r hc
    rcases split_cons hs with ⟨_, rfl, _⟩ | ⟨b, rfl, hs1⟩
    · simp [WCall.pos] at hc
    · obtain ⟨b0, x, a0, hL, rfl, rfl, rfl⟩ := split_map hs1
      cases q with
      | nil =>
        simp only [WCall.pos_under, List.cons_append, List.nil_append, List.cons.injEq] at hc
        rw [← hc.1]
        simp
      | cons d2 q =>
        simp only [WCall.pos_under, List.cons_append, List.nil_append, List.cons.injEq] at hc
        obtain ⟨rfl, hc⟩ := hc
        obtain ⟨h1, h2, h3⟩ := h.above b0 x a0 hL q d r hc
        refine ⟨fun hd => .tail _ (mem_visited.2 ⟨q, rfl, h1 hd⟩), fun hd y hy => ?_,
          fun hd => .tail _ (mem_stepped.2 ⟨q, rfl, h3 hd⟩)⟩
        rcases List.mem_cons.1 hy with hy | hy
        · cases hy
        · obtain ⟨q', hq, hm⟩ := mem_visited.1 hy
          simp only [List.cons_append, List.nil_append, List.cons.injEq, true_and] at hq
          exact h2 hd y (hq ▸ hm)
  asked := by
    intro p r hp
    rcases List.mem_cons.1 hp with hp | hp
    · cases hp
    · obtain ⟨q, rfl, hm⟩ := mem_stepped.1 hp
      obtain ⟨op, a, b, h1⟩ := h.asked q r hm
      exact ⟨op, a, b, he.child h1⟩
  first := by
    intro before p r after hs op a b hat
    rcases split_cons hs with ⟨_, h0, _⟩ | ⟨b', rfl, hs1⟩
    · cases h0; cases hat; exact absurd rfl (hb op a b)
    · obtain ⟨b0, x, a0, hL, rfl, hx, rfl⟩ := split_map hs1
      cases x with
      | stepped => cases hx
      | visited q r' =>
        simp only [WCall.under, WCall.visited.injEq] at hx
        obtain ⟨rfl, rfl⟩ := hx
        have hat' : At e₁ q (.bin op a b) := by
          cases hat with
          | un hat => cases he with | un he => cases he; exact hat
          | integ hat => cases he with | integ he => cases he; exact hat
        obtain ⟨x, hx⟩ := h.first b0 q r a0 hL op a b hat'
        exact ⟨x, .tail _ (mem_stepped.2 ⟨q, rfl, hx⟩)⟩
  declined := by
    intro before p after hs
    rcases split_cons hs with ⟨_, h0, _⟩ | ⟨b', rfl, hs1⟩
    · cases h0
    · obtain ⟨b0, x, a0, hL, rfl, hx, rfl⟩ := split_map hs1
      cases x with
      | visited => cases hx
      | stepped q r' =>
        simp only [WCall.under, WCall.stepped.injEq] at hx
        obtain ⟨rfl, rfl⟩ := hx
        obtain ⟨r, z', rfl⟩ := h.declined b0 q a0 hL
        exact ⟨r, z'.map (WCall.under [.arg]), by simp [WCall.under]⟩
  earlier := by
    intro before c after hs q n hat hq hc
    rcases split_cons hs with ⟨_, rfl, _⟩ | ⟨b', rfl, hs1⟩
    · exact (not_left hb hat hq).elim
    · obtain ⟨b0, x, a0, hL, rfl, rfl, rfl⟩ := split_map hs1
      rw [WCall.pos_under] at hq
      cases hq with
      | nodeArg => exact .inl (by simp)
      | @inside _ q _ hq =>
        have hat' : At e₁ q n := by
          cases hat with
          | un hat => cases he with | un he => cases he; exact hat
          | integ hat => cases he with | integ he => cases he; exact hat
        refine seen_node (fun c hc => .tail _ (List.mem_map.2 ⟨c, hc, rfl⟩)) (h.earlier b0 x a0 hL q n hat' hq ?_)
        rintro ⟨p, b, rfl⟩ hp
        exact hc ⟨_, _, rfl⟩ (by simpa [WCall.under, WCall.pos] using hp)
  together := by
    intro q
    cases q with
    | nil => exact ⟨[], _, [], by simp only [List.nil_append, List.append_nil]; exact ⟨rfl, by simp, by simp⟩⟩
    | cons d1 q =>
      by_cases h1 : d1 = .arg
      · subst h1
        obtain ⟨xs, ys, zs, rfl, hy, hn⟩ := h.together q
        refine ⟨.visited [] (.ok ()) :: xs.map (WCall.under [.arg]), ys.map (WCall.under [.arg]),
          zs.map (WCall.under [.arg]), by simp, ?_, ?_⟩
        · intro c hc
          obtain ⟨c', h2, rfl⟩ := List.mem_map.1 hc
          simpa using hy c' h2
        · intro c hc
          simp only [List.cons_append, List.mem_cons, List.mem_append, List.mem_map] at hc hn
          rcases hc with rfl | ⟨c', h2, rfl⟩ | ⟨c', h2, rfl⟩
          · simp [WCall.pos]
          · simpa using hn c' (.inl h2)
          · simpa using hn c' (.inr h2)
      · refine ⟨_, [], [], by simp only [List.append_nil]; rfl, by simp, ?_⟩
        intro c hc
        simp only [List.append_nil, List.mem_cons, List.mem_map] at hc
        rcases hc with rfl | ⟨c', _, rfl⟩
        · simp [WCall.pos]
        · simp [h1]

/-- A call among those of a binary node. -/
theorem split_walk {L M L' : List WCall} {a c : WCall} {before after : List WCall}
    (h : a :: (L.map (WCall.under [.left]) ++ (M ++ L'.map (WCall.under [.right]))) = before ++ c :: after) :
    (before = [] ∧ c = a ∧ after = L.map (WCall.under [.left]) ++ (M ++ L'.map (WCall.under [.right]))) ∨
    (∃ b x z, L = b ++ x :: z ∧ before = a :: b.map (WCall.under [.left]) ∧ c = x.under [.left] ∧
      after = z.map (WCall.under [.left]) ++ (M ++ L'.map (WCall.under [.right]))) ∨
    (∃ b z, M = b ++ c :: z ∧ before = a :: (L.map (WCall.under [.left]) ++ b) ∧
      after = z ++ L'.map (WCall.under [.right])) ∨
    (∃ b x z, L' = b ++ x :: z ∧
      before = a :: (L.map (WCall.under [.left]) ++ (M ++ b.map (WCall.under [.right]))) ∧
      c = x.under [.right] ∧ after = z.map (WCall.under [.right])) := by
  rcases split_cons h with h | ⟨b, rfl, h0⟩
  · exact .inl h
  · rcases split_append h0 with ⟨z, h1, rfl⟩ | ⟨b', rfl, h1⟩
    · obtain ⟨b0, x, a0, rfl, rfl, rfl, rfl⟩ := split_map h1
      exact .inr (.inl ⟨b0, x, a0, rfl, rfl, rfl, rfl⟩)
    · rcases split_append h1 with ⟨z, h2, rfl⟩ | ⟨b'', rfl, h2⟩
      · exact .inr (.inr (.inl ⟨b', z, h2, rfl, rfl⟩))
      · obtain ⟨b0, x, a0, rfl, rfl, rfl, rfl⟩ := split_map h2
        exact .inr (.inr (.inr ⟨b0, x, a0, rfl, rfl, rfl, rfl⟩))

/-- A binary node that was stepped into: what is below the left operand, the node, what is below the right operand, or
only the beginning of this. -/
theorem inOrder_bin {op : BOp} {l r : Expr K} {L M L' : List WCall} (h : InOrder l L) (h' : InOrder r L')
    (hM : M = [] ∧ L' = [] ∨ ∃ x, M = [.visited [] x] ∧ (L' = [] ∨ x = .ok ()))
    (hd : M ≠ [] → ∀ p n, At l p n → DealtWith L p) :
    InOrder (.bin op l r)
      (.stepped [] (.ok true) :: (L.map (WCall.under [.left]) ++ (M ++ L'.map (WCall.under [.right])))) where
  once := by
    simp only [List.map_cons, List.map_append, List.nodup_cons, List.nodup_append]
    refine ⟨?_, nodup_walk h.once, ⟨?_, nodup_walk h'.once, ?_⟩, ?_⟩
    · intro hm
      simp only [List.mem_append, List.map_map, List.mem_map, Function.comp_apply, WCall.what_under] at hm
      rcases hm with ⟨c, _, h0⟩ | ⟨c, h1, h0⟩ | ⟨c, _, h0⟩
      · simp [WCall.what] at h0
      · rcases hM with ⟨rfl, _⟩ | ⟨x, rfl, _⟩
        · simp at h1
        · simp only [List.mem_singleton] at h1; subst h1; simp [WCall.what] at h0
      · simp [WCall.what] at h0
    · rcases hM with ⟨rfl, _⟩ | ⟨x, rfl, _⟩ <;> simp
    · intro w hw w' hw'
      rcases hM with ⟨rfl, _⟩ | ⟨x, rfl, _⟩
      · simp at hw
      · simp only [List.map_cons, List.map_nil, List.mem_singleton] at hw
        simp only [List.map_map, List.mem_map, Function.comp_apply, WCall.what_under] at hw'
        obtain ⟨c', _, rfl⟩ := hw'
        subst hw
        simp [WCall.what]
    · intro w hw w' hw'
      simp only [List.map_map, List.mem_map, Function.comp_apply, WCall.what_under, List.mem_append] at hw hw'
      obtain ⟨c, _, rfl⟩ := hw
      rcases hw' with ⟨c', h1, rfl⟩ | ⟨c', _, rfl⟩
      · rcases hM with ⟨rfl, _⟩ | ⟨x, rfl, _⟩
        · simp at h1
        · simp only [List.mem_singleton] at h1; subst h1; simp [WCall.what]
      · simp
  above := by
    intro before c after hs q d1 r1 hc
    rcases split_walk hs with ⟨_, rfl, _⟩ | ⟨b, x, z, hL, rfl, rfl, _⟩ | ⟨b, z, hL, rfl, _⟩ |
      ⟨b, x, z, hL, rfl, rfl, _⟩
    · simp [WCall.pos] at hc
    · cases q with
      | nil =>
        simp only [WCall.pos_under, List.cons_append, List.nil_append, List.cons.injEq] at hc
        rw [← hc.1]
        simp [mem_visited]
      | cons d2 q =>
        simp only [WCall.pos_under, List.cons_append, List.nil_append, List.cons.injEq] at hc
        obtain ⟨rfl, hc⟩ := hc
        obtain ⟨h1, h2, h3⟩ := h.above b x z hL q d1 r1 hc
        refine ⟨fun hd => .tail _ (mem_visited.2 ⟨q, rfl, h1 hd⟩), fun hd y hy => ?_,
          fun hd => .tail _ (mem_stepped.2 ⟨q, rfl, h3 hd⟩)⟩
        rcases List.mem_cons.1 hy with hy | hy
        · cases hy
        · obtain ⟨q', hq, hm⟩ := mem_visited.1 hy
          simp only [List.cons_append, List.nil_append, List.cons.injEq, true_and] at hq
          exact h2 hd y (hq ▸ hm)
    · rcases hM with ⟨rfl, _⟩ | ⟨x, rfl, _⟩
      · simp at hL
      · obtain ⟨_, rfl, _⟩ := single_split hL
        simp [WCall.pos] at hc
    · have hM' : M = [.visited [] (.ok ())] := by
        rcases hM with ⟨_, rfl⟩ | ⟨y, rfl, rfl | rfl⟩
        · simp at hL
        · simp at hL
        · rfl
      subst hM'
      cases q with
      | nil =>
        simp only [WCall.pos_under, List.cons_append, List.nil_append, List.cons.injEq] at hc
        rw [← hc.1]
        simp
      | cons d2 q =>
        simp only [WCall.pos_under, List.cons_append, List.nil_append, List.cons.injEq] at hc
        obtain ⟨rfl, hc⟩ := hc
        obtain ⟨h1, h2, h3⟩ := h'.above b x z hL q d1 r1 hc
        refine ⟨fun hd => ?_, fun hd y hy => ?_, fun hd => ?_⟩
        · simp only [List.mem_cons, List.mem_append]
          exact .inr (.inr (.inr (mem_visited.2 ⟨q, rfl, h1 hd⟩)))
        · simp only [List.mem_cons, List.mem_append, mem_visited, reduceCtorEq, false_or] at hy
          rcases hy with ⟨q', hq, hm⟩ | hy | ⟨q', hq, hm⟩
          · simp at hq
          · simp at hy
          · simp only [List.cons_append, List.nil_append, List.cons.injEq, true_and] at hq
            exact h2 hd y (hq ▸ hm)
        · simp only [List.mem_cons, List.mem_append]
          exact .inr (.inr (.inr (mem_stepped.2 ⟨q, rfl, h3 hd⟩)))
  asked := by
    intro p x hp
    simp only [List.mem_cons, List.mem_append, mem_stepped] at hp
    rcases hp with hp | ⟨q, rfl, hm⟩ | hm | ⟨q, rfl, hm⟩
    · cases hp; exact ⟨op, l, r, .here⟩
    · obtain ⟨op, a, b, h1⟩ := h.asked q x hm
      exact ⟨op, a, b, .left h1⟩
    · rcases hM with ⟨rfl, _⟩ | ⟨x, rfl, _⟩ <;> simp at hm
    · obtain ⟨op, a, b, h1⟩ := h'.asked q x hm
      exact ⟨op, a, b, .right h1⟩
  first := by
    intro before p x after hs op' a b' hat
    rcases split_walk hs with ⟨_, h0, _⟩ | ⟨b, y, z, hL, rfl, hx, _⟩ | ⟨b, z, hL, rfl, _⟩ |
      ⟨b, y, z, hL, rfl, hx, _⟩
    · cases h0
    · cases y with
      | stepped => cases hx
      | visited q r' =>
        simp only [WCall.under, WCall.visited.injEq] at hx
        obtain ⟨rfl, rfl⟩ := hx
        cases hat with | left hat =>
        obtain ⟨x', hx⟩ := h.first b q x z hL op' a b' hat
        exact ⟨x', .tail _ (mem_stepped.2 ⟨q, rfl, hx⟩)⟩
    · rcases hM with ⟨rfl, _⟩ | ⟨y, rfl, _⟩
      · simp at hL
      · obtain ⟨_, h0, _⟩ := single_split hL
        cases h0
        exact ⟨true, by simp⟩
    · cases y with
      | stepped => cases hx
      | visited q r' =>
        simp only [WCall.under, WCall.visited.injEq] at hx
        obtain ⟨rfl, rfl⟩ := hx
        cases hat with | right hat =>
        obtain ⟨x', hx⟩ := h'.first b q x z hL op' a b' hat
        refine ⟨x', ?_⟩
        simp only [List.mem_cons, List.mem_append]
        exact .inr (.inr (.inr (mem_stepped.2 ⟨q, rfl, hx⟩)))
  declined := by
    intro before p after hs
    rcases split_walk hs with ⟨_, h0, _⟩ | ⟨b, y, z, hL, rfl, hx, rfl⟩ | ⟨b, z, hL, rfl, _⟩ |
      ⟨b, y, z, hL, rfl, hx, rfl⟩
    · simp at h0
    · cases y with
      | visited => cases hx
      | stepped q r' =>
        simp only [WCall.under, WCall.stepped.injEq] at hx
        obtain ⟨rfl, rfl⟩ := hx
        obtain ⟨x, z', rfl⟩ := h.declined b q z hL
        exact ⟨x, z'.map (WCall.under [.left]) ++ (M ++ L'.map (WCall.under [.right])), by simp [WCall.under]⟩
    · rcases hM with ⟨rfl, _⟩ | ⟨y, rfl, _⟩
      · simp at hL
      · obtain ⟨_, h0, _⟩ := single_split hL
        cases h0
    · cases y with
      | visited => cases hx
      | stepped q r' =>
        simp only [WCall.under, WCall.stepped.injEq] at hx
        obtain ⟨rfl, rfl⟩ := hx
        obtain ⟨x, z', rfl⟩ := h'.declined b q z hL
        exact ⟨x, z'.map (WCall.under [.right]), by simp [WCall.under]⟩
  earlier := by
    intro before c after hs q n hat hq hc
    rcases split_walk hs with ⟨_, rfl, _⟩ | ⟨b, y, z, hL, rfl, rfl, _⟩ | ⟨b, z, hL, rfl, _⟩ |
      ⟨b, y, z, hL, rfl, rfl, _⟩
    · exact (hc ⟨_, _, rfl⟩ List.nil_prefix).elim
    · rw [WCall.pos_under] at hq
      cases hq with
      | @inside _ q _ hq =>
        cases hat with | left hat =>
        refine seen_node (fun c hc => .tail _ (List.mem_map.2 ⟨c, hc, rfl⟩)) (h.earlier b y z hL q n hat hq ?_)
        rintro ⟨p, b, rfl⟩ hp
        exact hc ⟨_, _, rfl⟩ (by simpa [WCall.under, WCall.pos] using hp)
    · have hne : M ≠ [] := by rintro rfl; simp at hL
      rcases hM with ⟨rfl, _⟩ | ⟨x, rfl, _⟩
      · exact absurd rfl hne
      · obtain ⟨rfl, rfl, _⟩ := single_split hL
        cases hq with
        | @leftNode q =>
          cases hat with | left hat =>
          exact seen_node (fun c hc => by simp; exact .inr ⟨c, hc, rfl⟩) (hd hne q n hat)
    · have hM' : M = [.visited [] (.ok ())] := by
        rcases hM with ⟨_, rfl⟩ | ⟨y, rfl, rfl | rfl⟩
        · simp at hL
        · simp at hL
        · rfl
      subst hM'
      rw [WCall.pos_under] at hq
      cases hq with
      | nodeRight => exact .inl (by simp)
      | @leftRight q _ =>
        cases hat with | left hat =>
        exact seen_node (fun c hc => by simp; exact .inr (.inl ⟨c, hc, rfl⟩)) (hd (by simp) q n hat)
      | @inside _ q _ hq =>
        cases hat with | right hat =>
        refine seen_node (fun c hc => by simp; exact .inr (.inr (.inr ⟨c, hc, rfl⟩))) (h'.earlier b y z hL q n hat hq ?_)
        rintro ⟨p, b, rfl⟩ hp
        exact hc ⟨_, _, rfl⟩ (by simpa [WCall.under, WCall.pos] using hp)
  together := by
    have hpos : ∀ c ∈ M, c.pos = [] := by
      rcases hM with ⟨rfl, _⟩ | ⟨y, rfl, _⟩ <;> simp [WCall.pos]
    intro q
    cases q with
    | nil => exact ⟨[], _, [], by simp only [List.nil_append, List.append_nil]; exact ⟨rfl, by simp, by simp⟩⟩
    | cons d1 q =>
      cases d1 with
      | left =>
        obtain ⟨xs, ys, zs, rfl, hy, hn⟩ := h.together q
        refine ⟨.stepped [] (.ok true) :: xs.map (WCall.under [.left]), ys.map (WCall.under [.left]),
          zs.map (WCall.under [.left]) ++ (M ++ L'.map (WCall.under [.right])), by simp, ?_, ?_⟩
        · intro c hc
          obtain ⟨c', h2, rfl⟩ := List.mem_map.1 hc
          simpa using hy c' h2
        · intro c hc
          simp only [List.cons_append, List.mem_cons, List.mem_append, List.mem_map] at hc hn
          rcases hc with rfl | ⟨c', h2, rfl⟩ | ⟨c', h2, rfl⟩ | hc | ⟨c', h2, rfl⟩
          · simp [WCall.pos]
          · simpa using hn c' (.inl h2)
          · simpa using hn c' (.inr h2)
          · simp [hpos c hc]
          · simp
      | right =>
        obtain ⟨xs, ys, zs, rfl, hy, hn⟩ := h'.together q
        refine ⟨.stepped [] (.ok true) :: (L.map (WCall.under [.left]) ++ (M ++ xs.map (WCall.under [.right]))),
          ys.map (WCall.under [.right]), zs.map (WCall.under [.right]), by simp, ?_, ?_⟩
        · intro c hc
          obtain ⟨c', h2, rfl⟩ := List.mem_map.1 hc
          simpa using hy c' h2
        · intro c hc
          simp only [List.cons_append, List.mem_cons, List.mem_append, List.mem_map] at hc hn
          rcases hc with rfl | (⟨c', h2, rfl⟩ | hc | ⟨c', h2, rfl⟩) | ⟨c', h2, rfl⟩
          · simp [WCall.pos]
          · simp
          · simp [hpos c hc]
          · simpa using hn c' (.inl h2)
          · simpa using hn c' (.inr h2)
      | arg =>
        refine ⟨_, [], [], by simp only [List.append_nil]; rfl, by simp, ?_⟩
        intro c hc
        simp only [List.append_nil, List.mem_cons, List.mem_append, List.mem_map] at hc
        rcases hc with rfl | ⟨c', _, rfl⟩ | hc | ⟨c', _, rfl⟩
        · simp [WCall.pos]
        · simp
        · simp [hpos c hc]
        · simp

theorem inOrder_nothing (e : Expr K) : InOrder e [] where
  once := by simp
  above := by simp
  asked := by simp
  first := by simp
  declined := by simp
  earlier := by simp
  together q := ⟨[], [], [], by simp⟩

/-- Only a question, or a question and a visit. -/
theorem inOrder_short {op : BOp} {l r : Expr K} {b : Res Bool} {M : List WCall}
    (h : M = [] ∧ b ≠ .ok false ∨ ∃ x, b = .ok false ∧ M = [.visited [] x]) :
    InOrder (.bin op l r) (.stepped [] b :: M) where
  once := by rcases h with ⟨rfl, _⟩ | ⟨x, rfl, rfl⟩ <;> simp [WCall.what]
  above := by
    intro before c after hs q d r hc
    have : c.pos = [] := by
      have hm : c ∈ WCall.stepped [] b :: M := by rw [hs]; simp
      rcases h with ⟨rfl, _⟩ | ⟨x, rfl, rfl⟩
      · simp only [List.mem_singleton] at hm; subst hm; rfl
      · simp only [List.mem_cons, List.not_mem_nil, or_false] at hm; rcases hm with rfl | rfl <;> rfl
    rw [this] at hc
    simp at hc
  asked := by
    intro p x hp
    rcases List.mem_cons.1 hp with hp | hp
    · cases hp; exact ⟨op, l, r, .here⟩
    · rcases h with ⟨rfl, _⟩ | ⟨y, _, rfl⟩
      · simp at hp
      · rw [List.mem_singleton] at hp; cases hp
  first := by
    intro before p x after hs op' a b' hat
    rcases split_cons hs with ⟨_, h0, _⟩ | ⟨b1, rfl, hs1⟩
    · cases h0
    · rcases h with ⟨rfl, _⟩ | ⟨x, rfl, rfl⟩
      · simp at hs1
      · obtain ⟨_, h0, _⟩ := single_split hs1
        cases h0
        exact ⟨false, by simp⟩
  declined := by
    intro before p after hs
    rcases split_cons hs with ⟨_, h0, rfl⟩ | ⟨b1, rfl, hs1⟩
    · rcases h with ⟨rfl, h1⟩ | ⟨x, rfl, rfl⟩
      · simp only [WCall.stepped.injEq] at h0; exact absurd h0.2.symm h1
      · simp only [WCall.stepped.injEq] at h0; obtain ⟨rfl, _⟩ := h0; exact ⟨x, [], rfl⟩
    · rcases h with ⟨rfl, _⟩ | ⟨x, rfl, rfl⟩
      · simp at hs1
      · obtain ⟨_, h0, _⟩ := single_split hs1
        cases h0
  earlier := by
    intro before c after hs q n hat hq hc
    rcases split_cons hs with ⟨_, rfl, _⟩ | ⟨b1, rfl, hs1⟩
    · exact (hc ⟨_, _, rfl⟩ List.nil_prefix).elim
    · rcases h with ⟨rfl, _⟩ | ⟨x, rfl, rfl⟩
      · simp at hs1
      · obtain ⟨_, rfl, _⟩ := single_split hs1
        cases hq with
        | @leftNode q => exact .inr ⟨[], .left, q, rfl, by simp⟩
  together q := by
    cases q with
    | nil => exact ⟨[], _, [], by simp only [List.nil_append, List.append_nil]; exact ⟨rfl, by simp, by simp⟩⟩
    | cons =>
      refine ⟨_, [], [], by simp only [List.append_nil]; rfl, by simp, ?_⟩
      rcases h with ⟨rfl, _⟩ | ⟨x, rfl, rfl⟩ <;> simp [WCall.pos]

/-- A failure below, after calls that returned. -/
theorem completes_fail {e e₁ : Expr K} {d : Dir} {L M : List WCall} {r : Res Unit} (h : Completes e₁ L r)
    (hr : Stops r) (hM : ∀ c ∈ M, c.Returned) : Completes e (M ++ L.map (WCall.under [d])) r := by
  have key : ∀ {P : WCall → Prop}, (∀ c, P c → P (c.under [d])) →
      (∃ before c, L = before ++ [c] ∧ (∀ c ∈ before, c.Returned) ∧ P c) →
      ∃ before c, M ++ L.map (WCall.under [d]) = before ++ [c] ∧ (∀ c ∈ before, c.Returned) ∧ P c := by
    rintro P hP ⟨before, c, rfl, h1, h2⟩
    refine ⟨M ++ before.map (WCall.under [d]), c.under [d], by simp, ?_, hP c h2⟩
    intro c hc
    simp only [List.mem_append, List.mem_map] at hc
    rcases hc with hc | ⟨c', hc, rfl⟩
    · exact hM c hc
    · exact WCall.returned_under.2 (h1 c' hc)
  cases r with
  | ok x => exact absurd rfl (hr x)
  | throw x => exact key (fun _ => WCall.threw_under.2) h
  | ub => exact key (fun _ => WCall.undefined_under.2) h

/-- A visit that failed, after calls that returned. -/
theorem completes_visit {e : Expr K} {M : List WCall} {r : Res Unit} (hr : Stops r) (hM : ∀ c ∈ M, c.Returned) :
    Completes e (M ++ [.visited [] r]) r := by
  cases r with
  | ok x => exact absurd rfl (hr x)
  | throw x => exact ⟨M, _, rfl, hM, rfl⟩
  | ub => exact ⟨M, _, rfl, hM, rfl⟩

theorem returned_map {d : Dir} {L : List WCall} (h : ∀ c ∈ L, c.Returned) :
    ∀ c ∈ L.map (WCall.under [d]), c.Returned := by
  intro c hc
  obtain ⟨c', hc', rfl⟩ := List.mem_map.1 hc
  exact WCall.returned_under.2 (h c' hc')

theorem stops_or (r : Res Unit) : r = .ok () ∨ Stops r := by
  cases r with
  | ok => exact .inl rfl
  | throw => exact .inr (by simp [Stops])
  | ub => exact .inr (by simp [Stops])

theorem completes_arg {e n : Expr K} {L : List WCall} {r : Res Unit} (h : Completes e L r)
    (hat : ∀ p m, At n p m → p = [] ∨ ∃ q, p = .arg :: q ∧ At e q m) :
    Completes n (.visited [] (.ok ()) :: L.map (WCall.under [.arg])) r := by
  rcases stops_or r with rfl | hr
  · refine ⟨?_, fun p m hp => ?_⟩
    · intro c hc
      rcases List.mem_cons.1 hc with rfl | hc
      · rfl
      · exact returned_map h.1 c hc
    · rcases hat p m hp with rfl | ⟨q, rfl, hq⟩
      · exact .inl (by simp)
      · exact seen_node (fun c hc => .tail _ (List.mem_map.2 ⟨c, hc, rfl⟩)) (h.2 _ _ hq)
  · exact completes_fail (M := [.visited [] (.ok ())]) h hr (by simp [WCall.Returned])

theorem WalkTrace.completes {e : Expr K} {cs r} (h : WalkTrace e cs r) : Completes e cs r := by
  induction h with
  | @leaf e r hl =>
    rcases stops_or r with rfl | hr
    · refine ⟨by simp [WCall.Returned], fun p n hp => ?_⟩
      cases hp with
      | here => exact .inl (by simp)
      | un | integ | left | right => exact hl.elim
    · exact completes_visit (M := []) hr (by simp)
  | un _ ih =>
    refine completes_arg ih fun p m hp => ?_
    cases hp with
    | here => exact .inl rfl
    | un hp => exact .inr ⟨_, rfl, hp⟩
  | unStop hr => exact completes_visit (M := []) hr (by simp)
  | integ _ ih =>
    refine completes_arg ih fun p m hp => ?_
    cases hp with
    | here => exact .inl rfl
    | integ hp => exact .inr ⟨_, rfl, hp⟩
  | integStop hr => exact completes_visit (M := []) hr (by simp)
  | @declined op l r res =>
    rcases stops_or res with rfl | hr
    · refine ⟨by simp [WCall.Returned], fun p n hp => ?_⟩
      cases p with
      | nil => exact .inl (by simp)
      | cons d p => exact .inr ⟨[], d, p, rfl, by simp⟩
    · exact completes_visit (M := [.stepped [] (.ok false)]) hr (by simp [WCall.Returned])
  | threw => exact ⟨[], _, rfl, by simp, rfl⟩
  | ub => exact ⟨[], _, rfl, by simp, rfl⟩
  | left _ hr ih => exact completes_fail (M := [.stepped [] (.ok true)]) ih hr (by simp [WCall.Returned])
  | @node op l r cs res _ hr ih =>
    refine completes_visit (M := .stepped [] (.ok true) :: cs.map (WCall.under [.left])) hr ?_
    intro c hc
    rcases List.mem_cons.1 hc with rfl | hc
    · exact ⟨_, rfl⟩
    · exact returned_map ih.1 c hc
  | @right op l r cs ds res _ _ ih ih' =>
    have hM : ∀ c ∈ (.stepped [] (.ok true) :: cs.map (WCall.under [.left])) ++ [.visited [] (.ok ())],
        c.Returned := by
      intro c hc
      simp only [List.mem_append, List.mem_cons, List.not_mem_nil, or_false] at hc
      rcases hc with (rfl | hc) | rfl
      · exact ⟨_, rfl⟩
      · exact returned_map ih.1 c hc
      · rfl
    rcases stops_or res with rfl | hr
    · refine ⟨?_, fun p n hp => ?_⟩
      · intro c hc
        simp only [List.mem_cons, List.mem_append] at hc
        rcases hc with rfl | hc | rfl | hc
        · exact ⟨_, rfl⟩
        · exact returned_map ih.1 c hc
        · rfl
        · exact returned_map ih'.1 c hc
      · cases hp with
        | here => exact .inl (by simp)
        | left hp => exact seen_node (fun c hc => by simp; exact .inr (.inl ⟨c, hc, rfl⟩)) (ih.2 _ _ hp)
        | right hp => exact seen_node (fun c hc => by simp; exact .inr (.inr (.inr ⟨c, hc, rfl⟩))) (ih'.2 _ _ hp)
    · have := completes_fail (e := Expr.bin op l r) (d := .right) ih' hr hM
      simpa using this

theorem WalkTrace.inOrder {e : Expr K} {cs r} (h : WalkTrace e cs r) : InOrder e cs := by
  induction h with
  | leaf hl => exact inOrder_visit fun op a b => by rintro rfl; exact hl
  | un _ ih => exact inOrder_arg ih (.un .here) (by simp)
  | unStop => exact inOrder_visit (by simp)
  | integ _ ih => exact inOrder_arg ih (.integ .here) (by simp)
  | integStop => exact inOrder_visit (by simp)
  | declined => exact inOrder_short (.inr ⟨_, rfl, rfl⟩)
  | threw => exact inOrder_short (.inl ⟨rfl, by simp⟩)
  | ub => exact inOrder_short (.inl ⟨rfl, by simp⟩)
  | @left op l r cs res _ _ ih =>
    have := inOrder_bin (op := op) (M := []) ih (inOrder_nothing r) (.inl ⟨rfl, rfl⟩) (fun h => absurd rfl h)
    simpa using this
  | @node op l r cs res h1 _ ih =>
    have := inOrder_bin (op := op) ih (inOrder_nothing r) (.inr ⟨res, rfl, .inl rfl⟩)
      (fun _ => h1.completes.2)
    simpa using this
  | @right op l r cs ds res h1 _ ih ih' => exact inOrder_bin ih ih' (.inr ⟨_, rfl, .inr rfl⟩) (fun _ => h1.completes.2)

/-- Two nodes of an expression are the same, or one comes before the other. -/
theorem before_total {e : Expr K} : ∀ {p q : List Dir} {n m : Expr K}, At e p n → At e q m →
    p = q ∨ Before p q ∨ Before q p := by
  intro p q n m hp
  induction hp generalizing q with
  | here =>
    intro hq
    cases hq with
    | here => exact .inl rfl
    | un | integ => exact .inr (.inl .nodeArg)
    | left => exact .inr (.inr .leftNode)
    | right => exact .inr (.inl .nodeRight)
  | un hp ih =>
    intro hq
    cases hq with
    | here => exact .inr (.inr .nodeArg)
    | un hq =>
      rcases ih hq with rfl | h | h
      · exact .inl rfl
      · exact .inr (.inl (.inside h))
      · exact .inr (.inr (.inside h))
  | integ hp ih =>
    intro hq
    cases hq with
    | here => exact .inr (.inr .nodeArg)
    | integ hq =>
      rcases ih hq with rfl | h | h
      · exact .inl rfl
      · exact .inr (.inl (.inside h))
      · exact .inr (.inr (.inside h))
  | left hp ih =>
    intro hq
    cases hq with
    | here => exact .inr (.inl .leftNode)
    | left hq =>
      rcases ih hq with rfl | h | h
      · exact .inl rfl
      · exact .inr (.inl (.inside h))
      · exact .inr (.inr (.inside h))
    | right => exact .inr (.inl .leftRight)
  | right hp ih =>
    intro hq
    cases hq with
    | here => exact .inr (.inr .nodeRight)
    | right hq =>
      rcases ih hq with rfl | h | h
      · exact .inl rfl
      · exact .inr (.inl (.inside h))
      · exact .inr (.inr (.inside h))
    | left => exact .inr (.inr .leftRight)

theorem Spec.At.functional {e n m : Expr K} {p : List Dir} (h : At e p n) (h' : At e p m) : n = m := by
  induction h with
  | here => cases h'; rfl
  | un _ ih => cases h' with | un h' => exact ih h'
  | integ _ ih => cases h' with | integ h' => exact ih h'
  | left _ ih => cases h' with | left h' => exact ih h'
  | right _ ih => cases h' with | right h' => exact ih h'

theorem not_twice {before after : List WCall} {c c' : WCall}
    (h : ((before ++ c :: after).map WCall.what).Nodup) (hm : c' ∈ before) : c'.what ≠ c.what := by
  rw [List.map_append, List.nodup_append] at h
  exact h.2.2 _ (List.mem_map.2 ⟨c', hm, rfl⟩) _ (by simp)

theorem not_both {cs : List WCall} {c c' : WCall} (h : (cs.map WCall.what).Nodup) (hm : c ∈ cs) (hm' : c' ∈ cs)
    (hw : c.what = c'.what) : c = c' := by
  obtain ⟨i, hi, rfl⟩ := List.getElem_of_mem hm
  obtain ⟨j, hj, rfl⟩ := List.getElem_of_mem hm'
  have := (List.nodup_iff_injective_getElem.1 h) (a₁ := ⟨i, by simpa using hi⟩) (a₂ := ⟨j, by simpa using hj⟩)
    (by simpa using hw)
  simp only [Fin.mk.injEq] at this
  subst this
  rfl

theorem Spec.At.not_arg {e n a b : Expr K} {op : BOp} {q r : List Dir} (h : At e q (.bin op a b)) :
    ¬ At e (q ++ .arg :: r) n := by
  generalize hm : Expr.bin op a b = m at h
  induction h with
  | here => subst hm; intro h; cases h
  | un _ ih => intro h; cases h with | un h => exact ih hm h
  | integ _ ih => intro h; cases h with | integ h => exact ih hm h
  | left _ ih => intro h; cases h with | left h => exact ih hm h
  | right _ ih => intro h; cases h with | right h => exact ih hm h

/-- A node at which something is still to be done has not been dealt with. -/
theorem not_dealtWith {e n : Expr K} {pre after : List WCall} {c : WCall} (h : InOrder e (pre ++ c :: after))
    (hn : At e c.pos n) : ¬ DealtWith pre c.pos := by
  have key : ∀ c', c' ∈ pre → c'.what ≠ c.what := fun c' => not_twice h.once
  rintro (hv | ⟨q, d, r, hp, hs⟩)
  · cases c with
    | visited p x => exact key _ hv rfl
    | stepped p b =>
      obtain ⟨op, a, b', hat⟩ := h.asked p b (by simp)
      obtain ⟨x, y, hxy⟩ := List.append_of_mem hv
      obtain ⟨z, hz⟩ := h.first x p (.ok ()) (y ++ .stepped p b :: after) (by rw [hxy]; simp [WCall.pos]) op a b' hat
      exact key (.stepped p (.ok z)) (by rw [hxy]; exact List.mem_append_left _ hz) rfl
  · have h1 := (h.above pre c after rfl q d r hp)
    obtain ⟨op, a, b', hat⟩ := h.asked q (.ok false) (List.mem_append_left _ hs)
    by_cases hd : d = .arg
    · rw [hp, hd] at hn
      exact hat.not_arg hn
    · have := not_both h.once (c := .stepped q (.ok false)) (c' := .stepped q (.ok true))
        (List.mem_append_left _ hs) (List.mem_append_left _ (h1.2.2 hd)) rfl
      simp at this

/-- What the next call is, if there is one, is determined by the calls so far. -/
theorem next_call {e n m : Expr K} {pre after after' : List WCall} {c d : WCall}
    (h : InOrder e (pre ++ c :: after)) (h' : InOrder e (pre ++ d :: after')) (hc : At e c.pos n)
    (hd : At e d.pos m) : c.what = d.what := by
  have key : ∀ {n m : Expr K} {after after' : List WCall} {c d : WCall}, InOrder e (pre ++ c :: after) →
      InOrder e (pre ++ d :: after') → At e c.pos n → At e d.pos m → ¬ Before c.pos d.pos := by
    intro n m after after' c d h h' hc hd hb
    refine not_dealtWith h hc (h'.earlier pre d after' rfl _ n hc hb ?_)
    rintro ⟨p, b, rfl⟩ ⟨r, hr⟩
    obtain ⟨op, a, b', hat⟩ := h'.asked p b (by simp)
    cases r with
    | nil =>
      simp only [WCall.pos, List.append_nil] at hr hb
      rw [← hr] at hb
      exact Before.irrefl _ hb
    | cons d r =>
      have h1 := (h.above pre c after rfl p d r hr.symm).2.2 (by
        rintro rfl; rw [← hr] at hc; exact hat.not_arg hc)
      exact not_twice h'.once h1 rfl
  have same : ∀ {p : List Dir} {x : Res Unit} {b : Res Bool} {after after' : List WCall},
      InOrder e (pre ++ .visited p x :: after) → InOrder e (pre ++ .stepped p b :: after') → False := by
    intro p x b after after' h h'
    obtain ⟨op, a, b', hat⟩ := h'.asked p b (by simp)
    obtain ⟨y, hy⟩ := h.first pre p x after rfl op a b' hat
    exact not_twice h'.once hy rfl
  rcases before_total hc hd with hp | hb | hb
  · cases c with
    | visited p x =>
      cases d with
      | visited q y => simp only [WCall.pos] at hp; rw [hp]; rfl
      | stepped q y => simp only [WCall.pos] at hp; subst hp; exact (same h h').elim
    | stepped p x =>
      cases d with
      | visited q y => simp only [WCall.pos] at hp; subst hp; exact (same h' h).elim
      | stepped q y => simp only [WCall.pos] at hp; rw [hp]; rfl
  · exact (key h h' hc hd hb).elim
  · exact (key h' h hd hc hb).elim

theorem Spec.Walked.at {m : List Dir → Expr K → σ → Res Bool × σ} {a : List Dir → Expr K → σ → Res Unit × σ}
    {e : Expr K} {cs : List WCall} {s s' : σ} (h : Walked m a e cs s s') : ∀ c ∈ cs, ∃ n, At e c.pos n := by
  induction h with
  | none => simp
  | stepped h1 _ _ ih => intro c hc; rcases List.mem_cons.1 hc with rfl | hc; exacts [⟨_, h1⟩, ih c hc]
  | visited h1 _ _ ih => intro c hc; rcases List.mem_cons.1 hc with rfl | hc; exacts [⟨_, h1⟩, ih c hc]

theorem returned_not {c : WCall} (h : c.Returned) : (∀ x, ¬ c.Threw x) ∧ ¬ c.Undefined := by
  cases c with
  | stepped p r => obtain ⟨b, rfl⟩ := h; simp [WCall.Threw, WCall.Undefined]
  | visited p r => cases h; simp [WCall.Threw, WCall.Undefined]

/-- A traversal that has ended does not go on. -/
theorem no_more {e : Expr K} {cs after : List WCall} {d : WCall} {r r' : Res Unit} {n : Expr K}
    (h : Completes e cs r) (h' : InOrder e (cs ++ d :: after)) (hd : At e d.pos n)
    (c' : Completes e (cs ++ d :: after) r') : False := by
  have hret : ∀ c ∈ cs, c.Returned := by
    have key : ∀ before (c : WCall), cs ++ d :: after = before ++ [c] → ∀ x ∈ cs, x ∈ before := by
      intro before c hh x hx
      have : cs <+: before := by
        rcases List.eq_nil_or_concat (d :: after) with h0 | ⟨l, y, h0⟩
        · simp at h0
        · rw [h0, List.concat_eq_append, ← List.append_assoc] at hh
          have := List.append_inj_left' hh rfl
          exact ⟨l, this⟩
      exact this.subset hx
    intro c hc
    cases r' with
    | ok => exact c'.1 c (List.mem_append_left _ hc)
    | throw x => obtain ⟨b, l, h1, h2, _⟩ := c'; exact h2 c (key b l h1 c hc)
    | ub => obtain ⟨b, l, h1, h2, _⟩ := c'; exact h2 c (key b l h1 c hc)
  cases r with
  | ok => exact not_dealtWith h' hd (h.2 _ _ hd)
  | throw x =>
    obtain ⟨b, l, rfl, _, h3⟩ := h
    exact (returned_not (hret l (by simp))).1 x h3
  | ub =>
    obtain ⟨b, l, rfl, _, h3⟩ := h
    exact (returned_not (hret l (by simp))).2 h3

theorem same_calls {m : List Dir → Expr K → σ → Res Bool × σ} {a : List Dir → Expr K → σ → Res Unit × σ}
    {e : Expr K} {r₁ r₂ : Res Unit} : ∀ (xs ys pre : List WCall) (s s₁ s₂ : σ),
    InOrder e (pre ++ xs) → Completes e (pre ++ xs) r₁ → Walked m a e xs s s₁ →
    InOrder e (pre ++ ys) → Completes e (pre ++ ys) r₂ → Walked m a e ys s s₂ → xs = ys ∧ s₁ = s₂ := by
  intro xs
  induction xs with
  | nil =>
    intro ys pre s s₁ s₂ h1 c1 w1 h2 c2 w2
    cases ys with
    | nil => cases w1; cases w2; exact ⟨rfl, rfl⟩
    | cons d ys =>
      obtain ⟨n, hn⟩ := w2.at d (by simp)
      rw [List.append_nil] at c1
      exact (no_more c1 h2 hn c2).elim
  | cons c xs ih =>
    intro ys pre s s₁ s₂ h1 c1 w1 h2 c2 w2
    obtain ⟨n, hn⟩ := w1.at c (by simp)
    cases ys with
    | nil =>
      rw [List.append_nil] at c2
      exact (no_more c2 h1 hn c1).elim
    | cons d ys =>
      obtain ⟨n', hn'⟩ := w2.at d (by simp)
      have hw := next_call h1 h2 hn hn'
      have hcd : c = d ∧ ∃ s', Walked m a e xs s' s₁ ∧ Walked m a e ys s' s₂ := by
        cases w1 with
        | stepped g1 g2 g3 =>
          cases w2 with
          | stepped g1' g2' g3' =>
            simp only [WCall.what, Prod.mk.injEq, true_and] at hw
            subst hw
            cases g1.functional g1'
            rw [g2] at g2'
            simp only [Prod.mk.injEq] at g2'
            obtain ⟨rfl, rfl⟩ := g2'
            exact ⟨rfl, _, g3, g3'⟩
          | visited => simp [WCall.what] at hw
        | visited g1 g2 g3 =>
          cases w2 with
          | visited g1' g2' g3' =>
            simp only [WCall.what, Prod.mk.injEq, true_and] at hw
            subst hw
            cases g1.functional g1'
            rw [g2] at g2'
            simp only [Prod.mk.injEq] at g2'
            obtain ⟨rfl, rfl⟩ := g2'
            exact ⟨rfl, _, g3, g3'⟩
          | stepped => simp [WCall.what] at hw
      obtain ⟨rfl, s', v1, v2⟩ := hcd
      have := ih ys (pre ++ [c]) s' s₁ s₂ (by simpa using h1) (by simpa using c1) v1 (by simpa using h2)
        (by simpa using c2) v2
      exact ⟨by rw [this.1], this.2⟩

theorem same_result {e : Expr K} {cs : List WCall} {r₁ r₂ : Res Unit} (h1 : Completes e cs r₁)
    (h2 : Completes e cs r₂) : r₁ = r₂ := by
  have last : ∀ {b b' : List WCall} {c c' : WCall}, cs = b ++ [c] → cs = b' ++ [c'] → c = c' := by
    intro b b' c c' h h'
    have := h.symm.trans h'
    simpa using (List.append_inj_right' this rfl)
  have excl : ∀ {c : WCall} {x y}, c.Threw x → (c.Undefined → False) ∧ (c.Threw y → x = y) := by
    intro c x y h
    cases c <;> simp_all [WCall.Threw, WCall.Undefined]
  cases r₁ with
  | ok =>
    cases r₂ with
    | ok => rfl
    | throw x => obtain ⟨b, c, rfl, _, h⟩ := h2; exact ((returned_not (h1.1 c (by simp))).1 x h).elim
    | ub => obtain ⟨b, c, rfl, _, h⟩ := h2; exact ((returned_not (h1.1 c (by simp))).2 h).elim
  | throw x =>
    obtain ⟨b, c, hc, _, h⟩ := h1
    cases r₂ with
    | ok => exact ((returned_not (h2.1 c (by rw [hc]; simp))).1 x h).elim
    | throw y => obtain ⟨b', c', hc', _, h'⟩ := h2; cases last hc hc'; rw [(excl h).2 h']
    | ub => obtain ⟨b', c', hc', _, h'⟩ := h2; cases last hc hc'; exact ((excl (y := x) h).1 h').elim
  | ub =>
    obtain ⟨b, c, hc, _, h⟩ := h1
    cases r₂ with
    | ok => exact ((returned_not (h2.1 c (by rw [hc]; simp))).2 h).elim
    | throw y => obtain ⟨b', c', hc', _, h'⟩ := h2; cases last hc hc'; exact ((excl (y := y) h').1 h).elim
    | ub => rfl

end VM
