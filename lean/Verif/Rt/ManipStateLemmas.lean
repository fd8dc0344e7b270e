import Verif.Rt.ManipState
import Verif.Spec.ManipState
import Verif.Rt.TraverseLemmas
import Mathlib.Data.List.Nodup
/-
The calls made by a manipulation, by recursion over the expression.
-/
namespace VM
open Spec
variable {K σ : Type}

/-- The call, seen from one node higher up. -/
def Spec.FCall.under (d : List Dir) : FCall K → FCall K
  | .asked p r => .asked (d ++ p) r
  | .applied p r => .applied (d ++ p) r

@[simp] theorem Spec.FCall.pos_under (d : List Dir) (c : FCall K) : (c.under d).pos = d ++ c.pos := by
  cases c <;> rfl

@[simp] theorem Spec.FCall.what_under (d : List Dir) (c : FCall K) :
    (c.under d).what = (c.what.1, d ++ c.what.2) := by cases c <;> rfl

theorem Spec.FCall.under_under (d d' : List Dir) (c : FCall K) : (c.under d').under d = c.under (d ++ d') := by
  cases c <;> simp [FCall.under]

/-- What the calls are like, by recursion. -/
inductive CallTrace : Expr K → List (FCall K) → Res (Expr K) → Prop
  | leaf {e r} : IsLeaf e → CallTrace e [.applied [] r] r
  | agreed {e r} : ¬ IsLeaf e → CallTrace e [.asked [] (.ok true), .applied [] r] r
  | threw {e x} : ¬ IsLeaf e → CallTrace e [.asked [] (.throw x)] (.throw x)
  | ub {e} : ¬ IsLeaf e → CallTrace e [.asked [] .ub] .ub
  | un {op e cs r} : CallTrace e cs r →
      CallTrace (.un op e) (.asked [] (.ok false) :: cs.map (FCall.under [.arg])) (r.map (.un op))
  | integ {lo hi x e cs r} : CallTrace e cs r →
      CallTrace (.integ lo hi x e) (.asked [] (.ok false) :: cs.map (FCall.under [.arg])) (r.map (.integ lo hi x))
  | binLR {op l r cs ds l' r'} : CallTrace l cs (.ok l') → CallTrace r ds r' →
      CallTrace (.bin op l r)
        (.asked [] (.ok false) :: (cs.map (FCall.under [.left]) ++ ds.map (FCall.under [.right])))
        (r'.map (.bin op l'))
  | binRL {op l r cs ds l' r'} : CallTrace l cs l' → CallTrace r ds (.ok r') →
      CallTrace (.bin op l r)
        (.asked [] (.ok false) :: (ds.map (FCall.under [.right]) ++ cs.map (FCall.under [.left])))
        (l'.map (fun l' => .bin op l' r'))
  | binL {op l r cs} {l' : Res (Expr K)} : CallTrace l cs l' → (∀ e, l' ≠ .ok e) →
      CallTrace (.bin op l r) (.asked [] (.ok false) :: cs.map (FCall.under [.left])) (l'.map (.bin op l))
  | binR {op l r ds} {r' : Res (Expr K)} : CallTrace r ds r' → (∀ e, r' ≠ .ok e) →
      CallTrace (.bin op l r) (.asked [] (.ok false) :: ds.map (FCall.under [.right])) (r'.map (.bin op r))

/-- The calls of a manipulation of a part of an expression. -/
def Edits (F : Editor K σ) (e₀ : Expr K) (p : List Dir) (e : Expr K) (s : σ) (out : Res (Expr K) × σ) : Prop :=
  ∃ cs, CallTrace e cs out.1 ∧ Made F.modifies F.apply e₀ (cs.map (FCall.under p)) s out.2

theorem Spec.Made.append {m : List Dir → Expr K → σ → Res Bool × σ} {a : List Dir → Expr K → σ → Res (Expr K) × σ}
    {e : Expr K} {cs ds : List (FCall K)} {s s' s'' : σ} (h : Made m a e cs s s') (h' : Made m a e ds s' s'') :
    Made m a e (cs ++ ds) s s'' := by
  induction h with
  | none => exact h'
  | asked h1 h2 _ ih => exact .asked h1 h2 (ih h')
  | applied h1 h2 _ ih => exact .applied h1 h2 (ih h')

theorem Spec.At.child {e n m : Expr K} {p q : List Dir} (h : At e p n) (h' : At n q m) : At e (p ++ q) m := by
  induction h with
  | here => exact h'
  | un _ ih => exact .un (ih h')
  | integ _ ih => exact .integ (ih h')
  | left _ ih => exact .left (ih h')
  | right _ ih => exact .right (ih h')

theorem map_under (p d : List Dir) (cs : List (FCall K)) :
    (cs.map (FCall.under d)).map (FCall.under p) = cs.map (FCall.under (p ++ d)) := by
  simp [List.map_map, Function.comp_def, FCall.under_under]

theorem edits (F : Editor K σ) (o : List Dir → Bool) (e₀ : Expr K) : ∀ (e : Expr K) (p : List Dir) (s : σ),
    At e₀ p e → Edits F e₀ p e s (edit F o p e s) := by
  intro e
  induction e using Expr.ind with
  | const | var | fsym | vec =>
    intro p s h
    refine ⟨[.applied [] _], .leaf (by trivial), ?_⟩
    simp only [List.map_cons, List.map_nil, FCall.under, List.append_nil, edit]
    exact .applied h rfl .none
  | un op e ih =>
    intro p s h
    rw [edit]
    cases hm : F.modifies p (.un op e) s with
    | mk b s1 =>
      cases b with
      | throw x =>
        refine ⟨_, .threw (by exact id), ?_⟩
        simp only [List.map_cons, List.map_nil, FCall.under, List.append_nil]
        exact .asked h hm .none
      | ub =>
        refine ⟨_, .ub (by exact id), ?_⟩
        simp only [List.map_cons, List.map_nil, FCall.under, List.append_nil]
        exact .asked h hm .none
      | ok b =>
        simp only [andThen]
        cases b with
        | true =>
          refine ⟨_, .agreed (by exact id), ?_⟩
          simp only [List.map_cons, List.map_nil, FCall.under, List.append_nil]
          exact .asked h hm (.applied h rfl .none)
        | false =>
          obtain ⟨cs, h1, h2⟩ := ih (p ++ [.arg]) s1 (h.child (.un .here))
          simp only [Bool.false_eq_true, if_false]
          generalize edit F o (p ++ [.arg]) e s1 = out at h1 h2
          obtain ⟨r, s2⟩ := out
          refine ⟨.asked [] (.ok false) :: cs.map (FCall.under [.arg]), ?_, ?_⟩
          · have := CallTrace.un (op := op) h1
            revert this; cases r <;> exact id
          · simp only [List.map_cons, map_under, FCall.under, List.append_nil]
            refine .asked h hm ?_
            revert h2; cases r <;> exact id
  | integ lo hi x e _ _ ih =>
    intro p s h
    rw [edit]
    cases hm : F.modifies p (.integ lo hi x e) s with
    | mk b s1 =>
      cases b with
      | throw x =>
        refine ⟨_, .threw (by exact id), ?_⟩
        simp only [List.map_cons, List.map_nil, FCall.under, List.append_nil]
        exact .asked h hm .none
      | ub =>
        refine ⟨_, .ub (by exact id), ?_⟩
        simp only [List.map_cons, List.map_nil, FCall.under, List.append_nil]
        exact .asked h hm .none
      | ok b =>
        simp only [andThen]
        cases b with
        | true =>
          refine ⟨_, .agreed (by exact id), ?_⟩
          simp only [List.map_cons, List.map_nil, FCall.under, List.append_nil]
          exact .asked h hm (.applied h rfl .none)
        | false =>
          obtain ⟨cs, h1, h2⟩ := ih (p ++ [.arg]) s1 (h.child (.integ .here))
          simp only [Bool.false_eq_true, if_false]
          generalize edit F o (p ++ [.arg]) e s1 = out at h1 h2
          obtain ⟨r, s2⟩ := out
          refine ⟨.asked [] (.ok false) :: cs.map (FCall.under [.arg]), ?_, ?_⟩
          · have := CallTrace.integ (lo := lo) (hi := hi) (x := x) h1
            revert this; cases r <;> exact id
          · simp only [List.map_cons, map_under, FCall.under, List.append_nil]
            refine .asked h hm ?_
            revert h2; cases r <;> exact id
  | bin op l r ihl ihr =>
    intro p s h
    rw [edit]
    cases hm : F.modifies p (.bin op l r) s with
    | mk b s1 =>
      cases b with
      | throw x =>
        refine ⟨_, .threw (by exact id), ?_⟩
        simp only [List.map_cons, List.map_nil, FCall.under, List.append_nil]
        exact .asked h hm .none
      | ub =>
        refine ⟨_, .ub (by exact id), ?_⟩
        simp only [List.map_cons, List.map_nil, FCall.under, List.append_nil]
        exact .asked h hm .none
      | ok b =>
        simp only [andThen]
        cases b with
        | true =>
          refine ⟨_, .agreed (by exact id), ?_⟩
          simp only [List.map_cons, List.map_nil, FCall.under, List.append_nil]
          exact .asked h hm (.applied h rfl .none)
        | false =>
          simp only [Bool.false_eq_true, if_false]
          have hl := h.child (.left .here)
          have hr := h.child (.right .here)
          cases o p with
          | true =>
            simp only [if_true]
            obtain ⟨cs, h1, h2⟩ := ihl (p ++ [.left]) s1 hl
            generalize edit F o (p ++ [.left]) l s1 = out at h1 h2
            obtain ⟨l', s2⟩ := out
            cases l' with
            | throw x =>
              refine ⟨_, .binL h1 (by simp), ?_⟩
              simp only [List.map_cons, map_under, FCall.under, List.append_nil]
              exact .asked h hm h2
            | ub =>
              refine ⟨_, .binL h1 (by simp), ?_⟩
              simp only [List.map_cons, map_under, FCall.under, List.append_nil]
              exact .asked h hm h2
            | ok l' =>
              obtain ⟨ds, h3, h4⟩ := ihr (p ++ [.right]) s2 hr
              simp only
              generalize edit F o (p ++ [.right]) r s2 = out at h3 h4
              obtain ⟨r', s3⟩ := out
              refine ⟨.asked [] (.ok false) :: (cs.map (FCall.under [.left]) ++ ds.map (FCall.under [.right])), ?_, ?_⟩
              · have := CallTrace.binLR (op := op) h1 h3
                revert this; cases r' <;> exact id
              · simp only [List.map_cons, List.map_append, map_under, FCall.under, List.append_nil]
                refine .asked h hm (h2.append ?_)
                revert h4; cases r' <;> exact id
          | false =>
            simp only [Bool.false_eq_true, if_false]
            obtain ⟨cs, h1, h2⟩ := ihr (p ++ [.right]) s1 hr
            generalize edit F o (p ++ [.right]) r s1 = out at h1 h2
            obtain ⟨r', s2⟩ := out
            cases r' with
            | throw x =>
              refine ⟨_, .binR h1 (by simp), ?_⟩
              simp only [List.map_cons, map_under, FCall.under, List.append_nil]
              exact .asked h hm h2
            | ub =>
              refine ⟨_, .binR h1 (by simp), ?_⟩
              simp only [List.map_cons, map_under, FCall.under, List.append_nil]
              exact .asked h hm h2
            | ok r' =>
              obtain ⟨ds, h3, h4⟩ := ihl (p ++ [.left]) s2 hl
              simp only
              generalize edit F o (p ++ [.left]) l s2 = out at h3 h4
              obtain ⟨l', s3⟩ := out
              refine ⟨.asked [] (.ok false) :: (cs.map (FCall.under [.right]) ++ ds.map (FCall.under [.left])), ?_, ?_⟩
              · have := CallTrace.binRL (op := op) h3 h1
                revert this; cases l' <;> exact id
              · simp only [List.map_cons, List.map_append, map_under, FCall.under, List.append_nil]
                refine .asked h hm (h2.append ?_)
                revert h4; cases l' <;> exact id

theorem split_cons {α : Type} {x c : α} {L before after : List α} (h : x :: L = before ++ c :: after) :
    (before = [] ∧ c = x ∧ after = L) ∨ ∃ b, before = x :: b ∧ L = b ++ c :: after := by
  cases before with
  | nil => simp only [List.nil_append, List.cons.injEq] at h; exact .inl ⟨rfl, h.1.symm, h.2.symm⟩
  | cons y b =>
    simp only [List.cons_append, List.cons.injEq] at h
    exact .inr ⟨b, by rw [h.1], h.2⟩

theorem split_append {α : Type} {c : α} {A B before after : List α} (h : A ++ B = before ++ c :: after) :
    (∃ a, A = before ++ c :: a ∧ after = a ++ B) ∨ ∃ b, before = A ++ b ∧ B = b ++ c :: after := by
  rcases List.append_eq_append_iff.1 h with ⟨b, h1, h2⟩ | ⟨b, h1, h2⟩
  · exact .inr ⟨b, h1, h2⟩
  · cases b with
    | nil => exact .inr ⟨[], by simpa using h1.symm, by simpa using h2.symm⟩
    | cons y b =>
      simp only [List.cons_append, List.cons.injEq] at h2
      exact .inl ⟨b, by rw [h1, h2.1], h2.2⟩

theorem split_map {α β : Type} {f : α → β} {c : β} {L : List α} {before after : List β}
    (h : L.map f = before ++ c :: after) :
    ∃ b x a, L = b ++ x :: a ∧ before = b.map f ∧ c = f x ∧ after = a.map f := by
  obtain ⟨b, y, rfl, rfl, h2⟩ := List.map_eq_append_iff.1 h
  obtain ⟨x, a, rfl, h3, h4⟩ := List.map_eq_cons_iff.1 h2
  exact ⟨b, x, a, rfl, rfl, h3.symm, h4.symm⟩

/-- A call among those of a node with two operands. -/
theorem split_calls {d d' : List Dir} {L L' : List (FCall K)} {a c : FCall K} {before after : List (FCall K)}
    (h : a :: (L.map (FCall.under d) ++ L'.map (FCall.under d')) = before ++ c :: after) :
    (before = [] ∧ c = a ∧ after = L.map (FCall.under d) ++ L'.map (FCall.under d')) ∨
    (∃ b x z, L = b ++ x :: z ∧ before = a :: b.map (FCall.under d) ∧ c = x.under d ∧
      after = z.map (FCall.under d) ++ L'.map (FCall.under d')) ∨
    (∃ b x z, L' = b ++ x :: z ∧ before = a :: (L.map (FCall.under d) ++ b.map (FCall.under d')) ∧
      c = x.under d' ∧ after = z.map (FCall.under d')) := by
  rcases split_cons h with h | ⟨b, rfl, h0⟩
  · exact .inl h
  · rcases split_append h0 with ⟨z, h1, rfl⟩ | ⟨b', rfl, h1⟩
    · obtain ⟨b0, x, a0, rfl, rfl, rfl, rfl⟩ := split_map h1
      exact .inr (.inl ⟨b0, x, a0, rfl, rfl, rfl, rfl⟩)
    · obtain ⟨b0, x, a0, rfl, rfl, rfl, rfl⟩ := split_map h1
      exact .inr (.inr ⟨b0, x, a0, rfl, rfl, rfl, rfl⟩)

theorem mem_under {d : List Dir} {L : List (FCall K)} {p : List Dir} {b : Res Bool} :
    FCall.asked p b ∈ L.map (FCall.under d) ↔ ∃ q, p = d ++ q ∧ FCall.asked q b ∈ L := by
  constructor
  · intro h
    obtain ⟨c, h1, h2⟩ := List.mem_map.1 h
    cases c with
    | asked q r => simp only [FCall.under, FCall.asked.injEq] at h2; exact ⟨q, h2.1.symm, h2.2 ▸ h1⟩
    | applied q r => cases h2
  · rintro ⟨q, rfl, h⟩; exact List.mem_map.2 ⟨_, h, rfl⟩

theorem mem_under_applied {d : List Dir} {L : List (FCall K)} {p : List Dir} {n : Res (Expr K)} :
    FCall.applied p n ∈ L.map (FCall.under d) ↔ ∃ q, p = d ++ q ∧ FCall.applied q n ∈ L := by
  constructor
  · intro h
    obtain ⟨c, h1, h2⟩ := List.mem_map.1 h
    cases c with
    | applied q r => simp only [FCall.under, FCall.applied.injEq] at h2; exact ⟨q, h2.1.symm, h2.2 ▸ h1⟩
    | asked q r => cases h2
  · rintro ⟨q, rfl, h⟩; exact List.mem_map.2 ⟨_, h, rfl⟩

theorem nodup_under {d : List Dir} {L : List (FCall K)} (h : (L.map FCall.what).Nodup) :
    ((L.map (FCall.under d)).map FCall.what).Nodup := by
  have e : (L.map (FCall.under d)).map FCall.what = (L.map FCall.what).map fun w => (w.1, d ++ w.2) := by
    simp [List.map_map, Function.comp_def]
  rw [e]
  refine h.map ?_
  rintro ⟨a, b⟩ ⟨a', b'⟩ hh
  simp only [Prod.mk.injEq, List.append_cancel_left_eq] at hh
  rw [hh.1, hh.2]

theorem answered_node {d : Dir} {L M : List (FCall K)} {p : List Dir}
    (hM : ∀ c ∈ L, c.under [d] ∈ M) (h : Settled L p) : Settled M (d :: p) := by
  rcases h with h | ⟨q, r, n', rfl, h⟩
  · exact .inl (hM _ h)
  · exact .inr ⟨d :: q, r, n', rfl, hM _ h⟩

/-- The part below one child. -/
theorem at_below {e e₁ n : Expr K} {d : Dir} {p : List Dir} (h : At e [d] e₁) (h' : At e (d :: p) n) :
    At e₁ p n := by
  cases h' with
  | un h' => cases h with | un h => cases h; exact h'
  | integ h' => cases h with | integ h => cases h; exact h'
  | left h' => cases h with | left h => cases h; exact h'
  | right h' => cases h with | right h => cases h; exact h'

theorem Spec.Orderly.nothing (e : Expr K) : Orderly e [] where
  once := by simp
  above := by simp
  agreed := by simp
  obeyed := by simp
  asked := by simp
  finished := by simp
  together q := ⟨[], [], [], by simp⟩

/-- A node that the functor declined to modify. -/
theorem orderly_node {e e₁ e₂ : Expr K} {d d' : Dir} {L L' : List (FCall K)} (hd : d ≠ d')
    (h : Orderly e₁ L) (h' : Orderly e₂ L') (he : L = [] ∨ At e [d] e₁) (he' : L' = [] ∨ At e [d'] e₂)
    (hl : ¬ IsLeaf e) (hf : L' ≠ [] → ∀ p n, At e₁ p n → Settled L p) :
    Orderly e (.asked [] (.ok false) :: (L.map (FCall.under [d]) ++ L'.map (FCall.under [d']))) where
  once := by
    simp only [List.map_cons, List.map_append, List.nodup_cons, List.nodup_append]
    refine ⟨?_, nodup_under h.once, nodup_under h'.once, ?_⟩
    · rintro hm
      simp only [List.mem_append, List.map_map, List.mem_map, Function.comp_apply, FCall.what_under] at hm
      rcases hm with ⟨c, _, h0⟩ | ⟨c, _, h0⟩ <;> simp [FCall.what] at h0
    · intro w hw w' hw'
      simp only [List.map_map, List.mem_map, Function.comp_apply, FCall.what_under] at hw hw'
      obtain ⟨c, _, rfl⟩ := hw
      obtain ⟨c', _, rfl⟩ := hw'
      simp [hd]
  above := by
    intro before c after hs q d1 r hc
    rcases split_calls hs with ⟨_, rfl, _⟩ | ⟨b, x, z, hL, rfl, rfl, _⟩ | ⟨b, x, z, hL, rfl, rfl, _⟩
    · simp [FCall.pos] at hc
    · cases q with
      | nil => simp
      | cons d2 q =>
        simp only [FCall.pos_under, List.cons_append, List.nil_append, List.cons.injEq] at hc
        rw [← hc.1]
        exact List.mem_cons_of_mem _ (mem_under.2 ⟨q, rfl, h.above b x z hL q d1 r hc.2⟩)
    · cases q with
      | nil => simp
      | cons d2 q =>
        simp only [FCall.pos_under, List.cons_append, List.nil_append, List.cons.injEq] at hc
        rw [← hc.1]
        exact List.mem_cons_of_mem _ (List.mem_append_right _
          (mem_under.2 ⟨q, rfl, h'.above b x z hL q d1 r hc.2⟩))
  agreed := by
    intro before p r after hs
    rcases split_calls hs with ⟨_, h0, _⟩ | ⟨b, x, z, hL, rfl, hx, _⟩ | ⟨b, x, z, hL, rfl, hx, _⟩
    · cases h0
    · cases x with
      | asked => cases hx
      | applied q r' =>
        simp only [FCall.under, FCall.applied.injEq] at hx
        obtain ⟨rfl, rfl⟩ := hx
        rcases h.agreed b q r z hL with ⟨n, h1, h2, h3⟩ | ⟨b', rfl⟩
        · rcases he with rfl | he
          · simp at hL
          refine .inl ⟨n, he.child h1, h2, fun b' hb' => ?_⟩
          rcases List.mem_cons.1 hb' with hb' | hb'
          · cases hb'
          · rcases List.mem_append.1 hb' with hb' | hb'
            · obtain ⟨q', hq, hm⟩ := mem_under.1 hb'
              simp only [List.append_cancel_left_eq] at hq
              exact h3 b' (hq ▸ hm)
            · obtain ⟨q', hq, _⟩ := mem_under.1 hb'
              simp [hd] at hq
        · exact .inr ⟨.asked [] (.ok false) :: b'.map (FCall.under [d]), by simp [FCall.under]⟩
    · cases x with
      | asked => cases hx
      | applied q r' =>
        simp only [FCall.under, FCall.applied.injEq] at hx
        obtain ⟨rfl, rfl⟩ := hx
        rcases h'.agreed b q r z hL with ⟨n, h1, h2, h3⟩ | ⟨b', rfl⟩
        · rcases he' with rfl | he
          · simp at hL
          refine .inl ⟨n, he.child h1, h2, fun b' hb' => ?_⟩
          rcases List.mem_cons.1 hb' with hb' | hb'
          · cases hb'
          · rcases List.mem_append.1 hb' with hb' | hb'
            · obtain ⟨q', hq, _⟩ := mem_under.1 hb'
              simp [hd.symm] at hq
            · obtain ⟨q', hq, hm⟩ := mem_under.1 hb'
              simp only [List.append_cancel_left_eq] at hq
              exact h3 b' (hq ▸ hm)
        · exact .inr ⟨.asked [] (.ok false) :: (L.map (FCall.under [d]) ++ b'.map (FCall.under [d'])),
            by simp [FCall.under]⟩
  obeyed := by
    intro before p after hs
    rcases split_calls hs with ⟨_, h0, _⟩ | ⟨b, x, z, hL, rfl, hx, rfl⟩ | ⟨b, x, z, hL, rfl, hx, rfl⟩
    · simp at h0
    · cases x with
      | applied => cases hx
      | asked q r' =>
        simp only [FCall.under, FCall.asked.injEq] at hx
        obtain ⟨rfl, rfl⟩ := hx
        obtain ⟨r, z', rfl⟩ := h.obeyed b q z hL
        exact ⟨r, z'.map (FCall.under [d]) ++ L'.map (FCall.under [d']), by simp [FCall.under]⟩
    · cases x with
      | applied => cases hx
      | asked q r' =>
        simp only [FCall.under, FCall.asked.injEq] at hx
        obtain ⟨rfl, rfl⟩ := hx
        obtain ⟨r, z', rfl⟩ := h'.obeyed b q z hL
        exact ⟨r, z'.map (FCall.under [d']), by simp [FCall.under]⟩
  asked := by
    intro p r hp
    rcases List.mem_cons.1 hp with hp | hp
    · cases hp; exact ⟨e, .here, hl⟩
    · rcases List.mem_append.1 hp with hp | hp
      · obtain ⟨q, rfl, hm⟩ := mem_under.1 hp
        obtain ⟨n, h1, h2⟩ := h.asked q r hm
        rcases he with rfl | he
        · simp at hm
        · exact ⟨n, he.child h1, h2⟩
      · obtain ⟨q, rfl, hm⟩ := mem_under.1 hp
        obtain ⟨n, h1, h2⟩ := h'.asked q r hm
        rcases he' with rfl | he'
        · simp at hm
        · exact ⟨n, he'.child h1, h2⟩
  finished := by
    intro before c after hs q d1 r d2 r2 c' hc hm hc' hne p n hat
    rcases split_calls hs with ⟨_, rfl, _⟩ | ⟨b, x, z, hL, rfl, rfl, _⟩ | ⟨b, x, z, hL, rfl, rfl, _⟩
    · simp [FCall.pos] at hc
    · rcases List.mem_cons.1 hm with rfl | hm
      · simp [FCall.pos] at hc'
      obtain ⟨c', hm1, rfl⟩ := List.mem_map.1 hm
      rw [FCall.pos_under] at hc hc'
      cases q with
      | nil =>
        simp only [List.cons_append, List.nil_append, List.cons.injEq] at hc hc'
        exact absurd (hc'.1.symm.trans hc.1) hne
      | cons d3 q =>
        simp only [List.cons_append, List.nil_append, List.cons.injEq] at hc hc'
        obtain ⟨rfl, hc⟩ := hc
        rcases he with rfl | he
        · simp at hL
        exact answered_node (fun c hc => .tail _ (List.mem_map.2 ⟨c, hc, rfl⟩))
          (h.finished b x z hL q d1 r d2 r2 c' hc hm1 hc'.2 hne p n (at_below he hat))
    · have hL' : L' ≠ [] := by rintro rfl; simp at hL
      rcases List.mem_cons.1 hm with rfl | hm
      · simp [FCall.pos] at hc'
      rw [FCall.pos_under] at hc
      rcases List.mem_append.1 hm with hm | hm
      · obtain ⟨c', hm1, rfl⟩ := List.mem_map.1 hm
        rw [FCall.pos_under] at hc'
        rcases he with rfl | he
        · simp at hm1
        cases q with
        | nil =>
          simp only [List.cons_append, List.nil_append, List.cons.injEq] at hc hc'
          obtain ⟨rfl, _⟩ := hc'
          exact answered_node (fun c hc => .tail _ (List.mem_append_left _ (List.mem_map.2 ⟨c, hc, rfl⟩)))
            (hf hL' p n (at_below he hat))
        | cons d3 q =>
          simp only [List.cons_append, List.nil_append, List.cons.injEq] at hc hc'
          exact absurd (hc'.1.trans hc.1.symm) hd
      · obtain ⟨c', hm1, rfl⟩ := List.mem_map.1 hm
        rw [FCall.pos_under] at hc'
        rcases he' with rfl | he'
        · simp at hL
        cases q with
        | nil =>
          simp only [List.cons_append, List.nil_append, List.cons.injEq] at hc hc'
          exact absurd (hc'.1.symm.trans hc.1) hne
        | cons d3 q =>
          simp only [List.cons_append, List.nil_append, List.cons.injEq] at hc hc'
          obtain ⟨rfl, hc⟩ := hc
          exact answered_node (fun c hc => .tail _ (List.mem_append_right _ (List.mem_map.2 ⟨c, hc, rfl⟩)))
            (h'.finished b x z hL q d1 r d2 r2 c' hc hm1 hc'.2 hne p n (at_below he' hat))
  together := by
    intro q
    cases q with
    | nil => exact ⟨[], _, [], by simp only [List.nil_append, List.append_nil]; exact ⟨rfl, by simp, by simp⟩⟩
    | cons d1 q =>
      by_cases h1 : d1 = d
      · subst h1
        obtain ⟨xs, ys, zs, rfl, hy, hn⟩ := h.together q
        refine ⟨.asked [] (.ok false) :: xs.map (FCall.under [d1]), ys.map (FCall.under [d1]),
          zs.map (FCall.under [d1]) ++ L'.map (FCall.under [d']), by simp, ?_, ?_⟩
        · intro c hc
          obtain ⟨c', h2, rfl⟩ := List.mem_map.1 hc
          simpa using hy c' h2
        · intro c hc
          simp only [List.cons_append, List.mem_cons, List.mem_append, List.mem_map] at hc hn
          rcases hc with rfl | ⟨c', h2, rfl⟩ | ⟨c', h2, rfl⟩ | ⟨c', h2, rfl⟩
          · simp [FCall.pos]
          · simpa using hn c' (.inl h2)
          · simpa using hn c' (.inr h2)
          · simp [hd]
      · by_cases h2 : d1 = d'
        · subst h2
          obtain ⟨xs, ys, zs, rfl, hy, hn⟩ := h'.together q
          refine ⟨.asked [] (.ok false) :: (L.map (FCall.under [d]) ++ xs.map (FCall.under [d1])),
            ys.map (FCall.under [d1]), zs.map (FCall.under [d1]), by simp, ?_, ?_⟩
          · intro c hc
            obtain ⟨c', h2, rfl⟩ := List.mem_map.1 hc
            simpa using hy c' h2
          · intro c hc
            simp only [List.cons_append, List.mem_cons, List.mem_append, List.mem_map] at hc hn
            rcases hc with rfl | (⟨c', h2, rfl⟩ | ⟨c', h2, rfl⟩) | ⟨c', h2, rfl⟩
            · simp [FCall.pos]
            · simp [h1]
            · simpa using hn c' (.inl h2)
            · simpa using hn c' (.inr h2)
        · refine ⟨_, [], [], by simp only [List.append_nil]; rfl, by simp, ?_⟩
          intro c hc
          simp only [List.append_nil, List.mem_cons, List.mem_append, List.mem_map] at hc
          rcases hc with rfl | ⟨c', _, rfl⟩ | ⟨c', _, rfl⟩
          · simp [FCall.pos]
          · simp [h1]
          · simp [h2]

theorem orderly_un {e e₁ : Expr K} {d : Dir} {L : List (FCall K)} (h : Orderly e₁ L) (he : At e [d] e₁) (hl : ¬ IsLeaf e) :
    Orderly e (.asked [] (.ok false) :: L.map (FCall.under [d])) := by
  obtain ⟨d', hd⟩ : ∃ d', d ≠ d' := by
    cases d with
    | left => exact ⟨.right, by simp⟩
    | right | arg => exact ⟨.left, by simp⟩
  have := orderly_node hd h (Orderly.nothing e₁) (.inr he) (.inl rfl) hl (fun h => absurd rfl h)
  simpa using this

@[simp] theorem Spec.FCall.returned_under {d : List Dir} {c : FCall K} : (c.under d).Returned ↔ c.Returned := by
  cases c <;> rfl
@[simp] theorem Spec.FCall.threw_under {d : List Dir} {c : FCall K} {x} : (c.under d).Threw x ↔ c.Threw x := by
  cases c <;> rfl
@[simp] theorem Spec.FCall.undefined_under {d : List Dir} {c : FCall K} :
    (c.under d).Undefined ↔ c.Undefined := by cases c <;> rfl

/-- A call that failed, seen from one node higher up, after other calls that returned. -/
theorem fails_node {P : FCall K → Prop} {d : Dir} {L M : List (FCall K)} (hP : ∀ c, P c → P (c.under [d]))
    (hM : ∀ c ∈ M, c.Returned)
    (h : ∃ before c, L = before ++ [c] ∧ (∀ c ∈ before, c.Returned) ∧ P c) :
    ∃ before c, .asked [] (.ok false) :: (M ++ L.map (FCall.under [d])) = before ++ [c] ∧
      (∀ c ∈ before, c.Returned) ∧ P c := by
  obtain ⟨before, c, rfl, h1, h2⟩ := h
  refine ⟨.asked [] (.ok false) :: (M ++ before.map (FCall.under [d])), c.under [d], by simp, ?_, hP c h2⟩
  intro c hc
  simp only [List.mem_cons, List.mem_append, List.mem_map] at hc
  rcases hc with rfl | hc | ⟨c', hc, rfl⟩
  · exact ⟨_, rfl⟩
  · exact hM c hc
  · exact FCall.returned_under.2 (h1 c' hc)

theorem explains_fail {e e₁ : Expr K} {d : Dir} {L M : List (FCall K)} {r : Res (Expr K)}
    {f : Expr K → Expr K} (h : Explains e₁ L r) (hr : ∀ x, r ≠ .ok x) (hM : ∀ c ∈ M, c.Returned) :
    Explains e (.asked [] (.ok false) :: (M ++ L.map (FCall.under [d]))) (r.map f) := by
  cases r with
  | ok x => exact absurd rfl (hr x)
  | throw x => exact fails_node (fun _ => FCall.threw_under.2) hM h
  | ub => exact fails_node (fun _ => FCall.undefined_under.2) hM h

theorem applied_node {d d' d₀ : Dir} {L L' : List (FCall K)} {p : List Dir} {n : Res (Expr K)} :
    FCall.applied (d₀ :: p) n ∈
      (FCall.asked [] (.ok false) :: (L.map (FCall.under [d]) ++ L'.map (FCall.under [d']))) ↔
    (d₀ = d ∧ FCall.applied p n ∈ L) ∨ (d₀ = d' ∧ FCall.applied p n ∈ L') := by
  simp only [List.mem_cons, List.mem_append, mem_under_applied, List.cons_append, List.nil_append, List.cons.injEq]
  constructor
  · rintro (h | ⟨q, ⟨rfl, rfl⟩, h⟩ | ⟨q, ⟨rfl, rfl⟩, h⟩)
    · cases h
    · exact .inl ⟨rfl, h⟩
    · exact .inr ⟨rfl, h⟩
  · rintro (⟨rfl, h⟩ | ⟨rfl, h⟩)
    · exact .inr (.inl ⟨p, ⟨rfl, rfl⟩, h⟩)
    · exact .inr (.inr ⟨p, ⟨rfl, rfl⟩, h⟩)

theorem applied_root {d d' : Dir} {L L' : List (FCall K)} {n : Res (Expr K)} :
    FCall.applied [] n ∉
      (FCall.asked [] (.ok false) :: (L.map (FCall.under [d]) ++ L'.map (FCall.under [d']))) := by
  simp [mem_under_applied]

/-- A node with two operands that were both finished. -/
theorem explains_bin {op : BOp} {l r l' r' : Expr K} {d d' : Dir} {L L' : List (FCall K)}
    (hd : (d = .left ∧ d' = .right ∧ Explains l L (.ok l') ∧ Explains r L' (.ok r')) ∨
      (d = .right ∧ d' = .left ∧ Explains l L' (.ok l') ∧ Explains r L (.ok r'))) :
    Explains (.bin op l r) (.asked [] (.ok false) :: (L.map (FCall.under [d]) ++ L'.map (FCall.under [d'])))
      (.ok (.bin op l' r')) := by
  rcases hd with ⟨rfl, rfl, ⟨h1, h2, h3⟩, ⟨h1', h2', h3'⟩⟩ | ⟨rfl, rfl, ⟨h1', h2', h3'⟩, ⟨h1, h2, h3⟩⟩
  · refine ⟨?_, ?_, ?_⟩
    · intro c hc
      simp only [List.mem_cons, List.mem_append, List.mem_map] at hc
      rcases hc with rfl | ⟨c', hc, rfl⟩ | ⟨c', hc, rfl⟩
      · exact ⟨_, rfl⟩
      · exact FCall.returned_under.2 (h1 c' hc)
      · exact FCall.returned_under.2 (h1' c' hc)
    · intro p n hp
      cases hp with
      | here => exact .inl (by simp)
      | left hp => exact answered_node (fun c hc => by simp; exact .inr (.inl ⟨c, hc, rfl⟩)) (h2 _ _ hp)
      | right hp => exact answered_node (fun c hc => by simp; exact .inr (.inr ⟨c, hc, rfl⟩)) (h2' _ _ hp)
    · refine .bin (fun n => applied_root) ?_ ?_
      · simpa only [applied_node, true_and, reduceCtorEq, false_and, or_false] using h3
      · simpa only [applied_node, true_and, reduceCtorEq, false_and, false_or] using h3'
  · refine ⟨?_, ?_, ?_⟩
    · intro c hc
      simp only [List.mem_cons, List.mem_append, List.mem_map] at hc
      rcases hc with rfl | ⟨c', hc, rfl⟩ | ⟨c', hc, rfl⟩
      · exact ⟨_, rfl⟩
      · exact FCall.returned_under.2 (h1 c' hc)
      · exact FCall.returned_under.2 (h1' c' hc)
    · intro p n hp
      cases hp with
      | here => exact .inl (by simp)
      | left hp => exact answered_node (fun c hc => by simp; exact .inr (.inr ⟨c, hc, rfl⟩)) (h2' _ _ hp)
      | right hp => exact answered_node (fun c hc => by simp; exact .inr (.inl ⟨c, hc, rfl⟩)) (h2 _ _ hp)
    · refine .bin (fun n => applied_root) ?_ ?_
      · simpa only [applied_node, true_and, reduceCtorEq, false_and, false_or] using h3'
      · simpa only [applied_node, true_and, reduceCtorEq, false_and, or_false] using h3

/-- A node with an argument that was finished. -/
theorem explains_arg {e n n' : Expr K} {L : List (FCall K)} (h : Explains e L (.ok n'))
    (hat : ∀ p m, At n p m → p = [] ∨ ∃ q, p = .arg :: q ∧ At e q m)
    {N : Expr K} (hN : ∀ f, (∀ m, ¬ f [] m) → Edited (fun p => f (.arg :: p)) e n' → Edited f n N) :
    Explains n (.asked [] (.ok false) :: L.map (FCall.under [.arg])) (.ok N) := by
  obtain ⟨h1, h2, h3⟩ := h
  refine ⟨?_, ?_, ?_⟩
  · intro c hc
    simp only [List.mem_cons, List.mem_map] at hc
    rcases hc with rfl | ⟨c', hc, rfl⟩
    · exact ⟨_, rfl⟩
    · exact FCall.returned_under.2 (h1 c' hc)
  · intro p m hp
    rcases hat p m hp with rfl | ⟨q, rfl, hq⟩
    · exact .inl (by simp)
    · exact answered_node (fun c hc => by simp; exact .inr ⟨c, hc, rfl⟩) (h2 _ _ hq)
  · refine hN _ (fun m => ?_) ?_
    · have := applied_root (d := .arg) (d' := .arg) (L := L) (L' := []) (n := .ok m)
      simpa using this
    · have := @applied_node K .arg .left .arg L []
      simp only [List.map_nil, List.append_nil, true_and, reduceCtorEq, false_and, or_false] at this
      simpa only [this] using h3

theorem CallTrace.explains {e : Expr K} {cs r} (h : CallTrace e cs r) : Explains e cs r := by
  induction h with
  | @leaf e r hl =>
    cases r with
    | ok r =>
      refine ⟨by simp [FCall.Returned], fun p n hp => ?_, .new (by simp)⟩
      exact .inr ⟨[], p, r, rfl, by simp⟩
    | throw x => exact ⟨[], _, rfl, by simp, rfl⟩
    | ub => exact ⟨[], _, rfl, by simp, rfl⟩
  | @agreed e r hl =>
    cases r with
    | ok r =>
      refine ⟨by simp [FCall.Returned], fun p n hp => ?_, .new (by simp)⟩
      exact .inr ⟨[], p, r, rfl, by simp⟩
    | throw x => exact ⟨[.asked [] (.ok true)], _, rfl, by simp [FCall.Returned], rfl⟩
    | ub => exact ⟨[.asked [] (.ok true)], _, rfl, by simp [FCall.Returned], rfl⟩
  | threw => exact ⟨[], _, rfl, by simp, rfl⟩
  | ub => exact ⟨[], _, rfl, by simp, rfl⟩
  | @un op e cs r _ ih =>
    cases r with
    | ok r =>
      refine explains_arg ih (fun p m hp => ?_) (fun f => .un)
      cases hp with
      | here => exact .inl rfl
      | un hp => exact .inr ⟨_, rfl, hp⟩
    | throw x => exact explains_fail (M := []) ih (by simp) (by simp)
    | ub => exact explains_fail (M := []) ih (by simp) (by simp)
  | @integ lo hi x e cs r _ ih =>
    cases r with
    | ok r =>
      refine explains_arg ih (fun p m hp => ?_) (fun f => .integ)
      cases hp with
      | here => exact .inl rfl
      | integ hp => exact .inr ⟨_, rfl, hp⟩
    | throw x => exact explains_fail (M := []) ih (by simp) (by simp)
    | ub => exact explains_fail (M := []) ih (by simp) (by simp)
  | @binLR op l r cs ds l' r' _ _ ih ih' =>
    have hM : ∀ c ∈ cs.map (FCall.under [.left]), c.Returned := by
      intro c hc
      obtain ⟨c', hc', rfl⟩ := List.mem_map.1 hc
      exact FCall.returned_under.2 (ih.1 c' hc')
    cases r' with
    | ok r' => exact explains_bin (.inl ⟨rfl, rfl, ih, ih'⟩)
    | throw x => exact explains_fail ih' (by simp) hM
    | ub => exact explains_fail ih' (by simp) hM
  | @binRL op l r cs ds l' r' _ _ ih ih' =>
    have hM : ∀ c ∈ ds.map (FCall.under [.right]), c.Returned := by
      intro c hc
      obtain ⟨c', hc', rfl⟩ := List.mem_map.1 hc
      exact FCall.returned_under.2 (ih'.1 c' hc')
    cases l' with
    | ok l' => exact explains_bin (.inr ⟨rfl, rfl, ih, ih'⟩)
    | throw x => exact explains_fail ih (by simp) hM
    | ub => exact explains_fail ih (by simp) hM
  | binL _ hf ih => exact explains_fail (M := []) ih hf (by simp)
  | binR _ hf ih => exact explains_fail (M := []) ih hf (by simp)

/-- The result of a call without its effect. -/
theorem andThen_ok {α β : Type} {r : Res α × σ} {f : α → σ → Res β × σ} {b : β} (h : (andThen r f).1 = .ok b) :
    ∃ a, r.1 = .ok a ∧ (f a r.2).1 = .ok b := by
  obtain ⟨r, s⟩ := r
  cases r with
  | ok a => exact ⟨a, rfl, h⟩
  | throw => cases h
  | ub => cases h

theorem andThen_ok_intro {α β : Type} {r : Res α × σ} {f : α → σ → Res β × σ} {a : α} {b : β} (h : r.1 = .ok a)
    (h' : ∀ s, (f a s).1 = .ok b) : (andThen r f).1 = .ok b := by
  obtain ⟨r, s⟩ := r
  simp only at h; subst h
  exact h' s

theorem CallTrace.orderly {e : Expr K} {cs r} (h : CallTrace e cs r) : Orderly e cs := by
  induction h with
  | leaf hl =>
    refine ⟨by simp, ?_, ?_, ?_, ?_, ?_, ?_⟩
    · intro before c after hs q d r hc
      rcases split_cons hs with ⟨_, rfl, _⟩ | ⟨b, _, h⟩
      · simp [FCall.pos] at hc
      · simp at h
    · intro before p r after hs
      rcases split_cons hs with ⟨_, h, _⟩ | ⟨b, _, h⟩
      · cases h; exact .inl ⟨_, .here, hl, by simp⟩
      · simp at h
    · intro before p after hs
      rcases split_cons hs with ⟨_, h, _⟩ | ⟨b, _, h⟩
      · cases h
      · simp at h
    · simp
    · intro before c after hs q d r d' r' c' hc hm
      have hp : c.pos = [] := by
        have : c ∈ before ++ c :: after := by simp
        rw [← hs] at this
        simp only [List.mem_cons, List.not_mem_nil, or_false] at this
        subst this; rfl
      rw [hp] at hc
      simp at hc
    · intro q
      cases q with
      | nil => exact ⟨[], _, [], by simp only [List.nil_append, List.append_nil]; exact ⟨rfl, by simp, by simp⟩⟩
      | cons => exact ⟨_, [], [], by simp only [List.append_nil]; rfl, by simp, by simp [FCall.pos]⟩
  | agreed hl =>
    refine ⟨by simp [FCall.what], ?_, ?_, ?_, ?_, ?_, ?_⟩
    · intro before c after hs q d r hc
      rcases split_cons hs with ⟨_, rfl, _⟩ | ⟨b, _, h⟩
      · simp [FCall.pos] at hc
      · rcases split_cons h with ⟨_, rfl, _⟩ | ⟨b, _, h⟩
        · simp [FCall.pos] at hc
        · simp at h
    · intro before p r after hs
      rcases split_cons hs with ⟨_, h, _⟩ | ⟨b, rfl, h⟩
      · cases h
      · rcases split_cons h with ⟨rfl, h, _⟩ | ⟨b, _, h⟩
        · cases h; exact .inr ⟨[], rfl⟩
        · simp at h
    · intro before p after hs
      rcases split_cons hs with ⟨_, h, rfl⟩ | ⟨b, _, h⟩
      · cases h; exact ⟨_, _, rfl⟩
      · rcases split_cons h with ⟨_, h, _⟩ | ⟨b, _, h⟩
        · cases h
        · simp at h
    · intro p r hp
      simp only [List.mem_cons, List.not_mem_nil, or_false, reduceCtorEq, FCall.asked.injEq] at hp
      obtain ⟨rfl, _⟩ := hp
      exact ⟨_, .here, hl⟩
    · intro before c after hs q d r d' r' c' hc hm
      have hp : c.pos = [] := by
        have : c ∈ before ++ c :: after := by simp
        rw [← hs] at this
        simp only [List.mem_cons, List.not_mem_nil, or_false] at this
        rcases this with rfl | rfl <;> rfl
      rw [hp] at hc
      simp at hc
    · intro q
      cases q with
      | nil => exact ⟨[], _, [], by simp only [List.nil_append, List.append_nil]; exact ⟨rfl, by simp, by simp⟩⟩
      | cons => exact ⟨_, [], [], by simp only [List.append_nil]; rfl, by simp, by simp [FCall.pos]⟩
  | threw hl | ub hl =>
    refine ⟨by simp, ?_, ?_, ?_, ?_, ?_, ?_⟩
    · intro before c after hs q d r hc
      rcases split_cons hs with ⟨_, rfl, _⟩ | ⟨b, _, h⟩
      · simp [FCall.pos] at hc
      · simp at h
    · intro before p r after hs
      rcases split_cons hs with ⟨_, h, _⟩ | ⟨b, _, h⟩
      · cases h
      · simp at h
    · intro before p after hs
      rcases split_cons hs with ⟨_, h, _⟩ | ⟨b, _, h⟩
      · simp at h
      · simp at h
    · intro p r hp
      simp only [List.mem_cons, List.not_mem_nil, or_false, FCall.asked.injEq] at hp
      obtain ⟨rfl, _⟩ := hp
      exact ⟨_, .here, hl⟩
    · intro before c after hs q d r d' r' c' hc hm
      have hp : c.pos = [] := by
        have : c ∈ before ++ c :: after := by simp
        rw [← hs] at this
        simp only [List.mem_cons, List.not_mem_nil, or_false] at this
        subst this; rfl
      rw [hp] at hc
      simp at hc
    · intro q
      cases q with
      | nil => exact ⟨[], _, [], by simp only [List.nil_append, List.append_nil]; exact ⟨rfl, by simp, by simp⟩⟩
      | cons => exact ⟨_, [], [], by simp only [List.append_nil]; rfl, by simp, by simp [FCall.pos]⟩
  | un _ ih => exact orderly_un ih (.un .here) id
  | integ _ ih => exact orderly_un ih (.integ .here) id
  | binLR h _ ih ih' =>
    exact orderly_node (by simp) ih ih' (.inr (.left .here)) (.inr (.right .here)) id fun _ => h.explains.2.1
  | binRL _ h ih ih' =>
    exact orderly_node (by simp) ih' ih (.inr (.right .here)) (.inr (.left .here)) id fun _ => h.explains.2.1
  | binL _ _ ih => exact orderly_un ih (.left .here) id
  | binR _ _ ih => exact orderly_un ih (.right .here) id

end VM
