import Verif.Rt.ManipStateLemmas
import Verif.Rt.Dec
import Verif.NumRat
/-
Property C105: manipulation functors with a state.
-/
namespace VM.Props
open Spec
variable {K σ : Type}

/-- C105.  Whatever a manipulation functor answers and does, and whichever operand the compiler chooses first, a
manipulation consists of calls of its two functions: none twice on the same node, none below a node that it did not
decline to modify before; `operator()` exactly on the leaves that are reached and, at once, on the nodes it agreed to
modify; those on a node and below it not interrupted by
others, and one operand of a node finished before the other is begun.  The functor is in the state that these calls, in this
order, lead to.  If a result comes out, every node is at or below one that `operator()` was called on or was declined,
and the result is the expression with the results of `operator()` in the places of the nodes it was called on.  If an
exception leaves, the last call threw it, and no other call threw one. -/
theorem C105_calls (F : Editor K σ) (o : List Dir → Bool) (e : Expr K) (s : σ) :
    ∃ cs, Orderly e cs ∧ Made F.modifies F.apply e cs s (recursiveManipulation F o e s).2 ∧
      Explains e cs (recursiveManipulation F o e s).1 := by
  obtain ⟨cs, h1, h2⟩ := edits F o e e [] s .here
  refine ⟨cs, h1.orderly, ?_, h1.explains⟩
  have : cs.map (FCall.under []) = cs := by
    have : (FCall.under [] : FCall K → FCall K) = id := by funext c; cases c <;> rfl
    rw [this, List.map_id]
  rw [this] at h2
  exact h2

/-- C105.  If what the functor answers does not depend on the state, then neither does the result, nor on the order in
which the operands are treated (but which exception leaves may). -/
theorem C105_order (F : Editor K σ) (ha : ∀ p n s s', (F.apply p n s).1 = (F.apply p n s').1)
    (hm : ∀ p n s s', (F.modifies p n s).1 = (F.modifies p n s').1) (o o' : List Dir → Bool) (e e' : Expr K)
    (s s' : σ) (h : (recursiveManipulation F o e s).1 = .ok e') :
    (recursiveManipulation F o' e s').1 = .ok e' := by
  have key : ∀ (e e' : Expr K) (p : List Dir) (s s' : σ), (edit F o p e s).1 = .ok e' →
      (edit F o' p e s').1 = .ok e' := by
    intro e
    induction e using Expr.ind with
    | const | var | fsym | vec => intro e' p s s' h; rw [edit] at h ⊢ <;> simp_all [ha p _ s' s]
    | un op e ih | integ lo hi x e _ _ ih =>
      intro e' p s s' h
      rw [edit] at h ⊢
      obtain ⟨b, h1, h2⟩ := andThen_ok h
      refine andThen_ok_intro ((hm _ _ _ s).trans h1) fun s1 => ?_
      cases b with
      | true => exact (ha _ _ _ _).trans h2
      | false =>
        simp only [Bool.false_eq_true, if_false] at h2 ⊢
        obtain ⟨a, h3, h4⟩ := andThen_ok h2
        exact andThen_ok_intro (ih a _ _ _ h3) fun _ => h4
    | bin op l r ihl ihr =>
      intro e' p s s' h
      rw [edit] at h ⊢
      obtain ⟨b, h1, h2⟩ := andThen_ok h
      refine andThen_ok_intro ((hm _ _ _ s).trans h1) fun s1 => ?_
      cases b with
      | true => exact (ha _ _ _ _).trans h2
      | false =>
        simp only [Bool.false_eq_true, if_false] at h2 ⊢
        obtain ⟨l', r', s2, s3, hl, hr, rfl⟩ : ∃ l' r' s2 s3, (edit F o (p ++ [.left]) l s2).1 = .ok l' ∧
            (edit F o (p ++ [.right]) r s3).1 = .ok r' ∧ e' = .bin op l' r' := by
          cases ho : o p with
          | true =>
            rw [if_pos ho] at h2
            obtain ⟨a, h3, h4⟩ := andThen_ok h2
            obtain ⟨a', h5, h6⟩ := andThen_ok h4
            exact ⟨a, a', _, _, h3, h5, by simpa using h6.symm⟩
          | false =>
            rw [if_neg (by simp [ho])] at h2
            obtain ⟨a, h3, h4⟩ := andThen_ok h2
            obtain ⟨a', h5, h6⟩ := andThen_ok h4
            exact ⟨a', a, _, _, h5, h3, by simpa using h6.symm⟩
        by_cases ho : o' p
        · rw [if_pos ho]
          exact andThen_ok_intro (ihl l' _ s2 _ hl) fun _ => andThen_ok_intro (ihr r' _ s3 _ hr) fun _ => rfl
        · rw [if_neg ho]
          exact andThen_ok_intro (ihr r' _ s3 _ hr) fun _ => andThen_ok_intro (ihl l' _ s2 _ hl) fun _ => rfl
  exact key e e' [] s s' h

/-- C105.  A functor that looks at nothing but the node does what C26 says. -/
theorem C105_stateless (F : Editor K σ) (G : Manip K) (ha : ∀ p n s, (F.apply p n s).1 = G.apply n)
    (hm : ∀ p n s, (F.modifies p n s).1 = .ok (G.modifies n)) (o : List Dir → Bool) (e e' : Expr K) (s : σ) :
    (recursiveManipulation F o e s).1 = .ok e' ↔ manipulate G e = .ok e' := by
  have key : ∀ (e : Expr K) (p : List Dir) (s : σ), (edit F (fun _ => true) p e s).1 = manipulate G e := by
    have at1 : ∀ {α β : Type} {r : Res α × σ} {f : α → σ → Res β × σ} {g : α → Res β},
        (∀ a s, (f a s).1 = g a) → (andThen r f).1 = r.1.bind g := by
      rintro α β ⟨r, s⟩ f g h
      cases r <;> simp [andThen, h, Res.bind]
    intro e
    induction e using Expr.ind with
    | const | var | fsym | vec => intro p s; simp only [edit, manipulate, ha]
    | un op e ih =>
      intro p s
      rw [edit, manipulate]
      rw [at1 (g := fun b => if b then G.apply (.un op e) else (manipulate G e).map (.un op)), hm]
      · rfl
      · intro b s
        cases b
        · simp only [Bool.false_eq_true, if_false]
          rw [at1 (g := fun e' => .ok (.un op e')), ih]; · rfl
          · intros; rfl
        · simp only [if_true, ha]
    | integ lo hi x e _ _ ih =>
      intro p s
      rw [edit, manipulate]
      rw [at1 (g := fun b => if b then G.apply (.integ lo hi x e) else (manipulate G e).map (.integ lo hi x)), hm]
      · rfl
      · intro b s
        cases b
        · simp only [Bool.false_eq_true, if_false]
          rw [at1 (g := fun e' => .ok (.integ lo hi x e')), ih]; · rfl
          · intros; rfl
        · simp only [if_true, ha]
    | bin op l r ihl ihr =>
      intro p s
      rw [edit, manipulate]
      rw [at1 (g := fun b => if b then G.apply (.bin op l r) else
        (manipulate G l).bind fun l' => (manipulate G r).map (.bin op l')), hm]
      · rfl
      · intro b s
        cases b
        · simp only [Bool.false_eq_true, if_false, if_true]
          rw [at1 (g := fun l' => (manipulate G r).map (.bin op l')), ihl]
          intro l' s
          rw [at1 (g := fun r' => .ok (.bin op l' r')), ihr]; · rfl
          · intros; rfl
        · simp only [if_true, ha]
  have ind1 : ∀ p n s s', (F.apply p n s).1 = (F.apply p n s').1 := fun p n s s' => by rw [ha, ha]
  have ind2 : ∀ p n s s', (F.modifies p n s).1 = (F.modifies p n s').1 := fun p n s s' => by rw [hm, hm]
  constructor
  · intro h
    have := C105_order F ind1 ind2 o (fun _ => true) e e' s s h
    rwa [recursiveManipulation, key] at this
  · intro h
    rw [← key e [] s] at h
    exact C105_order F ind1 ind2 (fun _ => true) o e e' s s h

/-- A functor that puts a new variable in the place of every leaf, and counts them. -/
def numbering : Editor Rat Nat where
  apply _ _ n := (.ok (.var n), n + 1)
  modifies _ _ n := (.ok false, n)

/-- C105.  Otherwise the order shows: numbering the leaves of x + y gives x_0 + x_1 or x_1 + x_0. -/
theorem C105_order_shows : ∃ (F : Editor Rat Nat) (e : Expr Rat) (s : Nat),
    (recursiveManipulation F (fun _ => true) e s).1 ≠ (recursiveManipulation F (fun _ => false) e s).1 :=
  ⟨numbering, .bin .plus (.var 5) (.var 5), 0, by decide +kernel⟩

/-- exp(x) + y with its leaves numbered, right operand first; the functor has been called on two leaves. -/
example : recursiveManipulation numbering (fun _ => false) (.bin .plus (.un (.fn .exp) (.var 5)) (.var 6)) 0 =
    (.ok (.bin .plus (.un (.fn .exp) (.var 1)) (.var 0)), 2) := by decide +kernel

/-- A functor that modifies the first unary node it is asked about and throws at the second leaf it meets. -/
def moody : Editor Rat (Bool × Bool) where
  apply _ n s :=
    match n with
    | .un _ _ => (.ok (.const 7), s)
    | _ => if s.2 then (.throw .notEvaluable, s) else (.ok (.const 1), (s.1, true))
  modifies _ n s :=
    match n with
    | .un _ _ => (.ok !s.1, (true, s.2))
    | _ => (.ok false, s)

/-- exp(x) * (exp(y) + 2): the first exp is replaced, the leaf y becomes 1, and the leaf 2 is too much. -/
example : recursiveManipulation moody (fun _ => true)
      (.bin .mult (.un (.fn .exp) (.var 0)) (.bin .plus (.un (.fn .exp) (.var 1)) (.const 2))) (false, false) =
    (.throw .notEvaluable, (true, true)) := by decide +kernel
example : recursiveManipulation moody (fun _ => true)
      (.bin .mult (.un (.fn .exp) (.var 0)) (.un (.fn .exp) (.var 1))) (false, false) =
    (.ok (.bin .mult (.const 7) (.un (.fn .exp) (.const 1))), (true, true)) := by decide +kernel

/-- The hypotheses of `C105_order` are met by functors that keep statistics. -/
example : ∃ F : Editor Rat Nat, (∀ p n s s', (F.apply p n s).1 = (F.apply p n s').1) ∧
    (∀ p n s s', (F.modifies p n s).1 = (F.modifies p n s').1) ∧
    recursiveManipulation F (fun _ => false) (.bin .plus (.var 5) (.var 6)) 0 =
      (.ok (.bin .plus (.var 5) (.var 6)), 3) :=
  ⟨⟨fun _ n s => (.ok n, s + 1), fun _ _ s => (.ok false, s + 1)⟩, fun _ _ _ _ => rfl, fun _ _ _ _ => rfl,
    by decide +kernel⟩

end VM.Props
