import Verif.Rt.WalkLemmas
import Verif.Rt.Traverse
import Verif.Rt.Dec
import Verif.NumRat
/-
Property C108: traversal functors with a state.
-/
namespace VM.Props
open Spec
variable {K σ : Type}

/-- C108.  Whatever a traversal functor answers and does, a traversal consists of calls of its two functions: none twice
on the same node; `step_into` on the binary nodes that are reached and on nothing else, before anything else happens at
or below the node; nothing below a node that it declined to step into, which is visited at once; otherwise what is below
the left operand, then the node, then what is below the right operand, and a unary node before what is below its
argument.  The functor is in the state that these calls, in this order, lead to.  If the traversal ends normally, all
calls returned, and every node was visited that is not below one that was declined.  If an exception leaves, the last
call threw it, and no other call threw one. -/
theorem C108_calls (V : Walker K σ) (e : Expr K) (s : σ) :
    ∃ cs, InOrder e cs ∧ Walked V.stepInto V.visit e cs s (recursiveTraversal V e s).2 ∧
      Completes e cs (recursiveTraversal V e s).1 := by
  obtain ⟨cs, h1, h2⟩ := walks V e e [] s .here
  refine ⟨cs, h1.inOrder, ?_, h1.completes⟩
  have : cs.map (WCall.under []) = cs := by
    have : WCall.under [] = id := by funext c; cases c <;> rfl
    rw [this, List.map_id]
  rw [this] at h2
  exact h2

/-- C108.  These rules leave the traversal no choice: two lists of calls that obey them, answered by the same functor
from the same state, are the same. -/
theorem C108_only (V : Walker K σ) (e : Expr K) (s s₁ s₂ : σ) (r₁ r₂ : Res Unit) (cs ds : List WCall)
    (h₁ : InOrder e cs) (w₁ : Walked V.stepInto V.visit e cs s s₁) (c₁ : Completes e cs r₁)
    (h₂ : InOrder e ds) (w₂ : Walked V.stepInto V.visit e ds s s₂) (c₂ : Completes e ds r₂) :
    cs = ds ∧ s₁ = s₂ ∧ r₁ = r₂ := by
  obtain ⟨rfl, rfl⟩ := same_calls cs ds [] s s₁ s₂ h₁ c₁ w₁ h₂ c₂ w₂
  exact ⟨rfl, rfl, same_result c₁ c₂⟩

/-- A functor whose `step_into` looks at nothing but the node and the state and changes nothing, as in C25; the state is
lost if it throws. -/
def ofVisitor (V : Visitor K σ) : Walker K σ where
  visit _ n s := match V.visit n s with
    | .ok s' => (.ok (), s')
    | .throw x => (.throw x, s)
    | .ub => (.ub, s)
  stepInto _ n s := (.ok (V.stepInto n s), s)

/-- C108.  For these functors, a traversal is what C25 speaks of. -/
theorem C108_visitor (V : Visitor K σ) (e : Expr K) (s : σ) :
    traverse V e s = match recursiveTraversal (ofVisitor V) e s with
      | (.ok (), s') => .ok s'
      | (.throw x, _) => .throw x
      | (.ub, _) => .ub := by
  have key : ∀ (e : Expr K) (p : List Dir) (s : σ), traverse V e s = match walk (ofVisitor V) p e s with
      | (.ok (), s') => .ok s'
      | (.throw x, _) => .throw x
      | (.ub, _) => .ub := by
    intro e
    induction e using Expr.ind with
    | const | var | fsym | vec => intro p s; simp only [traverse, walk, ofVisitor]; cases V.visit _ s <;> rfl
    | un op e ih =>
      intro p s
      simp only [traverse, walk, ofVisitor]
      cases V.visit _ s with
      | ok s' => exact ih _ s'
      | throw | ub => rfl
    | integ lo hi x e _ _ ih =>
      intro p s
      simp only [traverse, walk, ofVisitor]
      cases V.visit _ s with
      | ok s' => exact ih _ s'
      | throw | ub => rfl
    | bin op l r ihl ihr =>
      intro p s
      simp only [traverse, walk]
      cases hs : V.stepInto (.bin op l r) s with
      | false =>
        simp only [ofVisitor, hs, andThen, Bool.false_eq_true, if_false]
        cases V.visit _ s <;> rfl
      | true =>
        have hs' : (ofVisitor V).stepInto p (.bin op l r) s = (.ok true, s) := by simp [ofVisitor, hs]
        simp only [hs', andThen, if_true]
        rw [ihl (p ++ [.left]) s]
        generalize walk (ofVisitor V) (p ++ [.left]) l s = out
        obtain ⟨r1, s1⟩ := out
        cases r1 with
        | throw | ub => rfl
        | ok u =>
          simp only [Res.bind_ok]
          cases hv : V.visit (.bin op l r) s1 with
          | ok s2 =>
            have : (ofVisitor V).visit p (.bin op l r) s1 = (.ok (), s2) := by simp [ofVisitor, hv]
            simp only [this, Res.bind_ok]
            exact ihr _ s2
          | throw x =>
            have : (ofVisitor V).visit p (.bin op l r) s1 = (.throw x, s1) := by simp [ofVisitor, hv]
            simp only [this]; rfl
          | ub =>
            have : (ofVisitor V).visit p (.bin op l r) s1 = (.ub, s1) := by simp [ofVisitor, hv]
            simp only [this]; rfl
  exact key e [] s

/-- Looks for the first `n` variables: notes where it finds one, does not step into nodes any more when it has found
them, and throws if it comes across a number before that. -/
def finder (n : Nat) : Walker Rat (List (List Dir)) where
  visit p
    | .var _, s => if s.length < n then (.ok (), s ++ [p]) else (.ok (), s)
    | .const _, s => if s.length < n then (.throw .notEvaluable, s) else (.ok (), s)
    | _, s => (.ok (), s)
  stepInto _ _ s := (.ok (s.length < n), s)

/-- `(x + y) * (x + 2)`: with two variables to be found the second operand of the product is not entered; with four, the
number ends it. -/
example : (let e : Expr Rat := .bin .mult (.bin .plus (.var 0) (.var 1)) (.bin .plus (.var 0) (.const 2))
    recursiveTraversal (finder 2) e [] = (.ok (), [[.left, .left], [.left, .right]]) ∧
    recursiveTraversal (finder 4) e [] =
      (.throw .notEvaluable, [[.left, .left], [.left, .right], [.right, .left]])) := by
  constructor <;> decide +kernel

end VM.Props
