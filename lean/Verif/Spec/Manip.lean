import Verif.Rt.ManipHeap
import Verif.Rt.HeapMakes
/-
What a manipulation functor has to do: the sentence on `operator()` in functor_wrapper.hpp 42-43.
-/
namespace VM.Spec
variable {K : Type} [Num K]

/-- The functor computes `F` and gives its result away: called on any expression `e` in memory, it returns the address
of a new tree that shows `F.apply e`, with nodes that nobody else has, leaves everything in memory as it was and nothing
else behind; or it throws because `F.apply e` is an exception or there is no memory, and leaves everything as it was.
It has no undefined behaviour. -/
def GivesAway (F : Manip K) (act : Nat → Act K Nat) : Prop :=
  ∀ h a e G, h.WF → Own h.cells a e G → Ends False False h (F.apply e) (act a h)

/-- What a recipe stands for. -/
def dish (e : Expr K) : Recipe K → Option (Expr K)
  | .part ks => part e ks
  | .const c => some (.const c)
  | .var i => some (.var i)
  | .fsym i t => some (.fsym i t)
  | .un op x => (dish e x).map (.un op)
  | .bin op x y => (dish e x).bind fun l => (dish e y).map (.bin op l)

/-- The functor that follows a plan. -/
def planned (modifies : Expr K → Bool) (plan : Expr K → Except Exc (Recipe K)) : Manip K where
  modifies := modifies
  apply e := match plan e with
    | .ok r => match dish e r with
      | some x => .ok x
      | none => .ub
    | .error x => .throw x

/-- The parts that the plan asks for exist. -/
def Sound (plan : Expr K → Except Exc (Recipe K)) : Prop := ∀ e r, plan e = .ok r → dish e r ≠ none

end VM.Spec
