import Verif.Rt.Wrapper
import Verif.Spec.Traverse
/-
Wrappers without pointers: a wrapper has a functor or it has none.
-/
namespace VM.Spec
variable {F : Type}

/-- Functors made and not yet given to a wrapper, how many were made, and what the wrappers have. -/
structure Wrappers (F : Type) where
  waiting : Nat → Option F
  made : Nat
  has : Nat → Option (Option F)

def Wrappers.none : Wrappers F := ⟨fun _ => Option.none, 0, fun _ => Option.none⟩

/-- What a program may do and what it does: a functor is given to one wrapper only; copying and assigning pass the functor
on and leave the source without one; only wrappers with a functor may be called. -/
inductive WPasses : Wrappers F → WOp F → Wrappers F → Option F → Prop
  | new (s : Wrappers F) (f : F) : WPasses s (.new f) { s with waiting := putAt s.waiting s.made (some f), made := s.made + 1 } .none
  | wrap (s : Wrappers F) (w p : Nat) (f : F) : s.has w = .none → s.waiting p = some f →
      WPasses s (.wrap w p) { s with waiting := putAt s.waiting p .none, has := putAt s.has w (some (some f)) } .none
  | copy (s : Wrappers F) (w w' : Nat) (v : Option F) : s.has w = .none → s.has w' = some v →
      WPasses s (.copy w w') { s with has := putAt (putAt s.has w' (some .none)) w (some v) } .none
  | assignSelf (s : Wrappers F) (w : Nat) (v : Option F) : s.has w = some v → WPasses s (.assign w w) s .none
  | assign (s : Wrappers F) (w w' : Nat) (u v : Option F) : w ≠ w' → s.has w = some u → s.has w' = some v →
      WPasses s (.assign w w') { s with has := putAt (putAt s.has w' (some .none)) w (some v) } .none
  | destroy (s : Wrappers F) (w : Nat) (u : Option F) : s.has w = some u →
      WPasses s (.destroy w) { s with has := putAt s.has w .none } .none
  | call (s : Wrappers F) (w : Nat) (f : F) : s.has w = some (some f) → WPasses s (.call w) s (some f)

/-- Programs, with the functors they call. -/
inductive Program : Wrappers F → List (WOp F) → Wrappers F → List F → Prop
  | nil (s : Wrappers F) : Program s [] s []
  | cons {s t u : Wrappers F} {op : WOp F} {ops : List (WOp F)} {c : Option F} {cs : List F} :
      WPasses s op t c → Program t ops u cs → Program s (op :: ops) u (c.toList ++ cs)

/-- The nodes of a class: `constant`, `variable`, `function_symbol`, `unary_expr` (integrals over intervals are unary
expressions), `binary_expr`, vectors. -/
def InClass {K : Type} : NodeClass → Expr K → Prop
  | .constant, e => ∃ c, e = .const c
  | .variable, e => ∃ i, e = .var i
  | .symbol, e => ∃ i t, e = .fsym i t
  | .unary, e => (∃ op a, e = .un op a) ∨ ∃ lo hi x a, e = .integ lo hi x a
  | .binary, e => ∃ op l r, e = .bin op l r
  | .vector, e => ∃ es, e = .vec es

/-- The members of the list with `P`, in the same order. -/
inductive Picks {α : Type} (P : α → Prop) : List α → List α → Prop
  | nil : Picks P [] []
  | take {a l m} : P a → Picks P l m → Picks P (a :: l) (a :: m)
  | skip {a l m} : ¬ P a → Picks P l m → Picks P (a :: l) m

end VM.Spec
