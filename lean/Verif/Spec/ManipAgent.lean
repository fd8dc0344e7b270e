import Verif.Rt.ManipAgent
import Verif.Rt.HeapMakes
/-
What a manipulation functor with a state has to do.
-/
namespace VM.Spec
variable {K σ : Type}

/-- What a functor answers, and what its state is then: this may depend on the address of the node that it is called on,
on the expression there, and on its state. -/
structure Replies (K σ : Type) where
  apply : Nat → Expr K → σ → Res (Expr K) × σ
  modifies : Nat → Expr K → σ → Res Bool × σ

/-- The functor for the calls on the nodes of one expression, whose nodes are where `pos` says. -/
def Replies.on (A : Replies K σ) (pos : List Dir → Nat) : Editor K σ where
  apply p := A.apply (pos p)
  modifies p := A.modifies (pos p)

/-- How a call ended that started with the heap `h`, should give `out.1` and should leave the functor in the state
`out.2`.  What the state refers to is in order (`I`) after the call, however it ended.
* A value: its nodes `F` are new; nothing else is allocated that was not before except `L`, if this is admitted (`Lk`):
  it belongs to the functor.
* The exception that was to be expected.
* There is no memory. -/
inductive Obeys (I : σ → Heap K → Prop) (Lk : Prop) (h : Heap K) (out : Res (Expr K) × σ) :
    Out (Heap K × σ) Nat → Prop
  | ok {e a h' F L} : out.1 = .ok e → Own h'.cells a e F → Adds h h' (F ++ L) → (Lk ∨ L = []) → I out.2 h' →
      Obeys I Lk h out (.ok a (h', out.2))
  | throw {x h' L} : out.1 = .throw x → Adds h h' L → I out.2 h' → Obeys I Lk h out (.throw x (h', out.2))
  | memory {h' t L} : Adds h h' L → h.Scarce h' → I t h' → Obeys I Lk h out (.throw .badAlloc (h', t))

/-- The functor answers as `A` says and gives its results away.  It may refer to things in memory that belong to it: `I`
says that these are in order; code that only adds nodes to the heap does not change this. -/
structure Honest (I : σ → Heap K → Prop) (Lk : Prop) (A : Replies K σ) (F : Agent K σ) : Prop where
  keeps : ∀ t h h' L, I t h → Adds h h' L → I t h'
  apply : ∀ h a e G t, h.WF → Own h.cells a e G → I t h → Obeys I Lk h (A.apply a e t) (F.apply a (h, t))
  modifies : ∀ h a e G t, h.WF → Own h.cells a e G → I t h →
    ((∃ b, (A.modifies a e t).1 = .ok b ∧ F.modifies a (h, t) = .ok b (h, (A.modifies a e t).2)) ∨
      ∃ x, (A.modifies a e t).1 = .throw x ∧ F.modifies a (h, t) = .throw x (h, (A.modifies a e t).2)) ∧
    I (A.modifies a e t).2 h

end VM.Spec
