import Verif.Rt.Pair
import Verif.Spec.Heap
/-
What programs with equations and intervals mean if each of them simply holds two values of its own.
-/
namespace VM.Spec
variable {K : Type}

/-- All objects that are alive, and which of them are members of pairs. -/
structure PStore (K : Type) where
  objs : Store K
  pairs : Nat → Option PairKind

def PStore.empty : PStore K := ⟨.empty, fun _ => none⟩

/-- A pair with the given sides. -/
def PStore.put (σ : PStore K) (k : PairKind) (p : Nat) (l r : Option (Expr K)) : PStore K :=
  ⟨(σ.objs.set (first p) (some (.expr l))).set (second p) (some (.expr r)), fun q => if q = p then some k else σ.pairs q⟩

def PStore.drop (σ : PStore K) (p : Nat) : PStore K :=
  ⟨(σ.objs.set (first p) none).set (second p) none, fun q => if q = p then none else σ.pairs q⟩

/-- Nothing has the numbers of pair `p` yet. -/
def PStore.Free (σ : PStore K) (p : Nat) : Prop :=
  σ.pairs p = none ∧ σ.objs (first p) = none ∧ σ.objs (second p) = none

/-- Pair `p` is of class `k` and has the sides `l`, `r`. -/
def PStore.Has (σ : PStore K) (k : PairKind) (p : Nat) (l r : Option (Expr K)) : Prop :=
  σ.pairs p = some k ∧ σ.objs (first p) = some (.expr l) ∧ σ.objs (second p) = some (.expr r)

/-- The effect of a statement that is used as it may be used.  There is no rule for the assignment of intervals. -/
inductive PExec [Num K] (σ : PStore K) : PStmt K → PStore K → Prop
  | single {c τ} : Exec σ.objs c τ → σ.pairs (subject c / 2) = none → PExec σ (.single c) ⟨τ, σ.pairs⟩
  | declEq {p} : σ.Free p → PExec σ (.decl .equation p) (σ.put .equation p none none)
  | declInt {p} : σ.Free p →
      PExec σ (.decl .interval p) (σ.put .interval p (some (.const (Num.lit 0))) (some (.const (Num.lit 1))))
  | make {k p l r x y} : σ.Free p → look σ.objs l = some x → look σ.objs r = some y →
      PExec σ (.make k p l r) (σ.put k p (some x) (some y))
  /-- an equation may be copied even if its sides are missing -/
  | copyEq {p q x y} : σ.Free p → σ.Has .equation q x y → PExec σ (.copy .equation p q) (σ.put .equation p x y)
  | copyInt {p q x y} : σ.Free p → σ.Has .interval q (some x) (some y) →
      PExec σ (.copy .interval p q) (σ.put .interval p (some x) (some y))
  | assign {p q u v x y} : σ.Has .equation p u v → σ.Has .equation q (some x) (some y) →
      PExec σ (.assign .equation p q) (σ.put .equation p (some x) (some y))
  | destroy {k p x y} : σ.Has k p x y → PExec σ (.destroy p) (σ.drop p)

/-- What a statement may have done if the memory ran out in the middle of it: construction has no effect, an
assignment may have replaced the left side. -/
inductive POutOf [Num K] (σ : PStore K) : PStmt K → PStore K → Prop
  | single {c τ} : OutOf σ.objs c τ → POutOf σ (.single c) ⟨τ, σ.pairs⟩
  | decl {p} : POutOf σ (.decl .interval p) σ
  | make {k p l r} : POutOf σ (.make k p l r) σ
  | copy {k p q} : POutOf σ (.copy k p q) σ
  | assign {p q} : POutOf σ (.assign .equation p q) σ
  | assignLeft {p q u v x y} : σ.Has .equation p u v → σ.Has .equation q (some x) y →
      POutOf σ (.assign .equation p q) (σ.put .equation p (some x) v)

/-- The statement throws for another reason. -/
def PThrowing [Num K] (σ : PStore K) : PStmt K → Prop
  | .single c => Throwing σ.objs c
  | _ => False

/-- The effects a statement may have on a machine without enough memory; `true`: it threw. -/
inductive POutcome [Num K] (σ : PStore K) (c : PStmt K) : Bool → PStore K → Prop
  | normal {τ} : PExec σ c τ → ¬ PThrowing σ c → POutcome σ c false τ
  | threw {τ} : PExec σ c τ → PThrowing σ c → POutcome σ c true τ
  | noMemory {τ} : POutOf σ c τ → POutcome σ c true τ

/-- Whatever the statements of the program do, the objects are used as they may be used. -/
def PSafe [Num K] (σ : PStore K) : PClient K → Prop
  | .done => True
  | .step c p q => (∃ τ, PExec σ c τ) ∧ ∀ τ, (POutcome σ c false τ → PSafe τ p) ∧ (POutcome σ c true τ → PSafe τ q)

/-- How the program goes on. -/
def prest : Bool → PClient K → PClient K → PClient K
  | false, p, _ => p
  | true, _, q => q

/-- The effects the program may have. -/
inductive PRan [Num K] : PStore K → PClient K → PStore K → Prop
  | done {σ} : PRan σ .done σ
  | step {σ c b τ p q υ} : POutcome σ c b τ → PRan τ (prest b p q) υ → PRan σ (.step c p q) υ

/-- The program `p`, started in `s`, gets to a point where `q` is left of it and the state is `t`. -/
inductive PReaches [Num K] (o : Nat → Bool) : PClient K → PState K → PClient K → PState K → Prop
  | refl {p s} : PReaches o p s p s
  | ok {c p q s s' r t} : c.exec o s = .ok () s' → PReaches o p s' r t → PReaches o (.step c p q) s r t
  | threw {c p q s x s' r t} : c.exec o s = .throw x s' → PReaches o q s' r t → PReaches o (.step c p q) s r t

/-- The statement has no right hand side that throws or loses memory. -/
def PTidy [Num K] (σ : PStore K) : PStmt K → Prop
  | .single c => Tidy σ.objs c
  | _ => True

/-- The effect of a program without failures. -/
inductive PExecAll [Num K] : PStore K → List (PStmt K) → PStore K → Prop
  | nil {σ} : PExecAll σ [] σ
  | cons {σ c τ cs υ} : PExec σ c τ → PTidy σ c → PExecAll τ cs υ → PExecAll σ (c :: cs) υ

/-- The objects a statement works on. -/
def Subject (i : Nat) : PStmt K → Prop
  | .single c => i = subject c
  | .decl _ p | .make _ p _ _ | .copy _ p _ | .assign _ p _ | .destroy p => i = first p ∨ i = second p

end VM.Spec
