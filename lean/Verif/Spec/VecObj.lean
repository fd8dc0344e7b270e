import Verif.Rt.VecObj
import Verif.Spec.Heap
/-
What programs with vectors mean if a vector simply is a list of values.
-/
namespace VM.Spec
variable {K : Type}

/-- The expression objects, and the vectors: each entry holds an expression or nothing yet. -/
structure VStore (K : Type) where
  objs : Nat → Option (Obj K)
  vecs : Nat → Option (List (Option (Expr K)))

def VStore.empty : VStore K := ⟨fun _ => none, fun _ => none⟩

/-- All objects by number. -/
def VStore.all (σ : VStore K) : Store K := fun n =>
  if n = 0 then none
  else match twos n n with
    | (0, k) => σ.objs k
    | (v + 1, i) => (σ.vecs v).bind fun es => es[i]?.map .expr

def VStore.obj (σ : VStore K) (k : Nat) (x : Option (Obj K)) : VStore K :=
  ⟨fun j => if j = k then x else σ.objs j, σ.vecs⟩

def VStore.vec (σ : VStore K) (v : Nat) (es : Option (List (Option (Expr K)))) : VStore K :=
  ⟨σ.objs, fun u => if u = v then es else σ.vecs u⟩

/-- Vector `v` has the entries `es`. -/
def VStore.Has (σ : VStore K) (v : Nat) (es : List (Expr K)) : Prop := σ.vecs v = some (es.map some)

/-- The statement works on an object of its own, or assigns to an entry or simplifies it. -/
def OnOne (c : Stmt K) : Prop :=
  (∃ k, subject c = plain k) ∨ ∃ v i, (∃ rhs, c = .assign (entry v i) rhs) ∨ c = .inplace (entry v i)

/-- The vectors are the same as before and have the same sizes. -/
def Shape (σ τ : VStore K) : Prop := ∀ v, (τ.vecs v).map List.length = (σ.vecs v).map List.length

/-- `((p + x₁ y₁) + x₂ y₂) + ...` -/
def plusProducts (p : Expr K) : List (Expr K × Expr K) → Expr K
  | [] => p
  | (x, y) :: xs => plusProducts (.bin .plus p (.bin .mult x y)) xs

/-- `x * s`, `s * x`, `x / s`, `s / x` -/
def scaledBy (div left : Bool) (s x : Expr K) : Expr K :=
  match div, left with
  | false, false => .bin .mult x s
  | false, true => .bin .mult s x
  | true, false => .bin .div x s
  | true, true => .bin .div s x

/-- The effect of a statement that is used as it may be used. -/
inductive VExec [Num K] (σ : VStore K) : VStmt K → VStore K → Prop
  | on {c τ} : Exec σ.all c τ.all → Shape σ τ → OnOne c → VExec σ (.on c) τ
  | make {v n} : σ.vecs v = none → VExec σ (.make v n) (σ.vec v (some (List.replicate n (some (.const (Num.lit 0))))))
  | copy {v w es} : σ.vecs v = none → σ.vecs w = some es → VExec σ (.copy v w) (σ.vec v (some es))
  | add {v w u xs ys} : σ.vecs v = none → σ.Has w xs → σ.Has u ys → xs.length = ys.length →
      VExec σ (.sum false v w u) (σ.vec v (some (List.zipWith (fun x y => some (.bin .plus x y)) xs ys)))
  | sub {v w u xs ys} : σ.vecs v = none → σ.Has w xs → σ.Has u ys → xs.length = ys.length →
      VExec σ (.sum true v w u) (σ.vec v (some (List.zipWith (fun x y => some (.bin .minus x y)) xs ys)))
  | scale {div left v w e s xs} : σ.vecs v = none → σ.Has w xs → look σ.all e = some s →
      VExec σ (.scale div left v w e) (σ.vec v (some (xs.map fun x => some (scaledBy div left s x))))
  | dot {k v w x xs y ys} : σ.objs k = none → σ.Has v (x :: xs) → σ.Has w (y :: ys) → xs.length = ys.length →
      VExec σ (.dot k v w) (σ.obj k (some (.expr (some (plusProducts (.bin .mult x y) (xs.zip ys))))))
  | assign {v w es xs} : σ.vecs v = some es → σ.Has w xs → es.length = xs.length →
      VExec σ (.assign v w) (σ.vec v (some (xs.map some)))
  | self {v es} : σ.vecs v = some es → VExec σ (.assign v v) σ
  | destroy {v es} : σ.vecs v = some es → VExec σ (.destroy v) (σ.vec v none)

/-- What a statement may have done if the memory ran out in the middle of it: construction has no effect, an assignment
of vectors may have replaced some of the first entries. -/
inductive VOutOf [Num K] (σ : VStore K) : VStmt K → VStore K → Prop
  | on {c τ} : OutOf σ.all c τ.all → Shape σ τ → VOutOf σ (.on c) τ
  | make {v n} : VOutOf σ (.make v n) σ
  | copy {v w} : VOutOf σ (.copy v w) σ
  | sum {m v w u} : VOutOf σ (.sum m v w u) σ
  | scale {div left v w e} : VOutOf σ (.scale div left v w e) σ
  | dot {k v w} : VOutOf σ (.dot k v w) σ
  | assign {v w es xs} (n : Nat) : σ.vecs v = some es → σ.Has w xs → es.length = xs.length → n < xs.length →
      VOutOf σ (.assign v w) (σ.vec v (some ((xs.map some).take n ++ es.drop n)))

/-- The statement throws for another reason. -/
def VThrowing [Num K] (σ : VStore K) : VStmt K → Prop
  | .on c => Throwing σ.all c
  | _ => False

/-- The effects a statement may have on a machine without enough memory; `true`: it threw. -/
inductive VOutcome [Num K] (σ : VStore K) (c : VStmt K) : Bool → VStore K → Prop
  | normal {τ} : VExec σ c τ → ¬ VThrowing σ c → VOutcome σ c false τ
  | threw {τ} : VExec σ c τ → VThrowing σ c → VOutcome σ c true τ
  | noMemory {τ} : VOutOf σ c τ → VOutcome σ c true τ

/-- Whatever the statements of the program do, the objects are used as they may be used. -/
def VSafe [Num K] (σ : VStore K) : VClient K → Prop
  | .done => True
  | .step c p q => (∃ τ, VExec σ c τ) ∧ ∀ τ, (VOutcome σ c false τ → VSafe τ p) ∧ (VOutcome σ c true τ → VSafe τ q)

/-- How the program goes on. -/
def vrest : Bool → VClient K → VClient K → VClient K
  | false, p, _ => p
  | true, _, q => q

/-- The effects the program may have. -/
inductive VRan [Num K] : VStore K → VClient K → VStore K → Prop
  | done {σ} : VRan σ .done σ
  | step {σ c b τ p q υ} : VOutcome σ c b τ → VRan τ (vrest b p q) υ → VRan σ (.step c p q) υ

/-- The program `p`, started in `s`, gets to a point where `q` is left of it and the state is `t`. -/
inductive VReaches [Num K] (o : Nat → Bool) : VClient K → VState K → VClient K → VState K → Prop
  | refl {p s} : VReaches o p s p s
  | ok {c p q s s' r t} : c.exec o s = .ok () s' → VReaches o p s' r t → VReaches o (.step c p q) s r t
  | threw {c p q s x s' r t} : c.exec o s = .throw x s' → VReaches o q s' r t → VReaches o (.step c p q) s r t

/-- The statement has no right hand side that throws or loses memory. -/
def VTidy [Num K] (σ : VStore K) : VStmt K → Prop
  | .on c => Tidy σ.all c
  | _ => True

/-- The effect of a program without failures. -/
inductive VExecAll [Num K] : VStore K → List (VStmt K) → VStore K → Prop
  | nil {σ} : VExecAll σ [] σ
  | cons {σ c τ cs υ} : VExec σ c τ → VTidy σ c → VExecAll τ cs υ → VExecAll σ (c :: cs) υ

/-- The objects a statement works on. -/
def VSubject (n : Nat) : VStmt K → Prop
  | .on c => n = subject c
  | .dot k _ _ => n = plain k
  | .make v _ | .copy v _ | .sum _ v _ _ | .scale _ _ v _ _ | .assign v _ | .destroy v => ∃ i, n = entry v i

end VM.Spec
