import Verif.Spec.Threads
import Verif.Spec.NewtonA
import Verif.Rt.Jobs
/-
What programs with calls may do, on independent values.
-/
namespace VM.Spec
variable {K ι : Type} [Num K] [NumLt K]

/-- The result the values determine.  For integrals: a number can be substituted in each integrand.  For the solver: the
equations are built from smooth functions. -/
inductive Asks (σ : Store K) : Query K → Res (Answer K) → Prop
  | value {o v r e} : look σ r = some e → Asks σ (.value o v r) ((eval o v e).map .number)
  | text {fmt r e} : look σ r = some e → Asks σ (.text fmt r) (.ok (.text (deepStr fmt e)))
  | latex {fmt t flag r e} : look σ r = some e → Asks σ (.latex fmt t flag r) (.ok (.text (latex fmt t flag e)))
  | integral {o r e} : look σ r = some e → Integrals Insertable e →
      Asks σ (.integral o r) ((quadOf o (gaussQuad1 o) e).map .number)
  | solved {o fuel guess q q₁ q₂ r} : look σ q.l₁ = some (Equation.lhs q₁) → look σ q.r₁ = some (Equation.rhs q₁) →
      look σ q.l₂ = some (Equation.lhs q₂) → look σ q.r₂ = some (Equation.rhs q₂) → SmoothEq q₁ → SmoothEq q₂ →
      newtonLoop o q₁ q₂ fuel (Num.lit 1) guess = some r → Asks σ (.solve o fuel guess q) (r.map fun x => .point (some x))
  | running {o fuel guess q q₁ q₂} : look σ q.l₁ = some (Equation.lhs q₁) → look σ q.r₁ = some (Equation.rhs q₁) →
      look σ q.l₂ = some (Equation.lhs q₂) → look σ q.r₂ = some (Equation.rhs q₂) → SmoothEq q₁ → SmoothEq q₂ →
      newtonLoop o q₁ q₂ fuel (Num.lit 1) guess = none → Asks σ (.solve o fuel guess q) (.ok (.point none))

/-- What the program gets. -/
inductive Answers : Res (Answer K) → Except Exc (Answer K) → Prop
  | ok {v} : Answers (.ok v) (.ok v)
  | threw {x} : Answers (.throw x) (.error x)

/-- Whatever the statements and the calls do, the objects are used as they may be used, and no call has undefined
behaviour on values. -/
def SafeJob (σ : Store K) : Job K → Prop
  | .done => True
  | .step c p q => (∃ τ, Exec σ c τ) ∧
      ∀ τ, (Outcome σ c false τ → SafeJob τ p) ∧ (Outcome σ c true τ → SafeJob τ q)
  | .query q k => (∃ r, Asks σ q r ∧ r ≠ .ub ∧ ∀ a, Answers r a → SafeJob σ (k a)) ∧ SafeJob σ (k (.error .badAlloc))

/-- The effects a program may have, and the results of its calls; `short`: some request for memory fails. -/
inductive RanJob (short : Prop) : Store K → Job K → List (Except Exc (Answer K)) → Store K → Prop
  | done {σ} : RanJob short σ .done [] σ
  | normal {σ c τ p q as υ} : Exec σ c τ → ¬ Throwing σ c → RanJob short τ p as υ → RanJob short σ (.step c p q) as υ
  | threw {σ c τ p q as υ} : Exec σ c τ → Throwing σ c → RanJob short τ q as υ → RanJob short σ (.step c p q) as υ
  | noMemory {σ c τ p q as υ} : short → OutOf σ c τ → RanJob short τ q as υ → RanJob short σ (.step c p q) as υ
  | query {σ q k r a as τ} : Asks σ q r → Answers r a → RanJob short σ (k a) as τ →
      RanJob short σ (.query q k) (a :: as) τ
  | noAnswer {σ q k as τ} : short → RanJob short σ (k (.error .badAlloc)) as τ →
      RanJob short σ (.query q k) (.error .badAlloc :: as) τ

/-- With enough memory, no statement of the program throws or differentiates a gradient by a function symbol. -/
def TidyJob (σ : Store K) : Job K → Prop
  | .done => True
  | .step c p _ => Tidy σ c ∧ ∀ τ, Exec σ c τ → TidyJob τ p
  | .query q k => ∀ r a, Asks σ q r → Answers r a → TidyJob σ (k a)

/-- All statements of the program work on objects in `P`; others it may only read. -/
def JobOn {K : Type} (P : Nat → Prop) : Job K → Prop
  | .done => True
  | .step c p q => P (subject c) ∧ JobOn P p ∧ JobOn P q
  | .query _ k => ∀ a, JobOn P (k a)

/-- Each thread has names of its own for the memory it requests, as in `Names`. -/
structure JobNames [DecidableEq ι] (s : State K) (who : Nat → Option ι) (ord : ι → Nat → Bool) (P : ι → Job K)
    (lo hi : ι → Nat) : Prop where
  unused : ∀ t, s.heap.next ≤ lo t
  enough : ∀ t as s', (P t).run (ord t) ((sharedWith s who t).state (reached s who t (lo t))) = .ok (as, s') →
    s'.heap.next ≤ hi t
  disjoint : ∀ t u, t ≠ u → hi t ≤ lo u ∨ hi u ≤ lo t

/-- The machine at the moment when the threads start. -/
def startedJobs {K : Type} (s : State K) (lo : ι → Nat) (code : ι → Code K (JobResult K)) : Machine ι K (JobResult K) :=
  ⟨s.heap.cells, s.heap.fails, fun t => ⟨code t, lo t⟩⟩

/-- One of the requests a thread makes fails, if it has the names from `lo` up to `hi`. -/
def Short (f : Nat → Bool) (lo hi : Nat) : Prop := ∃ a, lo ≤ a ∧ a < hi ∧ f a = true

/-- The node belongs to an object. -/
def Belongs {K : Type} (s : State K) (a : Nat) : Prop := ∃ r, s.target r = .ok (.node a)

end VM.Spec
