import Verif.Spec.Traverse
/-
Calls of the functions of a traversal functor.
-/
namespace VM.Spec
variable {K σ : Type}

/-- A call of a traversal functor on the node at a position, and what it gave. -/
inductive WCall where
  /-- `step_into` -/
  | stepped (p : List Dir) (r : Res Bool)
  /-- `operator()` -/
  | visited (p : List Dir) (r : Res Unit)

/-- The node that the functor is called on. -/
def WCall.pos : WCall → List Dir
  | .stepped p _ => p
  | .visited p _ => p

/-- Which function is called on which node. -/
def WCall.what : WCall → Bool × List Dir
  | .stepped p _ => (true, p)
  | .visited p _ => (false, p)

/-- The call returned. -/
def WCall.Returned : WCall → Prop
  | .stepped _ r => ∃ b, r = .ok b
  | .visited _ r => r = .ok ()

/-- The call was left by the exception `x`. -/
def WCall.Threw (x : Exc) : WCall → Prop
  | .stepped _ r => r = .throw x
  | .visited _ r => r = .throw x

/-- The call went wrong beyond exceptions. -/
def WCall.Undefined : WCall → Prop
  | .stepped _ r => r = .ub
  | .visited _ r => r = .ub

/-- These calls, made one after the other on nodes of `e`, lead the functor from one state to another, and it answers as
recorded. -/
inductive Walked (stepInto : List Dir → Expr K → σ → Res Bool × σ) (visit : List Dir → Expr K → σ → Res Unit × σ)
    (e : Expr K) : List WCall → σ → σ → Prop
  | none {s} : Walked stepInto visit e [] s s
  | stepped {p n b s s' s'' cs} : At e p n → stepInto p n s = (b, s') → Walked stepInto visit e cs s' s'' →
      Walked stepInto visit e (.stepped p b :: cs) s s''
  | visited {p n r s s' s'' cs} : At e p n → visit p n s = (r, s') → Walked stepInto visit e cs s' s'' →
      Walked stepInto visit e (.visited p r :: cs) s s''

/-- The node at `p` was visited, or is below one that the functor declined to step into. -/
def DealtWith (cs : List WCall) (p : List Dir) : Prop :=
  WCall.visited p (.ok ()) ∈ cs ∨ ∃ q d r, p = q ++ d :: r ∧ WCall.stepped q (.ok false) ∈ cs

/-- The calls that a traversal of `e` may consist of. -/
structure InOrder (e : Expr K) (cs : List WCall) : Prop where
  /-- no function is called twice on a node -/
  once : (cs.map WCall.what).Nodup
  /-- what is below an argument or a right operand comes after the node itself, what is below a left operand before it;
  and the functor agreed to step into each binary node above -/
  above : ∀ before c after, cs = before ++ c :: after → ∀ q d r, c.pos = q ++ d :: r →
    (d ≠ .left → WCall.visited q (.ok ()) ∈ before) ∧ (d = .left → ∀ x, WCall.visited q x ∉ before) ∧
    (d ≠ .arg → WCall.stepped q (.ok true) ∈ before)
  /-- the functor is asked whether to step into binary nodes, and into nothing else -/
  asked : ∀ p r, WCall.stepped p r ∈ cs → ∃ op a b, At e p (.bin op a b)
  /-- binary nodes are not visited before that -/
  first : ∀ before p r after, cs = before ++ .visited p r :: after → ∀ op a b, At e p (.bin op a b) →
    ∃ x, WCall.stepped p (.ok x) ∈ before
  /-- if it declines to step into a node, the node is visited right then -/
  declined : ∀ before p after, cs = before ++ .stepped p (.ok false) :: after →
    ∃ r after', after = .visited p r :: after'
  /-- a node is visited only after all nodes that come earlier in visiting order; before the functor is asked whether to
  step into a node, all nodes have been visited that come earlier and are not below it -/
  earlier : ∀ before c after, cs = before ++ c :: after → ∀ q n, At e q n → Before q c.pos →
    ((∃ p b, c = .stepped p b) → ¬ c.pos <+: q) → DealtWith before q
  /-- the calls on a node and below it are made without others in between -/
  together : ∀ q, ∃ xs ys zs, cs = xs ++ ys ++ zs ∧ (∀ c ∈ ys, q <+: c.pos) ∧ ∀ c ∈ xs ++ zs, ¬ q <+: c.pos

/-- The calls that a traversal of `e` consists of if it ends with `r`. -/
def Completes (e : Expr K) (cs : List WCall) : Res Unit → Prop
  | .ok _ => (∀ c ∈ cs, c.Returned) ∧
    ∀ p n, At e p n → DealtWith cs p
  | .throw x => ∃ before c, cs = before ++ [c] ∧ (∀ c ∈ before, c.Returned) ∧ c.Threw x
  | .ub => ∃ before c, cs = before ++ [c] ∧ (∀ c ∈ before, c.Returned) ∧ c.Undefined

end VM.Spec
