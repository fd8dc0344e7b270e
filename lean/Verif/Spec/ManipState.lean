import Verif.Spec.Traverse
/-
Calls of the functions of a manipulation functor.
-/
namespace VM.Spec
variable {K σ : Type}

/-- A call of a manipulation functor on the node at a position, and what it gave. -/
inductive FCall (K : Type) where
  /-- `modifies` -/
  | asked (p : List Dir) (r : Res Bool)
  /-- `operator()` -/
  | applied (p : List Dir) (r : Res (Expr K))

/-- The node that the functor is called on. -/
def FCall.pos : FCall K → List Dir
  | .asked p _ => p
  | .applied p _ => p

/-- Which function is called on which node. -/
def FCall.what : FCall K → Bool × List Dir
  | .asked p _ => (true, p)
  | .applied p _ => (false, p)

/-- The call returned. -/
def FCall.Returned : FCall K → Prop
  | .asked _ r => ∃ b, r = .ok b
  | .applied _ r => ∃ e, r = .ok e

/-- The call was left by the exception `x`. -/
def FCall.Threw (x : Exc) : FCall K → Prop
  | .asked _ r => r = .throw x
  | .applied _ r => r = .throw x

/-- The call went wrong beyond exceptions. -/
def FCall.Undefined : FCall K → Prop
  | .asked _ r => r = .ub
  | .applied _ r => r = .ub

/-- These calls, made one after the other on nodes of `e`, lead the functor from one state to another, and it answers as
recorded. -/
inductive Made (modifies : List Dir → Expr K → σ → Res Bool × σ) (apply : List Dir → Expr K → σ → Res (Expr K) × σ)
    (e : Expr K) : List (FCall K) → σ → σ → Prop
  | none {s} : Made modifies apply e [] s s
  | asked {p n b s s' s'' cs} : At e p n → modifies p n s = (b, s') → Made modifies apply e cs s' s'' →
      Made modifies apply e (.asked p b :: cs) s s''
  | applied {p n r s s' s'' cs} : At e p n → apply p n s = (r, s') → Made modifies apply e cs s' s'' →
      Made modifies apply e (.applied p r :: cs) s s''

/-- `e'` is `e` with the nodes at certain positions replaced by what `f` says. -/
inductive Edited : (List Dir → Expr K → Prop) → Expr K → Expr K → Prop
  | new {f e n} : f [] n → Edited f e n
  | un {f op e e'} : (∀ n, ¬ f [] n) → Edited (fun p => f (.arg :: p)) e e' → Edited f (.un op e) (.un op e')
  | integ {f lo hi x e e'} : (∀ n, ¬ f [] n) → Edited (fun p => f (.arg :: p)) e e' →
      Edited f (.integ lo hi x e) (.integ lo hi x e')
  | bin {f op l r l' r'} : (∀ n, ¬ f [] n) → Edited (fun p => f (.left :: p)) l l' →
      Edited (fun p => f (.right :: p)) r r' → Edited f (.bin op l r) (.bin op l' r')

/-- The functor declined to modify the node at `p`, or `operator()` was called on it or on a node above. -/
def Settled (cs : List (FCall K)) (p : List Dir) : Prop :=
  FCall.asked p (.ok false) ∈ cs ∨ ∃ q r n', p = q ++ r ∧ FCall.applied q (.ok n') ∈ cs

/-- The calls that a manipulation of `e` may consist of. -/
structure Orderly (e : Expr K) (cs : List (FCall K)) : Prop where
  /-- no function is called twice on a node -/
  once : (cs.map FCall.what).Nodup
  /-- before anything is called below a node, the functor declined to modify the node -/
  above : ∀ before c after, cs = before ++ c :: after → ∀ q d r, c.pos = q ++ d :: r →
    FCall.asked q (.ok false) ∈ before
  /-- `operator()` is called on leaves, which it is never asked about, and right after it agreed to modify a node -/
  agreed : ∀ before p r after, cs = before ++ .applied p r :: after →
    (∃ n, At e p n ∧ IsLeaf n ∧ ∀ b, FCall.asked p b ∉ cs) ∨ ∃ before', before = before' ++ [.asked p (.ok true)]
  /-- if it agrees to modify a node, it is called on it, right then -/
  obeyed : ∀ before p after, cs = before ++ .asked p (.ok true) :: after →
    ∃ r after', after = .applied p r :: after'
  /-- the functor is not asked about leaves -/
  asked : ∀ p r, FCall.asked p r ∈ cs → ∃ n, At e p n ∧ ¬ IsLeaf n
  /-- one operand of a node is finished before the other is begun -/
  finished : ∀ before c after, cs = before ++ c :: after → ∀ q d r d' r' c', c.pos = q ++ d :: r → c' ∈ before →
    c'.pos = q ++ d' :: r' → d' ≠ d → ∀ p n, At e (q ++ d' :: p) n → Settled before (q ++ d' :: p)
  /-- the calls on a node and below it are made without others in between -/
  together : ∀ q, ∃ xs ys zs, cs = xs ++ ys ++ zs ∧ (∀ c ∈ ys, q <+: c.pos) ∧ ∀ c ∈ xs ++ zs, ¬ q <+: c.pos

/-- The calls that a manipulation of `e` consists of if it yields `r`. -/
def Explains (e : Expr K) (cs : List (FCall K)) : Res (Expr K) → Prop
  | .ok e' =>
    (∀ c ∈ cs, c.Returned) ∧
    (∀ p n, At e p n → Settled cs p) ∧
    Edited (fun p n => FCall.applied p (.ok n) ∈ cs) e e'
  | .throw x => ∃ before c, cs = before ++ [c] ∧ (∀ c ∈ before, c.Returned) ∧ c.Threw x
  | .ub => ∃ before c, cs = before ++ [c] ∧ (∀ c ∈ before, c.Returned) ∧ c.Undefined

end VM.Spec
