import Verif.Rt.Expr
/-
What an expression mentions: names, and the kinds of objects that are not arithmetic.
-/
namespace VM.Spec
variable {K : Type}

/-- A variable, a function symbol, a formal derivative by a variable, a symbolic interval, or one of the kinds of
objects that cannot be evaluated. -/
inductive Item where
  | var (i : Nat)
  | sym (i tag : Nat)
  | deriv (x : Nat)
  | interval (k : Nat)
  | gradient
  | divergence
  | integral
  | vector
  deriving DecidableEq, Repr

/-- `e` mentions the item, anywhere: also in bounds, as an integration variable, and in the entries of vectors. -/
inductive Mentions : Item → Expr K → Prop
  | var (i : Nat) : Mentions (.var i) (.var i)
  | sym (i t : Nat) : Mentions (.sym i t) (.fsym i t)
  | deriv (x : Nat) (e : Expr K) : Mentions (.deriv x) (.un (.pd x) e)
  | interval (k : Nat) (e : Expr K) : Mentions (.interval k) (.un (.symInt k) e)
  | gradient (e : Expr K) : Mentions .gradient (.un .grad e)
  | divergence (e : Expr K) : Mentions .divergence (.un .divg e)
  | integral (lo hi e : Expr K) (x : Nat) : Mentions .integral (.integ lo hi x e)
  | integVar (lo hi e : Expr K) (x : Nat) : Mentions (.var x) (.integ lo hi x e)
  | integLo {m : Item} {lo : Expr K} (hi e : Expr K) (x : Nat) : Mentions m lo → Mentions m (.integ lo hi x e)
  | integHi {m : Item} {hi : Expr K} (lo e : Expr K) (x : Nat) : Mentions m hi → Mentions m (.integ lo hi x e)
  | integBody {m : Item} {e : Expr K} (lo hi : Expr K) (x : Nat) : Mentions m e → Mentions m (.integ lo hi x e)
  | un {m : Item} {e : Expr K} (op : UOp) : Mentions m e → Mentions m (.un op e)
  | left {m : Item} {l : Expr K} (op : BOp) (r : Expr K) : Mentions m l → Mentions m (.bin op l r)
  | right {m : Item} {r : Expr K} (op : BOp) (l : Expr K) : Mentions m r → Mentions m (.bin op l r)
  | vector (es : List (Expr K)) : Mentions .vector (.vec es)
  | entry {m : Item} {es : List (Expr K)} {e : Expr K} : e ∈ es → Mentions m e → Mentions m (.vec es)

end VM.Spec
