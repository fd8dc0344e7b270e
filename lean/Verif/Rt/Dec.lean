import Verif.Rt.Expr
/-
Equality of expressions can be decided (used by the examples only).
-/
namespace VM
variable {K : Type} [DecidableEq K]

mutual
def sameE : Expr K → Expr K → Bool
  | .const c, .const d => decide (c = d)
  | .var i, .var j => decide (i = j)
  | .fsym i t, .fsym j u => decide (i = j) && decide (t = u)
  | .un o e, .un p f => decide (o = p) && sameE e f
  | .integ l u x e, .integ m v y f => sameE l m && sameE u v && decide (x = y) && sameE e f
  | .bin o l r, .bin p m s => decide (o = p) && sameE l m && sameE r s
  | .vec es, .vec fs => sameL es fs
  | _, _ => false
def sameL : List (Expr K) → List (Expr K) → Bool
  | [], [] => true
  | e :: es, f :: fs => sameE e f && sameL es fs
  | _, _ => false
end

theorem sameE_iff (e : Expr K) : ∀ f, sameE e f = true ↔ e = f := by
  induction e using Expr.ind with
  | const c => intro f; cases f <;> simp [sameE]
  | var c => intro f; cases f <;> simp [sameE]
  | fsym c => intro f; cases f <;> simp [sameE]
  | un op e ih => intro f; cases f <;> simp [sameE, ih]
  | integ l u x e h1 h2 h3 => intro f; cases f <;> simp [sameE, h1, h2, h3, and_assoc]
  | bin op l r h1 h2 => intro f; cases f <;> simp [sameE, h1, h2, and_assoc]
  | vec es ih =>
    have key : ∀ es : List (Expr K), (∀ e ∈ es, ∀ f, sameE e f = true ↔ e = f) →
        ∀ fs, sameL es fs = true ↔ es = fs := by
      intro es
      induction es with
      | nil => intro _ fs; cases fs <;> simp [sameL]
      | cons e es ihs =>
        intro h fs
        cases fs with
        | nil => simp [sameL]
        | cons f fs => simp [sameL, h e (by simp), ihs (fun x hx => h x (by simp [hx]))]
    intro f; cases f <;> simp [sameE, key es ih]

instance : DecidableEq (Expr K) := fun e f => decidable_of_iff _ (sameE_iff e f)

instance {α : Type} [DecidableEq α] : DecidableEq (Res α)
  | .ok a, .ok b => decidable_of_iff (a = b) (by simp)
  | .throw x, .throw y => decidable_of_iff (x = y) (by simp)
  | .ub, .ub => .isTrue rfl
  | .ok _, .throw _ | .ok _, .ub | .throw _, .ok _ | .throw _, .ub | .ub, .ok _ | .ub, .throw _ => .isFalse (by simp)

end VM
