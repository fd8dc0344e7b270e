import Verif.Ct.Convert
import Verif.Spec.CtConvert
/-
Lemmas about the conversion of compile-time expressions.
-/
namespace VM.Ct
open VM.Spec
variable {K : Type} [Num K]

/-- The tree with the same shape. -/
def image : CtExpr → Expr K
  | .const n => .const (Num.lit n)
  | .var i => .var i
  | .fsym t => .fsym t t
  | .bin l op r => .bin op.toRt (image l) (image r)

theorem callable_iff {e : CtExpr} : callable e = true ↔ NoSym e := by
  induction e with
  | bin l op r ihl ihr => simp [callable, NoSym, ihl, ihr]
  | _ => simp [callable, NoSym]

theorem toRt_bin (l : CtExpr) (op : COp) (r : CtExpr) :
    toRt (K := K) (.bin l op r) = (toRt l).bind fun l' => (toRt r).map fun r' => .bin op.toRt l' r' := by
  cases l <;> cases r <;> simp [toRt, binFrom, Option.map_eq_bind, Function.comp_def]

theorem toRt_eq {e : CtExpr} : toRt (K := K) e = if callable e then some (image e) else none := by
  induction e with
  | bin l op r ihl ihr =>
    rw [toRt_bin, ihl, ihr]
    cases hl : callable l <;> cases hr : callable r <;> simp [callable, hl, hr, image]
  | _ => simp [toRt, callable, image]

theorem toRt_some {e : CtExpr} {r : Expr K} (h : toRt e = some r) : NoSym e ∧ r = image e := by
  rw [toRt_eq] at h
  split at h
  · rename_i hc; cases h; exact ⟨callable_iff.1 hc, rfl⟩
  · cases h

theorem applyB_toRt (op : COp) (x y : K) : applyB op.toRt x y = .ok (op.apply x y) := by
  cases op <;> rfl

theorem callAux_var (o : CtOrder) (v : List K) (i : Nat) :
    callAux o v (.var i) =
      eval (fun _ _ => true) v (.var i) := by
  unfold callAux eval
  split
  · rename_i h; rw [List.getElem?_eq_none h]
  · rename_i h
    rw [List.getElem?_eq_getElem (Nat.lt_of_not_le h)]

/-- The value where it exists. -/
theorem callAux_ok {o : CtOrder} {o' : Order K} {v : List K} {e : CtExpr} (h : NoSym e) {x : K} :
    callAux o v e = .ok x ↔ eval o' v (image e) = .ok x := by
  induction e generalizing x with
  | const n => simp [callAux, image, eval]
  | var i => rw [callAux_var]; rfl
  | fsym t => exact h.elim
  | bin l op r ihl ihr =>
    simp only [callAux, image, eval, Res.both_eq_ok, ihl h.1, ihr h.2, applyB_toRt]

/-- Same order, same outcome. -/
theorem callAux_eq {o' : Order K} {v : List K} {e : CtExpr} (h : NoSym e) :
    callAux (fun l r => o' (image l) (image r)) v e = eval o' v (image e) := by
  induction e with
  | const n => rfl
  | var i => rw [callAux_var]; rfl
  | fsym t => exact h.elim
  | bin l op r ihl ihr =>
    simp only [callAux, image, eval, ihl h.1, ihr h.2]
    congr
    funext x y
    exact (applyB_toRt op x y).symm

theorem callAux_cases (o : CtOrder) (v : List K) {e : CtExpr} (h : NoSym e) :
    ((∀ i, Has i e → i < v.length) ∧ ∃ x, callAux o v e = .ok x) ∨
    ∃ i, Has i e ∧ v.length ≤ i ∧ callAux o v e = .throw (.indexOutOfBounds i v.length) := by
  induction e with
  | const n => exact .inl ⟨fun _ h => h.elim, _, rfl⟩
  | var i =>
    rw [callAux_var, eval]
    by_cases hi : i < v.length
    · rw [List.getElem?_eq_getElem hi]
      exact .inl ⟨fun j hj => by cases hj; exact hi, _, rfl⟩
    · rw [List.getElem?_eq_none (Nat.le_of_not_lt hi)]
      exact .inr ⟨i, rfl, Nat.le_of_not_lt hi, rfl⟩
  | fsym t => exact h.elim
  | bin l op r ihl ihr =>
    simp only [callAux]
    obtain ⟨hl, x, hx⟩ | ⟨i, hi, hv, hx⟩ := ihl h.1 <;> obtain ⟨hr, y, hy⟩ | ⟨j, hj, hw, hy⟩ := ihr h.2 <;>
      rw [hx, hy]
    · exact .inl ⟨fun k hk => hk.elim (hl k) (hr k), _, Res.both_ok ..⟩
    · exact .inr ⟨j, .inr hj, hw, by cases o l r <;> rfl⟩
    · exact .inr ⟨i, .inl hi, hv, by cases o l r <;> rfl⟩
    · cases ho : o l r
      · exact .inr ⟨j, .inr hj, hw, rfl⟩
      · exact .inr ⟨i, .inl hi, hv, rfl⟩

theorem callAux_num (o : CtOrder) (v : List K) (d : K) {e : CtExpr} (h : NoSym e)
    (hv : ∀ i, Has i e → i < v.length) : callAux o v e = .ok (numAt (fun i => v.getD i d) e) := by
  induction e with
  | const n => rfl
  | var i =>
    have hi : i < v.length := hv i rfl
    rw [callAux_var, eval, List.getElem?_eq_getElem hi]
    simp [numAt, hi]
  | fsym t => exact h.elim
  | bin l op r ihl ihr =>
    rw [callAux, ihl h.1 fun i hi => hv i (.inl hi), ihr h.2 fun i hi => hv i (.inr hi), Res.both_ok]
    cases op <;> rfl

theorem callConst_ok {o : CtOrder} {o' : Order K} {s : K} {e : CtExpr} (h : NoSym e) {x : K} :
    callConstAux o s e = .ok x ↔ evalS o' s (image e) = .ok x := by
  induction e generalizing x with
  | const n => simp [callConstAux, image, evalS]
  | var i => simp only [callConstAux, image, evalS]; split <;> simp
  | fsym t => exact h.elim
  | bin l op r ihl ihr =>
    simp only [callConstAux, image, evalS, Res.both_eq_ok, ihl h.1, ihr h.2, applyB_toRt]

end VM.Ct
