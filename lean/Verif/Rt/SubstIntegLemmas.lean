import Verif.Rt.SubstLemmas
import Verif.Rt.ValLemmas
/-
Substitution of a variable in expressions with integrals.
-/
namespace VM
open Spec
variable {K : Type}

mutual
/-- Replacement of variable `i` by `r` (helper for proofs; `substE_var` relates it to the model). -/
def rp (i : Nat) (r : Expr K) : Expr K → Expr K
  | .const c => .const c
  | .var j => if i = j then r else .var j
  | .fsym j t => .fsym j t
  | .un op e => .un op (rp i r e)
  | .integ lo hi x e => .integ lo hi x (rp i r e)
  | .bin op e f => .bin op (rp i r e) (rp i r f)
  | .vec es => .vec (rpL i r es)
def rpL (i : Nat) (r : Expr K) : List (Expr K) → List (Expr K)
  | [] => []
  | e :: es => rp i r e :: rpL i r es
end

theorem rpL_eq_map (i : Nat) (r : Expr K) (es : List (Expr K)) : rpL i r es = es.map (rp i r) := by
  induction es with
  | nil => rfl
  | cons e es ih => simp [rpL, ih]

variable [Num K]

theorem substE_var (i : Nat) (r e : Expr K) : substE (.var i) r e = .ok (rp i r e) := by
  induction e using Expr.ind with
  | const | fsym => simp [substE, rp, deepEq]
  | var j => by_cases h : i = j <;> simp [substE, rp, deepEq, h]
  | un op e ih => simp [substE, rp, deepEq, ih]
  | integ lo hi x e _ _ ih => simp [substE, rp, deepEq, ih]
  | bin op l r' ihl ihr => simp [substE, rp, deepEq, ihl, ihr]
  | vec es ih =>
    have : substEL (.var i) r es = .ok (rpL i r es) := by
      induction es with
      | nil => rfl
      | cons e es ih' =>
        simp [substEL, rpL, ih e (by simp), ih' fun e he => ih e (by simp [he])]
    simp [substE, rp, deepEq, this]

/-- The value depends on the values of the variables that occur. -/
theorem Spec.Val.congr {I : Interp K} {ρ ρ' : Nat → Option K} {e : Expr K} {a : K} (h : Val I ρ e a)
    (hρ : ∀ j, Occurs j e → ρ j = ρ' j) : Val I ρ' e a := by
  induction h generalizing ρ' with
  | const => exact .const
  | var h => exact .var ((hρ _ .var).symm.trans h)
  | fsym h => exact .fsym h
  | fn _ ih => exact .fn (ih fun j h => hρ j (.un h))
  | pd h => exact .pd h
  | bin _ _ h ihl ihr => exact .bin (ihl fun j h => hρ j (.binL h)) (ihr fun j h => hρ j (.binR h)) h
  | dotOne _ ih =>
    refine .dotOne (ih fun j h => ?_)
    cases h with
    | binL h => exact hρ j (.binL (.vec (by simp) h))
    | binR h => exact hρ j (.binR (.vec (by simp) h))
  | dotSnoc _ _ ih1 ih2 =>
    refine .dotSnoc (ih1 fun j h => ?_) (ih2 fun j h => ?_)
    · cases h with
      | binL h => cases h with | vec hm h => exact hρ j (.binL (.vec (by simp [hm]) h))
      | binR h => cases h with | vec hm h => exact hρ j (.binR (.vec (by simp [hm]) h))
    · cases h with
      | binL h => exact hρ j (.binL (.vec (by simp) h))
      | binR h => exact hρ j (.binR (.vec (by simp) h))
  | integ f _ _ _ h4 h5 ih1 ih2 ih3 =>
    refine .integ f (ih1 fun j h => hρ j (.integLo h)) (ih2 fun j h => hρ j (.integHi h))
      (fun t ht => ih3 t ht fun j h => ?_) h4 h5
    simp only [upd]
    split
    · rfl
    · exact hρ j (.integBody h)

/-- Replacing a variable that is neither an integration variable nor in a bound, by an expression without
the integration variables. -/
theorem rp_val {I : Interp K} {i : Nat} {r : Expr K} {b : K} {ρ' : Nat → Option K} {e : Expr K} {a : K}
    (h : Val I ρ' e a) : ∀ {ρ : Nat → Option K}, (∀ j, j ≠ i → ρ' j = ρ j) → ρ' i = some b → Val I ρ r b →
    ¬ InInterval i e → (∀ lo hi x f, SubV (.integ lo hi x f) e → ¬ Occurs x r) → Val I ρ (rp i r e) a := by
  induction h with
  | const => intros; exact .const
  | @var _ j a h =>
    intro ρ hρ hb hr _ _
    by_cases hj : i = j
    · subst hj
      rw [h] at hb; cases hb
      simpa [rp] using hr
    · simpa [rp, hj] using Val.var ((hρ j (Ne.symm hj)).symm.trans h)
  | fsym h => intros; exact .fsym h
  | fn _ ih =>
    intro ρ hρ hb hr hi hc
    exact .fn (ih hρ hb hr (fun h => hi (.un h)) fun lo hi x f h => hc lo hi x f (.un h))
  | pd h => intros; exact .pd h
  | bin _ _ h ihl ihr =>
    intro ρ hρ hb hr hi hc
    exact .bin (ihl hρ hb hr (fun h => hi (.binL h)) fun lo hi x f h => hc lo hi x f (.binL h))
      (ihr hρ hb hr (fun h => hi (.binR h)) fun lo hi x f h => hc lo hi x f (.binR h)) h
  | dotOne _ ih =>
    intro ρ hρ hb hr hi hc
    refine .dotOne (ih hρ hb hr (fun h => ?_) fun lo hi' x f h => ?_)
    · cases h with
      | binL h => exact hi (.binL (.vec (by simp) h))
      | binR h => exact hi (.binR (.vec (by simp) h))
    · cases h with
      | binL h => exact hc lo hi' x f (.binL (.vec (by simp) h))
      | binR h => exact hc lo hi' x f (.binR (.vec (by simp) h))
  | @dotSnoc _ ls rs l r' _ _ _ _ ih1 ih2 =>
    intro ρ hρ hb hr hi hc
    have h1 := ih1 hρ hb hr (fun h => ?_) fun lo hi' x f h => ?_
    have h2 := ih2 hρ hb hr (fun h => ?_) fun lo hi' x f h => ?_
    · simp only [rp, rpL_eq_map, List.map_append, List.map_cons, List.map_nil] at h1 h2 ⊢
      exact .dotSnoc h1 h2
    · cases h with
      | binL h => exact hi (.binL (.vec (by simp) h))
      | binR h => exact hi (.binR (.vec (by simp) h))
    · cases h with
      | binL h => exact hc lo hi' x f (.binL (.vec (by simp) h))
      | binR h => exact hc lo hi' x f (.binR (.vec (by simp) h))
    · cases h with
      | binL h => cases h with | vec hm h => exact hi (.binL (.vec (by simp [hm]) h))
      | binR h => cases h with | vec hm h => exact hi (.binR (.vec (by simp [hm]) h))
    · cases h with
      | binL h => cases h with | vec hm h => exact hc lo hi' x f (.binL (.vec (by simp [hm]) h))
      | binR h => cases h with | vec hm h => exact hc lo hi' x f (.binR (.vec (by simp [hm]) h))
  | @integ _ lo hi x e _ _ _ f h1 h2 h3 h4 h5 ih1 ih2 ih3 =>
    intro ρ hρ hb hr hi' hc
    have hx : i ≠ x := by rintro rfl; exact hi' .var
    refine .integ f (h1.congr fun j h => hρ j ?_) (h2.congr fun j h => hρ j ?_) (fun t ht => ?_) h4 h5
    · rintro rfl; exact hi' (.lo h)
    · rintro rfl; exact hi' (.hi h)
    · refine ih3 t ht (fun j hj => ?_) ?_ (hr.congr fun j h => ?_) (fun h => hi' (.integ h))
        fun lo hi x f h => hc lo hi x f (.integ h)
      · simp only [upd]; split
        · rfl
        · exact hρ j hj
      · simpa [upd, hx] using hb
      · have : j ≠ x := by rintro rfl; exact hc _ _ _ _ .refl h
        simp [upd, this]

/-- Values are unique in expressions without integrals. -/
theorem Spec.Val.unique {I : Interp K} {ρ : Nat → Option K} {e : Expr K} {a : K} (h : Val I ρ e a)
    (hn : NoInteg e) : ∀ {b}, Val I ρ e b → a = b := by
  have noEmpty : ∀ {ρ : Nat → Option K} {rs a}, ¬ Val I ρ (.bin .mult (.vec []) (.vec rs)) a := by
    intro ρ rs a h
    obtain ⟨l, ls, r, rs', h, _⟩ := h.dot_nonempty
    cases h
  have noVec : ∀ {ρ : Nat → Option K} {es : List (Expr K)} {a}, ¬ Val I ρ (.vec es) a := fun h => nomatch h
  induction h with
  | const => intro b h; cases h; rfl
  | var h => intro b h'; cases h' with | var h' => rw [h] at h'; exact Option.some.inj h'
  | fsym h => intro b h'; cases h' with | fsym h' => rw [h] at h'; exact Option.some.inj h'
  | fn _ ih =>
    intro b h'
    cases hn with | un _ hn =>
    cases h' with | fn h' => rw [ih hn h']
  | pd h => intro b h'; cases h' with | pd h' => rw [h] at h'; exact Option.some.inj h'
  | bin h1 h2 h ihl ihr =>
    intro b h'
    cases hn with | bin _ hl hr =>
    cases h' with
    | bin h1' h2' h' => rw [← ihl hl h1', ← ihr hr h2', h] at h'; exact Option.some.inj h'
    | dotOne | dotSnoc => exact absurd h1 noVec
  | @dotOne ρ l r a h1 ih =>
    intro b h'
    have hl : NoInteg l := by cases hn with | bin _ h _ => cases h with | vec h => exact h l (by simp)
    have hr : NoInteg r := by cases hn with | bin _ _ h => cases h with | vec h => exact h r (by simp)
    generalize he : (Expr.bin BOp.mult (.vec [l]) (.vec [r]) : Expr K) = e at h'
    cases h' with
    | bin h1' _ _ => cases he; exact absurd h1' noVec
    | dotOne h' => cases he; exact ih (.bin _ hl hr) h'
    | @dotSnoc _ ls rs _ _ _ _ h1' _ =>
      simp only [Expr.bin.injEq, true_and, Expr.vec.injEq] at he
      cases ls with
      | nil => exact absurd h1' noEmpty
      | cons => simp at he
    | _ => cases he
  | @dotSnoc ρ ls rs l r a b h1 h2 ih1 ih2 =>
    intro c h'
    have hl : ∀ e ∈ ls ++ [l], NoInteg e := by
      cases hn with | bin _ h _ => cases h with | vec h => exact h
    have hr : ∀ e ∈ rs ++ [r], NoInteg e := by
      cases hn with | bin _ _ h => cases h with | vec h => exact h
    generalize he : (Expr.bin BOp.mult (.vec (ls ++ [l])) (.vec (rs ++ [r])) : Expr K) = e at h'
    cases h' with
    | bin h1' _ _ => cases he; exact absurd h1' noVec
    | dotOne h' =>
      simp only [Expr.bin.injEq, true_and, Expr.vec.injEq] at he
      cases ls with
      | nil => exact absurd h1 noEmpty
      | cons => simp at he
    | @dotSnoc _ ls' rs' l' r' _ _ h1' h2' =>
      simp only [Expr.bin.injEq, true_and, Expr.vec.injEq, List.append_singleton_inj] at he
      obtain ⟨⟨rfl, rfl⟩, rfl, rfl⟩ := he
      rw [ih1 (.bin _ (.vec fun e he => hl e (by simp [he])) (.vec fun e he => hr e (by simp [he]))) h1',
        ih2 (.bin _ (hl _ (by simp)) (hr _ (by simp))) h2']
    | _ => cases he
  | integ => cases hn

end VM
