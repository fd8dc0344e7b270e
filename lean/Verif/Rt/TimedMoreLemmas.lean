import Verif.Rt.TimedMore
import Verif.Rt.TimedLemmas
/-
The counted functions of TimedMore compute what the plain ones do, and how often they call (C81).
-/
namespace VM
open Timed Spec
variable {K : Type} [Num K]

@[simp] theorem val_findReplT (e : Expr K) : ∀ ss rs : List (Expr K), (findReplT e ss rs).val = findRepl e ss rs
  | [], _ => by simp [findReplT, findRepl]
  | s :: ss, [] => by simp [findReplT, findRepl, val_findReplT e ss []]
  | s :: ss, r :: rs => by simp [findReplT, findRepl, val_findReplT e ss rs]

mutual
@[simp] theorem val_substMT (ss rs : List (Expr K)) : ∀ e : Expr K, (substMT ss rs e).val = substM ss rs e
  | .const _ => by simp [substMT, substM]
  | .var _ => by simp [substMT, substM]
  | .fsym _ _ => by simp [substMT, substM]
  | .un op e => by
    simp only [substMT, substM, val_tick, val_bind, val_findReplT]
    congr 1; funext o; cases o <;> simp [val_substMT ss rs e]
  | .integ _ _ _ e => by
    simp only [substMT, substM, val_tick, val_bind, val_findReplT]
    congr 1; funext o; cases o <;> simp [val_substMT ss rs e]
  | .bin op l f => by
    simp only [substMT, substM, val_tick, val_bind, val_findReplT]
    congr 1; funext o; cases o <;> simp [val_substMT ss rs l, val_substMT ss rs f]
  | .vec es => by
    simp only [substMT, substM, val_tick, val_bind, val_findReplT]
    congr 1; funext o; cases o <;> simp [val_substMLT ss rs es]
theorem val_substMLT (ss rs : List (Expr K)) : ∀ es : List (Expr K), (substMLT ss rs es).val = substML ss rs es
  | [] => by simp [substMLT, substML]
  | e :: es => by simp [substMLT, substML, val_substMT ss rs e, val_substMLT ss rs es]
end

@[simp] theorem val_substituteManyT (ss rs : List (Expr K)) (e : Expr K) :
    (substituteManyT ss rs e).val = substituteMany ss rs e := by
  unfold substituteManyT substituteMany
  split <;> simp

theorem calls_findReplT (e : Expr K) : ∀ ss rs : List (Expr K), (findReplT e ss rs).calls ≤ (ss.map size).sum
  | [], _ => by simp [findReplT]
  | s :: ss, [] => by
    have h := calls_findReplT e ss []
    rw [findReplT, List.map_cons, List.sum_cons]
    exact calls_bind (calls_deepEqT e s).2 fun b _ => calls_ite (fun _ => Nat.zero_le _) fun _ => h
  | s :: ss, r :: rs => by
    have h := calls_findReplT e ss rs
    rw [findReplT, List.map_cons, List.sum_cons]
    exact calls_bind (calls_deepEqT e s).2 fun b _ => calls_ite (fun _ => Nat.zero_le _) fun _ => h

mutual
theorem calls_substMT (ss rs : List (Expr K)) : ∀ e : Expr K,
    (substMT ss rs e).calls ≤ size e * ((ss.map size).sum + 1)
  | .const c => by
    have := calls_findReplT (.const c) ss rs
    simp only [substMT, calls_tick, calls_map, size]; omega
  | .var c => by
    have := calls_findReplT (.var c) ss rs
    simp only [substMT, calls_tick, calls_map, size]; omega
  | .fsym c t => by
    have := calls_findReplT (.fsym c t) ss rs
    simp only [substMT, calls_tick, calls_map, size]; omega
  | .un op e => by
    have h1 := calls_findReplT (.un op e) ss rs
    have h2 := calls_substMT ss rs e
    have h : (substMT ss rs (.un op e)).calls ≤ (ss.map size).sum + size e * ((ss.map size).sum + 1) + 1 := by
      rw [substMT, calls_tick]
      refine Nat.succ_le_succ (calls_bind h1 fun b _ => ?_)
      cases b with
      | some r => exact Nat.zero_le _
      | none => simp only [calls_map]; exact h2
    refine h.trans ?_
    rw [size]; nlinarith
  | .integ lo hi x e => by
    have h1 := calls_findReplT (.integ lo hi x e) ss rs
    have h2 := calls_substMT ss rs e
    have h : (substMT ss rs (.integ lo hi x e)).calls ≤ (ss.map size).sum + size e * ((ss.map size).sum + 1) + 1 := by
      rw [substMT, calls_tick]
      refine Nat.succ_le_succ (calls_bind h1 fun b _ => ?_)
      cases b with
      | some r => exact Nat.zero_le _
      | none => simp only [calls_map]; exact h2
    refine h.trans ?_
    rw [size]; nlinarith
  | .bin op l f => by
    have h1 := calls_findReplT (.bin op l f) ss rs
    have h2 := calls_substMT ss rs l
    have h3 := calls_substMT ss rs f
    have h : (substMT ss rs (.bin op l f)).calls ≤
        (ss.map size).sum + (size l * ((ss.map size).sum + 1) + size f * ((ss.map size).sum + 1)) + 1 := by
      rw [substMT, calls_tick]
      refine Nat.succ_le_succ (calls_bind h1 fun b _ => ?_)
      cases b with
      | some r => exact Nat.zero_le _
      | none =>
        refine calls_bind h2 fun _ _ => ?_
        rw [calls_map]; exact h3
    refine h.trans ?_
    rw [size]; nlinarith
  | .vec es => by
    have h1 := calls_findReplT (.vec es) ss rs
    have h2 := calls_substMLT ss rs es
    have h : (substMT ss rs (.vec es)).calls ≤ (ss.map size).sum + sizes es * ((ss.map size).sum + 1) + 1 := by
      rw [substMT, calls_tick]
      refine Nat.succ_le_succ (calls_bind h1 fun b _ => ?_)
      cases b with
      | some r => exact Nat.zero_le _
      | none => simp only [calls_map]; exact h2
    refine h.trans ?_
    rw [size]; nlinarith
theorem calls_substMLT (ss rs : List (Expr K)) : ∀ es : List (Expr K),
    (substMLT ss rs es).calls ≤ sizes es * ((ss.map size).sum + 1)
  | [] => by simp [substMLT]
  | e :: es => by
    have h1 := calls_substMT ss rs e
    have h2 := calls_substMLT ss rs es
    have h3 : (substMLT ss rs (e :: es)).calls ≤ (substMT ss rs e).calls + (substMLT ss rs es).calls :=
      calls_bind (Nat.le_refl _) fun _ _ => (calls_map _ _).le
    rw [sizes, Nat.add_mul, Nat.add_mul]; omega
end

theorem calls_substituteManyT (ss rs : List (Expr K)) (e : Expr K) (m : Nat) (hm : 1 ≤ m) (hr : ∀ r ∈ rs, size r ≤ m) :
    (substituteManyT ss rs e).calls ≤ size e * ((ss.map size).sum + 1) + 12 * (m * size e) ^ 3 := by
  rw [substituteManyT]
  refine calls_ite (fun _ => ?_) fun _ => Nat.zero_le _
  refine calls_bind (calls_substMT ss rs e) fun e' he' => (calls_simplifiedT e').trans ?_
  rw [val_substMT] at he'
  have := Nat.pow_le_pow_left (size_substM ss rs m hm hr e e' he') 3
  omega

/-! ### Quadrature -/

@[simp] theorem val_evalST (o : Order K) (s : K) : ∀ e, (evalST o s e).val = evalS o s e
  | .const _ => by simp [evalST]
  | .var _ => by simp [evalST]
  | .fsym _ _ => by simp [evalST]
  | .un op e => by simp [evalST, evalS, val_evalST o s e]
  | .integ _ _ _ e => by simp [evalST, evalS, val_evalST o s e]
  | .bin op l r => by simp [evalST, evalS, val_evalST o s l, val_evalST o s r]
  | .vec _ => by simp [evalST]

theorem calls_evalST (o : Order K) (s : K) : ∀ e, (evalST o s e).calls ≤ size e
  | .const _ => by simp [evalST, size]
  | .var _ => by simp [evalST, size]
  | .fsym _ _ => by simp [evalST, size]
  | .un op e => by
    have := calls_evalST o s e
    simp only [evalST, calls_tick, calls_bind_pure, size]; omega
  | .integ _ _ _ e => by
    have := calls_evalST o s e
    simp only [evalST, calls_tick, calls_bind_pure, size]; omega
  | .bin op l r => by
    have h1 := calls_evalST o s l
    have h2 := calls_evalST o s r
    have h3 : (both (o l r) (evalST o s l) (evalST o s r) (applyB op)).calls ≤ _ := calls_both
    simp only [evalST, calls_tick, size]; omega
  | .vec _ => by simp [evalST, size]

theorem val_gaussQuad1T (o : Order K) (lo hi : Expr K) (x : Nat) (e : Expr K) :
    (gaussQuad1T o lo hi x e).val = gaussQuad1 o lo hi x e := by
  unfold gaussQuad1T gaussQuad1
  simp only [val_bind, val_bothConstT, Res.bind_ok]
  cases isConst lo && isConst hi <;> simp

theorem calls_gaussQuad1T (o : Order K) (lo hi : Expr K) (x : Nat) (e : Expr K) :
    (gaussQuad1T o lo hi x e).calls ≤ 3 * size (.integ lo hi x e) + 12 * size e ^ 3 := by
  have h1 : (bothConstT lo hi).calls ≤ size lo + size hi :=
    calls_bind (calls_isConstT lo) fun b _ => calls_ite (fun _ => calls_isConstT hi) fun _ => Nat.zero_le _
  have h2 : (gaussQuad1T o lo hi x e).calls ≤ (size lo + size hi) + ((size lo + size hi) +
      ((size e * 2 + 12 * size e ^ 3) + (size e + (size lo + size hi + 1)))) := by
    refine calls_bind h1 fun c _ => calls_ite (fun _ => ?_) fun _ => Nat.zero_le _
    refine calls_bind (calls_both.trans (Nat.add_le_add (calls_evalST ..) (calls_evalST ..))) fun m _ => ?_
    have hs := calls_substituteT (.var x) (.const m) e
    simp only [size, Nat.one_mul] at hs
    refine calls_bind hs fun tmp ht => ?_
    refine calls_both.trans (Nat.add_le_add ((calls_unwrapT o tmp).trans ?_) ((calls_evalST ..).trans ?_))
    · rw [val_substituteT, substitute] at ht
      obtain ⟨d, hd, ht⟩ := Res.bind_eq_ok.1 ht
      rw [substE_eq_substM] at hd
      have h3 := size_substM [.var x] [.const m] 1 le_rfl (by simp [size]) e d hd
      have h4 := size_simplified ht
      omega
    · rw [size]; omega
  rw [size]
  omega

theorem val_quadOfT (o : Order K) : ∀ e, (quadOfT o e).val = quadOf o (gaussQuad1 o) e := by
  have hz : ∀ (e : Expr K) (rest : Timed K), (zeroCheckT o e rest).val = zeroCheck o e rest.val := by
    intro e rest
    unfold zeroCheckT zeroCheck
    simp only [val_bind, val_isConstT, Res.bind_ok]
    cases isConst e
    · simp
    · simp only [val_ite, val_bind, val_evalST, val_ret, if_true]
      cases evalS o (Num.lit 0) e <;> simp
  have hb : ∀ (b : Bool) (l r : Timed K) (op : BOp), (quadBinT b l r op).val = quadBin b l.val r.val op := by
    intro b l r op
    cases op <;> simp [quadBinT, quadBin]
  intro e
  induction e using Expr.ind with
  | integ lo hi x e => exact val_gaussQuad1T o lo hi x e
  | un op e => cases op <;> rfl
  | bin op l r ihl ihr => rw [quadOfT, quadOf, hz, hb, ihl, ihr]
  | _ => simp only [quadOfT, quadOf, hz, val_ret]

theorem calls_zeroCheckT (o : Order K) (e : Expr K) (rest : Timed K) :
    (zeroCheckT o e rest).calls ≤ 3 * size e + rest.calls := by
  have h : (zeroCheckT o e rest).calls ≤ size e + (size e + (size e + rest.calls)) := by
    refine calls_bind (calls_isConstT e) fun c _ => calls_ite (fun _ => ?_) fun _ => by omega
    refine calls_bind (calls_evalST ..) fun _ _ => calls_bind (calls_evalST ..) fun _ _ => ?_
    exact calls_ite (fun _ => Nat.zero_le _) fun _ => le_rfl
  omega

theorem calls_quadOfT (o : Order K) : ∀ e, (quadOfT o e).calls ≤ 12 * size e ^ 3 + 3 * size e ^ 2 := by
  intro e
  have hleaf : ∀ e : Expr K, 3 * size e ≤ 12 * size e ^ 3 + 3 * size e ^ 2 := by
    intro e
    have := size_pos e
    nlinarith [Nat.zero_le (size e ^ 3)]
  induction e using Expr.ind with
  | integ lo hi x e =>
    have h1 := calls_gaussQuad1T o lo hi x e
    have h2 : size e ^ 3 ≤ size (.integ lo hi x e) ^ 3 := Nat.pow_le_pow_left (by rw [size]; omega) 3
    have h3 : size (Expr.integ lo hi x e) ≤ size (Expr.integ lo hi x e) ^ 2 := by
      have := size_pos (Expr.integ lo hi x e)
      nlinarith
    rw [quadOfT]
    omega
  | un op e => cases op <;> exact Nat.zero_le _
  | bin op l r ihl ihr =>
    have h1 := calls_zeroCheckT o (.bin op l r) (quadBinT (o l r) (quadOfT o l) (quadOfT o r) op)
    have h2 : (quadBinT (o l r) (quadOfT o l) (quadOfT o r) op).calls ≤ (quadOfT o l).calls + (quadOfT o r).calls := by
      cases op
      case plus => exact calls_both
      case minus => exact calls_both
      all_goals exact Nat.zero_le _
    rw [quadOfT]
    rw [size] at h1 ⊢
    generalize size l = a at *
    generalize size r = b at *
    have h3 : 12 * (a + b + 1) ^ 3 + 3 * (a + b + 1) ^ 2 = 12 * a ^ 3 + 12 * b ^ 3 + 3 * a ^ 2 + 3 * b ^ 2 +
      (36 * a ^ 2 * b + 36 * a * b ^ 2 + 36 * a ^ 2 + 36 * b ^ 2 + 72 * a * b + 36 * a + 36 * b + 12 +
        6 * a * b + 6 * a + 6 * b + 3) := by ring
    rw [h3]
    omega
  | _ =>
    rename_i c
    exact (calls_zeroCheckT ..).trans ((Nat.add_zero _).le.trans (hleaf _))

end VM
