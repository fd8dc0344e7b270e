import Verif.Rt.TimedMoreLemmas
import Verif.Rt.HeightLemmas
/-
How deep the calls of member functions of nodes are nested, for C117.
-/
namespace VM
open Timed Spec
variable {K : Type}

namespace Timed
variable {α β γ : Type}

@[simp] theorem depth_ret (r : Res α) : (ret r).depth = 0 := rfl
@[simp] theorem depth_tick (m : Timed α) : (tick m).depth = m.depth + 1 := rfl

@[simp] theorem depth_map (m : Timed α) (f : α → β) : (m.map f).depth = m.depth := by
  rcases m with ⟨_ | _ | _, n, d⟩ <;> simp [map, bind, ret]

theorem depth_bind {m : Timed α} {f : α → Timed β} {n : Nat} (hm : m.depth ≤ n)
    (hf : ∀ a, m.val = .ok a → (f a).depth ≤ n) : (m.bind f).depth ≤ n := by
  rcases m with ⟨a | _ | _, q, d⟩
  · have := hf a rfl
    simp only [bind] at hm ⊢
    omega
  · exact hm
  · exact hm

theorem depth_bind_ok {m : Timed α} {f : α → Timed β} {a : α} (h : m.val = .ok a) :
    (m.bind f).depth = max m.depth (f a).depth := by
  rcases m with ⟨_ | _ | _, q, d⟩ <;> cases h
  rfl

@[simp] theorem depth_bind_pure (m : Timed α) (f : α → Res β) : (m.bind fun a => ret (f a)).depth = m.depth := by
  rcases m with ⟨_ | _ | _, q, d⟩ <;> simp [bind, ret]

theorem depth_both {b : Bool} {l : Timed α} {r : Timed β} {f : α → β → Res γ} {n : Nat} (hl : l.depth ≤ n)
    (hr : r.depth ≤ n) : (both b l r f).depth ≤ n := by
  cases b
  · rw [both, if_neg (by simp)]
    exact depth_bind hr fun a _ => by rw [depth_bind_pure]; exact hl
  · rw [both, if_pos rfl]
    exact depth_bind hl fun a _ => by rw [depth_bind_pure]; exact hr

theorem depth_both_ok {b : Bool} {l : Timed α} {r : Timed β} {f : α → β → Res γ} {x : α} {y : β} (hl : l.val = .ok x)
    (hr : r.val = .ok y) : (both b l r f).depth = max l.depth r.depth := by
  cases b
  · rw [both, if_neg (by simp), depth_bind_ok hr, depth_bind_pure, max_comm]
  · rw [both, if_pos rfl, depth_bind_ok hl, depth_bind_pure]

theorem depth_ite {b : Prop} [Decidable b] {m n : Timed α} {p : Nat} (hm : m.depth ≤ p) (hn : n.depth ≤ p) :
    (if b then m else n).depth ≤ p := by
  split
  · exact hm
  · exact hn

end Timed

theorem height_pos (e : Expr K) : 1 ≤ height e := by cases e <;> simp [height]

variable [Num K]

theorem depth_evalT (o : Order K) (v : List K) : ∀ e, (evalT o v e).depth ≤ height e
  | .const _ | .var _ | .fsym _ _ | .vec _ => by simp [evalT, height]
  | .un op e => by
    have := depth_evalT o v e
    simp only [evalT, depth_tick, depth_bind_pure, height]; omega
  | .integ _ _ _ e => by
    have := depth_evalT o v e
    simp only [evalT, depth_tick, depth_bind_pure, height]; omega
  | .bin op l r => by
    have h1 := depth_evalT o v l
    have h2 := depth_evalT o v r
    rw [evalT, depth_tick, height]
    exact Nat.succ_le_succ (depth_both (by omega) (by omega))

theorem depth_evalT_ok (o : Order K) (v : List K) : ∀ (e : Expr K) (a : K), eval o v e = .ok a →
    (evalT o v e).depth = height e
  | .const _, _, _ | .var _, _, _ | .fsym _ _, _, _ => by simp [evalT, height]
  | .vec _, _, h => by simp [eval] at h
  | .un op e, a, h => by
    simp only [eval] at h
    obtain ⟨b, hb, -⟩ := Res.bind_eq_ok.1 h
    simp only [evalT, depth_tick, depth_bind_pure, height, depth_evalT_ok o v e b hb]
  | .integ _ _ _ e, a, h => by
    simp only [eval] at h
    obtain ⟨b, hb, h⟩ := Res.bind_eq_ok.1 h
    cases h
  | .bin op l r, a, h => by
    simp only [eval] at h
    obtain ⟨x, y, hx, hy, -⟩ := Res.both_eq_ok.1 h
    rw [evalT, depth_tick, height, depth_both_ok (x := x) (y := y) (by simpa using hx) (by simpa using hy),
      depth_evalT_ok o v l x hx, depth_evalT_ok o v r y hy]

omit [Num K] in
theorem depth_isConstT : ∀ e : Expr K, (isConstT e).depth ≤ height e
  | .const _ | .var _ | .fsym _ _ | .vec _ | .un _ _ | .integ _ _ _ _ => by simp [isConstT, height]
  | .bin op l r => by
    have h1 := depth_isConstT l
    have h2 := depth_isConstT r
    rw [isConstT, depth_tick, height]
    exact Nat.succ_le_succ (depth_bind (by omega) fun _ _ => depth_ite (by omega) (Nat.zero_le _))

theorem depth_unwrapT (o : Order K) : ∀ e, (unwrapT o e).depth ≤ height e
  | .const _ | .var _ | .fsym _ _ | .vec _ => by simp [unwrapT, height]
  | .un op e => by
    have := depth_unwrapT o e
    simp only [unwrapT, depth_tick, depth_bind_pure, height]; omega
  | .integ _ _ _ e => by
    have := depth_unwrapT o e
    simp only [unwrapT, depth_tick, depth_bind_pure, height]; omega
  | .bin op l r => by
    have h1 := depth_unwrapT o l
    have h2 := depth_unwrapT o r
    rw [unwrapT, depth_tick, height]
    exact Nat.succ_le_succ (depth_both (by omega) (by omega))

mutual
theorem depth_deepEqT : ∀ e f : Expr K, (deepEqT e f).depth ≤ height e ∧ (deepEqT e f).depth ≤ height f
  | .un op e, .un op' e' => by
    have := depth_deepEqT e e'
    simp only [deepEqT, depth_tick, depth_map, height]; omega
  | .un op e, .integ _ _ _ e' => by
    have := depth_deepEqT e e'
    simp only [deepEqT, depth_tick, depth_map, height]; omega
  | .integ _ _ _ e, .un op' e' => by
    have := depth_deepEqT e e'
    simp only [deepEqT, depth_tick, depth_map, height]; omega
  | .integ _ _ _ e, .integ _ _ _ e' => by
    have := depth_deepEqT e e'
    simp only [deepEqT, depth_tick, height]; omega
  | .bin op l r, .bin op' l' r' => by
    have h1 := depth_deepEqT l l'
    have h2 := depth_deepEqT r r'
    rw [deepEqT, depth_tick, height, height]
    constructor
    · exact Nat.succ_le_succ (depth_bind (by omega) fun _ _ => depth_ite (by omega) (Nat.zero_le _))
    · exact Nat.succ_le_succ (depth_bind (by omega) fun _ _ => depth_ite (by omega) (Nat.zero_le _))
  | .vec es, .vec fs => by
    have := depth_deepEqLT es fs
    simp only [deepEqT, depth_tick, height]; omega
  | .const _, f | .var _, f | .fsym _ _, f => by
    have := height_pos f
    simp only [deepEqT, depth_tick, depth_ret, height]; omega
  | .un _ e, .const _ | .un _ e, .var _ | .un _ e, .fsym _ _ | .un _ e, .bin _ _ _ | .un _ e, .vec _ => by
    simp only [deepEqT, depth_tick, depth_ret, height]; omega
  | .integ _ _ _ e, .const _ | .integ _ _ _ e, .var _ | .integ _ _ _ e, .fsym _ _ | .integ _ _ _ e, .bin _ _ _
  | .integ _ _ _ e, .vec _ => by
    simp only [deepEqT, depth_tick, depth_ret, height]; omega
  | .bin _ _ _, .const _ | .bin _ _ _, .var _ | .bin _ _ _, .fsym _ _ | .bin _ _ _, .un _ _ | .bin _ _ _, .integ _ _ _ _
  | .bin _ _ _, .vec _ => by
    simp only [deepEqT, depth_tick, depth_ret, height]; omega
  | .vec _, .const _ | .vec _, .var _ | .vec _, .fsym _ _ | .vec _, .un _ _ | .vec _, .integ _ _ _ _
  | .vec _, .bin _ _ _ => by
    simp only [deepEqT, depth_tick, depth_ret, height]; omega
theorem depth_deepEqLT : ∀ es fs : List (Expr K), (deepEqLT es fs).depth ≤ heights es ∧ (deepEqLT es fs).depth ≤ heights fs
  | _, [] => by simp [deepEqLT]
  | [], _ :: _ => by simp [deepEqLT]
  | e :: es, f :: fs => by
    have h1 := depth_deepEqT e f
    have h2 := depth_deepEqLT es fs
    rw [deepEqLT, heights, heights]
    constructor
    · exact depth_bind (by omega) fun _ _ => depth_ite (by omega) (Nat.zero_le _)
    · exact depth_bind (by omega) fun _ _ => depth_ite (by omega) (Nat.zero_le _)
end

omit [Num K] in
theorem depth_bothConstT (l r : Expr K) : (bothConstT l r).depth ≤ max (height l) (height r) := by
  have h1 := depth_isConstT l
  have h2 := depth_isConstT r
  exact depth_bind (by omega) fun _ _ => depth_ite (by omega) (Nat.zero_le _)

theorem depth_asks {l r : Expr K} {α : Type} {f : K → Timed α} {g : K → Timed α} {m : Timed α} {N : Nat}
    (hl : height l ≤ N) (hr : height r ≤ N) (hf : ∀ v, (f v).depth ≤ N) (hg : ∀ v, (g v).depth ≤ N) (hm : m.depth ≤ N) :
    ((isConstT l).bind fun b => if b then (unwrapT leftFirst l).bind f else
      (isConstT r).bind fun b => if b then (unwrapT leftFirst r).bind g else m).depth ≤ N := by
  have h1 := depth_isConstT l
  have h2 := depth_isConstT r
  have h3 := depth_unwrapT leftFirst l
  have h4 := depth_unwrapT leftFirst r
  exact depth_bind (by omega) fun _ _ => depth_ite (depth_bind (by omega) fun v _ => hf v)
    (depth_bind (by omega) fun _ _ => depth_ite (depth_bind (by omega) fun v _ => hg v) hm)

theorem depth_simpBinT {op : BOp} {l r : Expr K} {sl sr : Timed (Expr K)} {N : Nat} (hl : height l ≤ N)
    (hr : height r ≤ N) (hsl : sl.depth ≤ N) (hsr : sr.depth ≤ N) : (simpBinT op l r sl sr).depth ≤ N := by
  have hb (f : Expr K → Expr K → Expr K) : (sl.bind fun l' => sr.map fun r' => f l' r').depth ≤ N :=
    depth_bind hsl fun _ _ => (depth_map _ _).le.trans hsr
  cases op with
  | plus =>
    refine depth_asks hl hr (fun v => depth_ite ?_ ?_) (fun v => depth_ite ?_ ?_) (hb _)
    all_goals first | omega | (rw [depth_map]; omega)
  | minus =>
    refine depth_asks hl hr (fun v => depth_ite ?_ ?_) (fun v => depth_ite ?_ ?_) (hb _)
    all_goals first | omega | (rw [depth_map]; omega)
  | mult =>
    refine depth_asks hl hr (fun v => depth_ite (Nat.zero_le _) (depth_ite ?_ ?_))
      (fun v => depth_ite (Nat.zero_le _) (depth_ite ?_ ?_)) ?_
    · omega
    · rw [depth_map]; omega
    · omega
    · rw [depth_map]; omega
    · split
      · exact Nat.zero_le _
      · exact hb _
  | div =>
    refine depth_asks hl hr (fun v => depth_ite (Nat.zero_le _) ?_) (fun v => depth_ite ?_ ?_) (hb _)
    all_goals first | omega | (rw [depth_map]; omega)
  | uid => exact Nat.zero_le _

theorem depth_simplifyT : ∀ e : Expr K, (simplifyT e).depth ≤ height e + 1
  | .const _ | .var _ | .fsym _ _ | .vec _ => by simp [simplifyT, height]
  | .un op e => by
    have h1 := depth_isConstT e
    have h2 := depth_unwrapT leftFirst e
    have h3 := depth_simplifyT e
    rw [simplifyT, depth_tick, height]
    refine Nat.succ_le_succ (depth_bind (by omega) fun _ _ => depth_ite (depth_bind (by omega) fun _ _ => ?_) ?_)
    · exact depth_ite (Nat.zero_le _) (Nat.zero_le _)
    · rw [depth_map]; omega
  | .integ lo hi x e => by
    have h1 := depth_isConstT e
    have h2 := depth_unwrapT leftFirst e
    have h3 := depth_simplifyT e
    rw [simplifyT, depth_tick, height]
    refine Nat.succ_le_succ (depth_bind (by omega) fun _ _ => depth_ite ?_ ?_)
    · rw [depth_map]; omega
    · rw [depth_map]; omega
  | .bin op l r => by
    have h1 := depth_bothConstT l r
    have h2 := depth_unwrapT leftFirst (.bin op l r)
    have h3 := depth_simplifyT l
    have h4 := depth_simplifyT r
    rw [height] at h2
    rw [simplifyT, depth_tick, height]
    refine Nat.succ_le_succ (depth_bind (by omega) fun _ _ => depth_ite ?_ ?_)
    · rw [depth_map]; omega
    · exact depth_simpBinT (by omega) (by omega) (by omega) (by omega)

theorem depth_constCheckT {e : Expr K} {p : K → Bool} {m : Timed Bool} {N : Nat} (he : height e ≤ N) (hm : m.depth ≤ N) :
    (constCheckT e p m).depth ≤ N := by
  have h1 := depth_isConstT e
  have h2 := depth_unwrapT leftFirst e
  exact depth_bind (by omega) fun _ _ =>
    depth_ite (depth_bind (by omega) fun _ _ => depth_ite (Nat.zero_le _) hm) hm

theorem depth_canBinT {op : BOp} {l r : Expr K} {cl cr : Timed Bool} {N : Nat} (hl : height l ≤ N)
    (hr : height r ≤ N) (hcl : cl.depth ≤ N) (hcr : cr.depth ≤ N) : (canBinT op l r cl cr).depth ≤ N := by
  have hb : (cl.bind fun b => if b then ret (.ok true) else cr).depth ≤ N :=
    depth_bind hcl fun _ _ => depth_ite (Nat.zero_le _) hcr
  have hc {p q : K → Bool} {m : Timed Bool} (hm : m.depth ≤ N) :
      (constCheckT l p (constCheckT r q m)).depth ≤ N := depth_constCheckT hl (depth_constCheckT hr hm)
  cases op with
  | plus => exact hc hb
  | minus => exact hc hb
  | mult =>
    refine hc ?_
    split
    · exact Nat.zero_le _
    · exact hb
  | div => exact hc hb
  | uid => exact Nat.zero_le _

theorem depth_canSimplifyT : ∀ e : Expr K, (canSimplifyT e).depth ≤ height e
  | .const _ | .var _ | .fsym _ _ | .vec _ => by simp [canSimplifyT, height]
  | .un op e => by
    have h3 := depth_canSimplifyT e
    simp only [canSimplifyT, depth_tick, height]; omega
  | .integ lo hi x e => by
    have h3 := depth_canSimplifyT e
    simp only [canSimplifyT, depth_tick, height]; omega
  | .bin op l r => by
    have h1 := depth_bothConstT l r
    have h3 := depth_canSimplifyT l
    have h4 := depth_canSimplifyT r
    rw [canSimplifyT, depth_tick, height]
    exact Nat.succ_le_succ (depth_bind (by omega) fun _ _ => depth_ite (Nat.zero_le _)
      (depth_canBinT (by omega) (by omega) (by omega) (by omega)))

theorem depth_simplifyLoopT {S : Nat} : ∀ (n : Nat) (e : Expr K), Spec.reach e ≤ S → (simplifyLoopT n e).depth ≤ S + 1
  | 0, _, _ => Nat.zero_le _
  | n + 1, e, he => by
    have h0 := height_le_reach e
    have h1 := depth_canSimplifyT e
    have h2 := depth_simplifyT e
    rw [simplifyLoopT]
    refine depth_bind (by omega) fun b _ => depth_ite (depth_bind (by omega) fun e' he' => ?_) (Nat.zero_le _)
    rw [val_simplifyT] at he'
    exact depth_simplifyLoopT n e' ((Pass.of_simplify he').reach_le.trans he)

theorem depth_simplifiedT (e : Expr K) : (simplifiedT e).depth ≤ Spec.reach e + 1 :=
  depth_simplifyLoopT _ e le_rfl

mutual
theorem depth_diffET (x : DVar) : ∀ e : Expr K, (diffET x e).depth ≤ height e
  | .const _ | .var _ | .fsym _ _ => by simp [diffET, height]
  | .un (.fn f) e => by
    have h := depth_diffET x e
    by_cases hf : f = .fabs
    · subst hf; simp only [diffET, depth_tick, depth_ret, height]; omega
    · have : diffET x (.un (.fn f) e) = tick ((diffET x e).bind fun d => ret (diffFn f e (.ok d))) := by
        cases f <;> first | rfl | exact absurd rfl hf
      rw [this, depth_tick, depth_bind_pure, height]; omega
  | .un .grad e => by
    have h := depth_diffET x e
    have hp := height_pos e
    cases x with
    | var i => simp only [diffET, depth_tick, depth_ret, height]; omega
    | fsym i t =>
      rw [diffET, depth_tick, height]
      refine Nat.succ_le_succ (depth_bind h fun d _ => depth_bind ?_ fun _ _ => depth_ite (Nat.zero_le _) ?_)
      · have := (depth_deepEqT d (.const (Num.lit 0))).2
        simp only [height] at this
        omega
      · rw [depth_map]; exact h
  | .un .divg _ | .un (.pd _) _ | .un (.symInt _) _ => by simp [diffET, height]
  | .integ _ _ _ _ => by simp [diffET, height]
  | .bin op l r => by
    have h1 := depth_diffET x l
    have h2 := depth_diffET x r
    rw [diffET, depth_tick, height]
    refine Nat.succ_le_succ ?_
    cases op with
    | uid => exact Nat.zero_le _
    | _ => exact depth_bind (by omega) fun _ _ => by rw [depth_bind_pure]; omega
  | .vec es => by
    have h := depth_diffELT x es
    simp only [diffET, depth_tick, depth_map, height]; omega
theorem depth_diffELT (x : DVar) : ∀ es : List (Expr K), (diffELT x es).depth ≤ heights es
  | [] => by simp [diffELT]
  | e :: es => by
    have h1 := depth_diffET x e
    have h2 := depth_diffELT x es
    rw [diffELT, heights]
    exact depth_bind (by omega) fun _ _ => by rw [depth_map]; omega
end

theorem depth_diffT (x : DVar) (e : Expr K) : (diffT x e).depth ≤ 3 * Spec.reach e + 1 := by
  have h1 := depth_diffET x e
  have h2 := height_le_reach e
  refine depth_bind (by omega) fun e' he' => (depth_simplifiedT e').trans ?_
  rw [val_diffET] at he'
  have := reach_diffE x e e' he'
  omega

theorem depth_findReplT (e : Expr K) : ∀ ss rs : List (Expr K), (findReplT e ss rs).depth ≤ height e
  | [], _ => by simp [findReplT]
  | s :: ss, [] => by
    have h := depth_findReplT e ss []
    rw [findReplT]
    exact depth_bind (depth_deepEqT e s).1 fun b _ => depth_ite (Nat.zero_le _) h
  | s :: ss, r :: rs => by
    have h := depth_findReplT e ss rs
    rw [findReplT]
    exact depth_bind (depth_deepEqT e s).1 fun b _ => depth_ite (Nat.zero_le _) h

mutual
theorem depth_substMT (ss rs : List (Expr K)) : ∀ e : Expr K, (substMT ss rs e).depth ≤ height e + 1
  | .const c => by
    have := depth_findReplT (.const c) ss rs
    simp only [substMT, depth_tick, depth_map]; omega
  | .var c => by
    have := depth_findReplT (.var c) ss rs
    simp only [substMT, depth_tick, depth_map]; omega
  | .fsym c t => by
    have := depth_findReplT (.fsym c t) ss rs
    simp only [substMT, depth_tick, depth_map]; omega
  | .un op e => by
    have h1 := depth_findReplT (.un op e) ss rs
    have h2 := depth_substMT ss rs e
    rw [substMT, depth_tick]
    refine Nat.succ_le_succ (depth_bind h1 fun b _ => ?_)
    cases b with
    | some r => exact Nat.zero_le _
    | none => simp only [depth_map, height]; exact h2
  | .integ lo hi x e => by
    have h1 := depth_findReplT (.integ lo hi x e) ss rs
    have h2 := depth_substMT ss rs e
    rw [substMT, depth_tick]
    refine Nat.succ_le_succ (depth_bind h1 fun b _ => ?_)
    cases b with
    | some r => exact Nat.zero_le _
    | none => simp only [depth_map, height]; omega
  | .bin op l f => by
    have h1 := depth_findReplT (.bin op l f) ss rs
    have h2 := depth_substMT ss rs l
    have h3 := depth_substMT ss rs f
    rw [substMT, depth_tick]
    refine Nat.succ_le_succ (depth_bind h1 fun b _ => ?_)
    cases b with
    | some r => exact Nat.zero_le _
    | none =>
      rw [height]
      exact depth_bind (by omega) fun _ _ => by rw [depth_map]; omega
  | .vec es => by
    have h1 := depth_findReplT (.vec es) ss rs
    have h2 := depth_substMLT ss rs es
    rw [substMT, depth_tick]
    refine Nat.succ_le_succ (depth_bind h1 fun b _ => ?_)
    cases b with
    | some r => exact Nat.zero_le _
    | none => simp only [depth_map, height]; exact h2
theorem depth_substMLT (ss rs : List (Expr K)) : ∀ es : List (Expr K), (substMLT ss rs es).depth ≤ heights es + 1
  | [] => by simp [substMLT]
  | e :: es => by
    have h1 := depth_substMT ss rs e
    have h2 := depth_substMLT ss rs es
    rw [substMLT, heights]
    exact depth_bind (by omega) fun _ _ => by rw [depth_map]; omega
end

theorem depth_substituteManyT (ss rs : List (Expr K)) (m : Nat) (hr : ∀ r ∈ rs, Spec.reach r ≤ m + 1) (e : Expr K) :
    (substituteManyT ss rs e).depth ≤ Spec.reach e + m + 1 := by
  have h1 := depth_substMT ss rs e
  have h2 := height_le_reach e
  rw [substituteManyT]
  refine depth_ite (depth_bind (by omega) fun e' he' => (depth_simplifiedT e').trans ?_) (Nat.zero_le _)
  rw [val_substMT] at he'
  have := reach_substM ss rs m hr e e' he'
  omega

mutual
theorem depth_substET (s r : Expr K) : ∀ e : Expr K, (substET s r e).depth ≤ height e + 1
  | .const c => by
    have := (depth_deepEqT (.const c) s).1
    simp only [substET, depth_tick, depth_map]; omega
  | .var c => by
    have := (depth_deepEqT (.var c) s).1
    simp only [substET, depth_tick, depth_map]; omega
  | .fsym c t => by
    have := (depth_deepEqT (.fsym c t) s).1
    simp only [substET, depth_tick, depth_map]; omega
  | .un op e => by
    have h1 := (depth_deepEqT (.un op e) s).1
    have h2 := depth_substET s r e
    rw [substET, depth_tick]
    refine Nat.succ_le_succ (depth_bind h1 fun b _ => depth_ite (Nat.zero_le _) ?_)
    simp only [depth_map, height]; omega
  | .integ lo hi x e => by
    have h1 := (depth_deepEqT (.integ lo hi x e) s).1
    have h2 := depth_substET s r e
    rw [substET, depth_tick]
    refine Nat.succ_le_succ (depth_bind h1 fun b _ => depth_ite (Nat.zero_le _) ?_)
    simp only [depth_map, height]; omega
  | .bin op l f => by
    have h1 := (depth_deepEqT (.bin op l f) s).1
    have h2 := depth_substET s r l
    have h3 := depth_substET s r f
    rw [substET, depth_tick]
    refine Nat.succ_le_succ (depth_bind h1 fun b _ => depth_ite (Nat.zero_le _) ?_)
    rw [height]
    exact depth_bind (by omega) fun _ _ => by rw [depth_map]; omega
  | .vec es => by
    have h1 := (depth_deepEqT (.vec es) s).1
    have h2 := depth_substELT s r es
    rw [substET, depth_tick]
    refine Nat.succ_le_succ (depth_bind h1 fun b _ => depth_ite (Nat.zero_le _) ?_)
    simp only [depth_map, height]; exact h2
theorem depth_substELT (s r : Expr K) : ∀ es : List (Expr K), (substELT s r es).depth ≤ heights es + 1
  | [] => by simp [substELT]
  | e :: es => by
    have h1 := depth_substET s r e
    have h2 := depth_substELT s r es
    rw [substELT, heights]
    exact depth_bind (by omega) fun _ _ => by rw [depth_map]; omega
end

theorem depth_substituteT (s r e : Expr K) : (substituteT s r e).depth ≤ Spec.reach e + Spec.reach r := by
  have h1 := depth_substET s r e
  have h2 := height_le_reach e
  have h3 := height_le_reach r
  have h4 := height_pos r
  rw [substituteT]
  refine depth_bind (by omega) fun e' he' => (depth_simplifiedT e').trans ?_
  rw [val_substET, substE_eq_substM] at he'
  have := reach_substM [s] [r] (Spec.reach r - 1) (by simp; omega) e e' he'
  omega

/-! ### Calls that go all the way down -/

theorem ok_bind {α β : Type} {m : Timed α} {f : α → Timed β} {b : β} (h : (m.bind f).val = .ok b) :
    ∃ a, m.val = .ok a ∧ (f a).val = .ok b ∧ (m.bind f).depth = max m.depth (f a).depth := by
  rw [val_bind] at h
  obtain ⟨a, ha, h⟩ := Res.bind_eq_ok.1 h
  exact ⟨a, ha, h, depth_bind_ok ha⟩

theorem constCheckT_false {e : Expr K} {p : K → Bool} {m : Timed Bool} (h : (constCheckT e p m).val = .ok false) :
    m.val = .ok false ∧ m.depth ≤ (constCheckT e p m).depth := by
  unfold constCheckT at h ⊢
  obtain ⟨b, -, h1, h2⟩ := ok_bind h
  rw [h2]
  cases b
  · exact ⟨h1, le_max_right _ _⟩
  · rw [if_pos rfl] at h1 ⊢
    obtain ⟨v, -, h3, h4⟩ := ok_bind h1
    rw [h4]
    split at h3
    · cases h3
    · rename_i hp
      rw [if_neg hp]
      exact ⟨h3, (le_max_right _ _).trans (le_max_right _ _)⟩

theorem eitherT_false {cl cr : Timed Bool} (h : (cl.bind fun b => if b then ret (.ok true) else cr).val = .ok false) :
    cl.val = .ok false ∧ cr.val = .ok false ∧
      max cl.depth cr.depth ≤ (cl.bind fun b => if b then ret (.ok true) else cr).depth := by
  obtain ⟨b, h1, h2, h3⟩ := ok_bind h
  rw [h3]
  cases b
  · exact ⟨h1, h2, le_rfl⟩
  · cases h2

theorem canBinT_false {op : BOp} {l r : Expr K} {cl cr : Timed Bool} (hop : op ≠ .uid)
    (h : (canBinT op l r cl cr).val = .ok false) :
    cl.val = .ok false ∧ cr.val = .ok false ∧ max cl.depth cr.depth ≤ (canBinT op l r cl cr).depth := by
  have key {p q : K → Bool} {m : Timed Bool}
      (hm : m.val = .ok false → cl.val = .ok false ∧ cr.val = .ok false ∧ max cl.depth cr.depth ≤ m.depth)
      (h : (constCheckT l p (constCheckT r q m)).val = .ok false) :
      cl.val = .ok false ∧ cr.val = .ok false ∧
        max cl.depth cr.depth ≤ (constCheckT l p (constCheckT r q m)).depth := by
    obtain ⟨h1, h2⟩ := constCheckT_false h
    obtain ⟨h3, h4⟩ := constCheckT_false h1
    obtain ⟨h5, h6, h7⟩ := hm h3
    exact ⟨h5, h6, h7.trans (h4.trans h2)⟩
  cases op with
  | plus => exact key eitherT_false h
  | minus => exact key eitherT_false h
  | mult =>
    refine key ?_ h
    split
    · intro h; cases h
    · exact eitherT_false
  | div => exact key eitherT_false h
  | uid => exact absurd rfl hop

theorem depth_canSimplifyT_false : ∀ e : Expr K, Spec.Bare e → canSimplify e = .ok false →
    (canSimplifyT e).depth = height e
  | .const _, _, _ | .var _, _, _ | .fsym _ _, _, _ => by simp [canSimplifyT, height]
  | .un op e, hp, h => by
    rw [canSimplifyT, depth_tick, height, depth_canSimplifyT_false e hp h]
  | .bin op l r, hp, h => by
    refine le_antisymm (depth_canSimplifyT _) ?_
    rw [← val_canSimplifyT] at h
    rw [canSimplifyT] at h ⊢
    rw [val_tick] at h
    obtain ⟨b, -, h1, h2⟩ := ok_bind h
    rw [depth_tick, h2, height]
    cases b
    · obtain ⟨h3, h4, h5⟩ := canBinT_false hp.1 h1
      have h6 := depth_canSimplifyT_false l hp.2.1 (by rw [← val_canSimplifyT]; exact h3)
      have h7 := depth_canSimplifyT_false r hp.2.2 (by rw [← val_canSimplifyT]; exact h4)
      rw [h6, h7] at h5
      exact Nat.succ_le_succ (h5.trans (le_max_right _ _))
    · cases h1
  | .integ _ _ _ _, hp, _ | .vec _, hp, _ => hp.elim

theorem depth_simplifyLoopT_ge : ∀ (n : Nat) (e e' : Expr K), (simplifyLoopT n e).val = .ok e' → Spec.Bare e' →
    height e' ≤ (simplifyLoopT n e).depth
  | 0, _, _, h, _ => by cases h
  | n + 1, e, e', h, hp => by
    rw [simplifyLoopT] at h ⊢
    obtain ⟨b, h1, h2, h3⟩ := ok_bind h
    rw [h3]
    cases b
    · cases h2
      rw [depth_canSimplifyT_false e hp (by rw [← val_canSimplifyT]; exact h1)]
      exact le_max_left _ _
    · rw [if_pos rfl] at h2 ⊢
      obtain ⟨d, -, h4, h5⟩ := ok_bind h2
      rw [h5]
      exact (depth_simplifyLoopT_ge n d e' h4 hp).trans ((le_max_right _ _).trans (le_max_right _ _))

theorem depth_bindSimplifiedT_ge {m : Timed (Expr K)} {e' : Expr K} (h : (m.bind simplifiedT).val = .ok e')
    (hp : Spec.Bare e') : height e' ≤ (m.bind simplifiedT).depth := by
  obtain ⟨d, -, h1, h2⟩ := ok_bind h
  rw [h2]
  exact (depth_simplifyLoopT_ge _ d e' h1 hp).trans (le_max_right _ _)

end VM
