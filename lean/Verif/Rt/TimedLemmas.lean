import Verif.Rt.Timed
import Verif.Rt.SizeLemmas
import Verif.Rt.Nested
import Verif.Spec.Timed
import Mathlib.Tactic.Ring
import Mathlib.Tactic.Linarith
/-
The counting functions return what the plain ones return, and bounds on the number of calls.
-/
namespace VM
open Spec Timed
variable {K : Type}

/-! ### The monad -/

namespace Timed
variable {α β γ : Type}

@[simp] theorem val_ret (r : Res α) : (ret r).val = r := rfl
@[simp] theorem calls_ret (r : Res α) : (ret r).calls = 0 := rfl
@[simp] theorem val_tick (m : Timed α) : (tick m).val = m.val := rfl
@[simp] theorem calls_tick (m : Timed α) : (tick m).calls = m.calls + 1 := rfl

@[simp] theorem val_bind (m : Timed α) (f : α → Timed β) : (m.bind f).val = m.val.bind fun a => (f a).val := by
  rcases m with ⟨_ | _ | _, n, d⟩ <;> rfl

@[simp] theorem val_map (m : Timed α) (f : α → β) : (m.map f).val = m.val.map f := by
  rcases m with ⟨_ | _ | _, n, d⟩ <;> rfl

@[simp] theorem val_both (b : Bool) (l : Timed α) (r : Timed β) (f : α → β → Res γ) :
    (both b l r f).val = Res.both b l.val r.val f := by
  cases b <;> simp [both, Res.both]

@[simp] theorem val_ite (b : Prop) [Decidable b] (m n : Timed α) :
    (if b then m else n).val = if b then m.val else n.val := by split <;> rfl

@[simp] theorem calls_map (m : Timed α) (f : α → β) : (m.map f).calls = m.calls := by
  rcases m with ⟨_ | _ | _, n, d⟩ <;> rfl

theorem calls_bind {m : Timed α} {f : α → Timed β} {n p : Nat} (hm : m.calls ≤ n)
    (hf : ∀ a, m.val = .ok a → (f a).calls ≤ p) : (m.bind f).calls ≤ n + p := by
  rcases m with ⟨a | _ | _, q, d⟩
  · have := hf a rfl
    simp only [bind] at hm ⊢
    omega
  · simp only [bind] at hm ⊢
    omega
  · simp only [bind] at hm ⊢
    omega

theorem calls_bind_ok {m : Timed α} {f : α → Timed β} {a : α} (h : m.val = .ok a) :
    (m.bind f).calls = m.calls + (f a).calls := by
  rcases m with ⟨_ | _ | _, q, d⟩ <;> cases h
  rfl

theorem calls_bind_pure (m : Timed α) (f : α → Res β) : (m.bind fun a => ret (f a)).calls = m.calls := by
  rcases m with ⟨_ | _ | _, q, d⟩ <;> rfl

theorem calls_both {b : Bool} {l : Timed α} {r : Timed β} {f : α → β → Res γ} :
    (both b l r f).calls ≤ l.calls + r.calls := by
  cases b
  · rw [both, if_neg (by simp), Nat.add_comm]
    exact calls_bind (Nat.le_refl _) fun a _ => (calls_bind_pure _ _).le
  · rw [both, if_pos rfl]
    exact calls_bind (Nat.le_refl _) fun a _ => (calls_bind_pure _ _).le

theorem calls_both_ok {b : Bool} {l : Timed α} {r : Timed β} {f : α → β → Res γ} {x : α} {y : β} (hl : l.val = .ok x)
    (hr : r.val = .ok y) : (both b l r f).calls = l.calls + r.calls := by
  cases b
  · rw [both, if_neg (by simp), calls_bind_ok hr, calls_bind_pure, Nat.add_comm]
  · rw [both, if_pos rfl, calls_bind_ok hl, calls_bind_pure]

theorem calls_ite {b : Prop} [Decidable b] {m n : Timed α} {p : Nat} (hm : b → m.calls ≤ p) (hn : ¬ b → n.calls ≤ p) :
    (if b then m else n).calls ≤ p := by
  split
  · exact hm ‹_›
  · exact hn ‹_›

end Timed

/-! ### The same results -/

variable [Num K]

@[simp] theorem val_evalT (o : Order K) (v : List K) : ∀ e, (evalT o v e).val = eval o v e
  | .const _ => rfl
  | .var _ => rfl
  | .fsym _ _ => rfl
  | .vec _ => rfl
  | .un op e => by simp [evalT, eval, val_evalT o v e]
  | .integ _ _ _ e => by simp [evalT, eval, val_evalT o v e]
  | .bin op l r => by simp [evalT, eval, val_evalT o v l, val_evalT o v r]

omit [Num K] in
@[simp] theorem val_isConstT : ∀ e : Expr K, (isConstT e).val = .ok (isConst e)
  | .const _ => rfl
  | .var _ => rfl
  | .fsym _ _ => rfl
  | .vec _ => rfl
  | .un _ _ => rfl
  | .integ _ _ _ _ => rfl
  | .bin _ l r => by
    simp only [isConstT, val_tick, val_bind, val_isConstT l, Res.bind_ok, val_ite, val_isConstT r, val_ret, isConst]
    cases isConst l <;> simp

@[simp] theorem val_unwrapT (o : Order K) : ∀ e, (unwrapT o e).val = unwrap o e
  | .const _ => rfl
  | .var _ => rfl
  | .fsym _ _ => rfl
  | .vec _ => rfl
  | .un op e => by simp [unwrapT, unwrap, val_unwrapT o e]
  | .integ _ _ _ e => by simp [unwrapT, unwrap, val_unwrapT o e]
  | .bin op l r => by simp [unwrapT, unwrap, val_unwrapT o l, val_unwrapT o r]

mutual
@[simp] theorem val_deepEqT : ∀ e f : Expr K, (deepEqT e f).val = deepEq e f
  | .un op e, .un op' e' => by simp [deepEqT, deepEq, val_deepEqT e e']
  | .integ _ _ _ e, .integ _ _ _ e' => by simp [deepEqT, deepEq, val_deepEqT e e']
  | .un _ e, .integ _ _ _ e' => by simp [deepEqT, deepEq, val_deepEqT e e']
  | .integ _ _ _ e, .un _ e' => by simp [deepEqT, deepEq, val_deepEqT e e']
  | .bin op l r, .bin op' l' r' => by
    simp only [deepEqT, deepEq, val_tick, val_bind, val_ite, val_deepEqT l l', val_deepEqT r r', val_ret]
  | .vec es, .vec fs => by simp [deepEqT, deepEq, val_deepEqLT es fs]
  | .const _, f => by cases f <;> rfl
  | .var _, f => by cases f <;> rfl
  | .fsym _ _, f => by cases f <;> rfl
  | .un _ _, .const _ | .un _ _, .var _ | .un _ _, .fsym _ _ | .un _ _, .bin _ _ _ | .un _ _, .vec _ => by
    simp [deepEqT]
  | .integ _ _ _ _, .const _ | .integ _ _ _ _, .var _ | .integ _ _ _ _, .fsym _ _ | .integ _ _ _ _, .bin _ _ _
  | .integ _ _ _ _, .vec _ => by simp [deepEqT]
  | .bin _ _ _, .const _ | .bin _ _ _, .var _ | .bin _ _ _, .fsym _ _ | .bin _ _ _, .un _ _
  | .bin _ _ _, .integ _ _ _ _ | .bin _ _ _, .vec _ => by simp [deepEqT]
  | .vec _, .const _ | .vec _, .var _ | .vec _, .fsym _ _ | .vec _, .un _ _
  | .vec _, .integ _ _ _ _ | .vec _, .bin _ _ _ => by simp [deepEqT]
theorem val_deepEqLT : ∀ es fs : List (Expr K), (deepEqLT es fs).val = deepEqL es fs
  | es, [] => by cases es <;> simp [deepEqLT, deepEqL]
  | [], _ :: _ => by simp [deepEqLT, deepEqL]
  | e :: es, f :: fs => by
    simp only [deepEqLT, deepEqL, val_bind, val_ite, val_deepEqT e f, val_deepEqLT es fs, val_ret]
end

omit [Num K] in
@[simp] theorem val_bothConstT (l r : Expr K) : (bothConstT l r).val = .ok (isConst l && isConst r) := by
  simp only [bothConstT, val_bind, val_isConstT, Res.bind_ok, val_ite, val_ret]
  cases isConst l <;> simp

theorem val_simpBinT (op : BOp) (l r : Expr K) (sl sr : Timed (Expr K)) :
    (simpBinT op l r sl sr).val = simpBin op l r sl.val sr.val := by
  cases op
  case mult =>
    unfold simpBinT simpBin
    simp only [val_bind, val_isConstT, Res.bind_ok, val_ite, val_unwrapT, val_map, val_ret]
    cases isConst l
    · cases isConst r
      · simp only [Bool.false_eq_true, if_false]
        cases l <;> cases r <;> simp
      · simp
    · simp
  all_goals simp [simpBinT, simpBin]

@[simp] theorem val_simplifyT : ∀ e : Expr K, (simplifyT e).val = simplify e
  | .const _ => rfl
  | .var _ => rfl
  | .fsym _ _ => rfl
  | .vec _ => rfl
  | .un op e => by simp [simplifyT, simplify, val_simplifyT e]
  | .integ lo hi x e => by simp [simplifyT, simplify, val_simplifyT e]
  | .bin op l r => by
    simp [simplifyT, simplify, val_simpBinT, val_simplifyT l, val_simplifyT r]

theorem val_constCheckT (e : Expr K) (p : K → Bool) (rest : Timed Bool) :
    (constCheckT e p rest).val = constCheck e p rest.val := by
  simp [constCheckT, constCheck]

theorem val_canBinT (op : BOp) (l r : Expr K) (cl cr : Timed Bool) :
    (canBinT op l r cl cr).val = canBin op l r cl.val cr.val := by
  cases op
  case mult =>
    unfold canBinT canBin
    simp only [val_constCheckT]
    congr 2
    cases l <;> cases r <;> simp
  all_goals simp [canBinT, canBin, val_constCheckT]

@[simp] theorem val_canSimplifyT : ∀ e : Expr K, (canSimplifyT e).val = canSimplify e
  | .const _ => rfl
  | .var _ => rfl
  | .fsym _ _ => rfl
  | .vec _ => rfl
  | .un op e => by simp [canSimplifyT, canSimplify, val_canSimplifyT e]
  | .integ lo hi x e => by simp [canSimplifyT, canSimplify, val_canSimplifyT e]
  | .bin op l r => by
    simp [canSimplifyT, canSimplify, val_canBinT, val_canSimplifyT l, val_canSimplifyT r]

theorem val_simplifyLoopT : ∀ (n : Nat) (e : Expr K), (simplifyLoopT n e).val = (simplifyLoop n e).getD .ub
  | 0, _ => rfl
  | n + 1, e => by
    simp only [simplifyLoopT, simplifyLoop, val_bind, val_canSimplifyT]
    rcases canSimplify e with (_ | _) | _ | _
    · simp
    · simp only [Res.bind_ok, if_true, val_bind, val_simplifyT]
      cases simplify e <;> simp [val_simplifyLoopT n]
    · simp
    · simp

@[simp] theorem val_simplifiedT (e : Expr K) : (simplifiedT e).val = simplified e := by
  rw [simplifiedT, val_simplifyLoopT, simplified]
  cases simplifyLoop (weight e + 1) e <;> rfl

omit [Num K] in
theorem val_diffBinT (op : BOp) (l r : Expr K) (dl dr : Timed (Expr K)) :
    (diffBinT op l r dl dr).val = diffBin op l r dl.val dr.val := by
  cases op <;> simp [diffBinT, diffBin] <;> cases dl.val <;> cases dr.val <;> rfl

theorem diffFn_bind {f : Fn} (hf : f ≠ .fabs) (e : Expr K) (d : Res (Expr K)) :
    (d.bind fun d => diffFn f e (.ok d)) = diffFn f e d := by
  cases f <;> first | exact absurd rfl hf | (cases d <;> rfl)

mutual
@[simp] theorem val_diffET (x : DVar) : ∀ e : Expr K, (diffET x e).val = diffE x e
  | .const _ => by simp [diffET]
  | .var _ => by simp [diffET]
  | .fsym _ _ => by simp [diffET]
  | .un (.fn f) e => by
    by_cases hf : f = .fabs
    · subst hf; simp [diffET, diffE, diffFn]
    · have : diffET x (.un (.fn f) e) = tick ((diffET x e).bind fun d => ret (diffFn f e (.ok d))) := by
        cases f <;> first | exact absurd rfl hf | simp only [diffET]
      rw [this]
      simp only [val_tick, val_bind, val_ret, val_diffET x e, diffE, diffFn_bind hf]
  | .un .grad e => by
    cases x with
    | var i => simp [diffET, diffE]
    | fsym i t =>
      simp only [diffET, diffE, val_tick, val_bind, val_diffET (.fsym i t) e, val_deepEqT, val_ite, val_ret, val_map]
      cases diffE (.fsym i t) e with
      | ok d =>
        simp only [Res.bind_ok, Res.map_ok]
        rcases deepEq d (.const (Num.lit 0)) with (_ | _) | _ | _ <;> rfl
      | throw _ => rfl
      | ub => rfl
  | .un .divg _ => by simp [diffET]
  | .un (.pd _) _ => by simp [diffET]
  | .un (.symInt _) _ => by simp [diffET]
  | .integ _ _ _ _ => by simp [diffET]
  | .bin op l r => by simp [diffET, diffE, val_diffBinT, val_diffET x l, val_diffET x r]
  | .vec es => by simp [diffET, diffE, val_diffELT x es]
theorem val_diffELT (x : DVar) : ∀ es : List (Expr K), (diffELT x es).val = diffEL x es
  | [] => by simp [diffELT, diffEL]
  | e :: es => by simp [diffELT, diffEL, val_diffET x e, val_diffELT x es]
end

@[simp] theorem val_diffT (x : DVar) (e : Expr K) : (diffT x e).val = diff x e := by simp [diffT, diff]

mutual
@[simp] theorem val_substET (s r : Expr K) : ∀ e : Expr K, (substET s r e).val = substE s r e
  | .const _ => by simp [substET, substE]
  | .var _ => by simp [substET, substE]
  | .fsym _ _ => by simp [substET, substE]
  | .un op e => by simp [substET, substE, val_substET s r e]
  | .integ _ _ _ e => by simp [substET, substE, val_substET s r e]
  | .bin op l f => by simp [substET, substE, val_substET s r l, val_substET s r f]
  | .vec es => by simp [substET, substE, val_substELT s r es]
theorem val_substELT (s r : Expr K) : ∀ es : List (Expr K), (substELT s r es).val = substEL s r es
  | [] => by simp [substELT, substEL]
  | e :: es => by simp [substELT, substEL, val_substET s r e, val_substELT s r es]
end

@[simp] theorem val_substituteT (s r e : Expr K) : (substituteT s r e).val = substitute s r e := by
  simp [substituteT, substitute]

/-! ### How many calls -/

theorem calls_evalT (o : Order K) (v : List K) : ∀ e, (evalT o v e).calls ≤ size e
  | .const _ => by simp [evalT, size]
  | .var _ => by simp [evalT, size]
  | .fsym _ _ => by simp [evalT, size]
  | .vec _ => by simp [evalT, size]
  | .un op e => by
    have := calls_evalT o v e
    simp only [evalT, calls_tick, calls_bind_pure, size]; omega
  | .integ _ _ _ e => by
    have := calls_evalT o v e
    simp only [evalT, calls_tick, calls_bind_pure, size]; omega
  | .bin op l r => by
    have := calls_evalT o v l
    have := calls_evalT o v r
    have := calls_both (b := o l r) (l := evalT o v l) (r := evalT o v r) (f := applyB op)
    simp only [evalT, calls_tick, size]; omega

theorem calls_evalT_ok (o : Order K) (v : List K) : ∀ e a, eval o v e = .ok a → (evalT o v e).calls = size e
  | .const _, _, _ => by simp [evalT, size]
  | .var _, _, _ => by simp [evalT, size]
  | .fsym _ _, _, h => by simp [eval] at h
  | .vec _, _, h => by simp [eval] at h
  | .un op e, a, h => by
    rw [eval, Res.bind_eq_ok] at h
    obtain ⟨x, h, -⟩ := h
    have := calls_evalT_ok o v e x h
    simp only [evalT, calls_tick, calls_bind_pure, size]; omega
  | .integ _ _ _ e, a, h => by
    rw [eval, Res.bind_eq_ok] at h
    obtain ⟨x, _, h⟩ := h
    cases h
  | .bin op l r, a, h => by
    rw [eval, Res.both_eq_ok] at h
    obtain ⟨x, y, hl, hr, -⟩ := h
    have h1 := calls_evalT_ok o v l x hl
    have h2 := calls_evalT_ok o v r y hr
    simp only [evalT, calls_tick, size]
    rw [calls_both_ok ((val_evalT o v l).trans hl) ((val_evalT o v r).trans hr)]
    omega

omit [Num K] in
theorem calls_isConstT : ∀ e : Expr K, (isConstT e).calls ≤ size e
  | .const _ => by simp [isConstT, size]
  | .var _ => by simp [isConstT, size]
  | .fsym _ _ => by simp [isConstT, size]
  | .vec _ => by simp [isConstT, size]
  | .un _ _ => by simp [isConstT, size]
  | .integ _ _ _ _ => by simp [isConstT, size]
  | .bin _ l r => by
    have h2 := calls_isConstT r
    have := calls_bind (f := fun b => if b then isConstT r else ret (.ok false)) (p := size r) (calls_isConstT l)
      fun b _ => calls_ite (fun _ => h2) fun _ => Nat.zero_le _
    simp only [isConstT, calls_tick, size]; omega

theorem calls_unwrapT (o : Order K) : ∀ e, (unwrapT o e).calls ≤ size e
  | .const _ => by simp [unwrapT, size]
  | .var _ => by simp [unwrapT, size]
  | .fsym _ _ => by simp [unwrapT, size]
  | .vec _ => by simp [unwrapT, size]
  | .un op e => by
    have := calls_unwrapT o e
    simp only [unwrapT, calls_tick, calls_bind_pure, size]; omega
  | .integ _ _ _ e => by
    have := calls_unwrapT o e
    simp only [unwrapT, calls_tick, calls_bind_pure, size]; omega
  | .bin op l r => by
    have := calls_unwrapT o l
    have := calls_unwrapT o r
    have := calls_both (b := o l r) (l := unwrapT o l) (r := unwrapT o r) (f := applyB op)
    simp only [unwrapT, calls_tick, size]; omega

mutual
theorem calls_deepEqT : ∀ e f : Expr K, (deepEqT e f).calls ≤ size e ∧ (deepEqT e f).calls ≤ size f
  | .un op e, .un op' e' => by
    have := calls_deepEqT e e'
    simp only [deepEqT, calls_tick, calls_map, size]; omega
  | .integ _ _ _ e, .integ _ _ _ e' => by
    have := calls_deepEqT e e'
    simp only [deepEqT, calls_tick, size]; omega
  | .un _ e, .integ _ _ _ e' => by
    have := calls_deepEqT e e'
    simp only [deepEqT, calls_tick, calls_map, size]; omega
  | .integ _ _ _ e, .un _ e' => by
    have := calls_deepEqT e e'
    simp only [deepEqT, calls_tick, calls_map, size]; omega
  | .bin op l r, .bin op' l' r' => by
    have h1 := calls_deepEqT l l'
    have h2 := calls_deepEqT r r'
    have h3 := calls_bind (m := deepEqT l l') (f := fun b => if b && decide (op = op') then deepEqT r r' else ret (.ok false))
      (p := (deepEqT r r').calls) (Nat.le_refl _) fun b _ => calls_ite (fun _ => Nat.le_refl _) fun _ => Nat.zero_le _
    simp only [deepEqT, calls_tick, size]; omega
  | .vec es, .vec fs => by
    have := calls_deepEqLT es fs
    simp only [deepEqT, calls_tick, size]; omega
  | .const c, f => by
    have := size_pos f
    have h : (deepEqT (.const c : Expr K) f).calls = 1 := by cases f <;> rfl
    rw [h]; exact ⟨size_pos _, this⟩
  | .var c, f => by
    have := size_pos f
    have h : (deepEqT (.var c : Expr K) f).calls = 1 := by cases f <;> rfl
    rw [h]; exact ⟨size_pos _, this⟩
  | .fsym c t, f => by
    have := size_pos f
    have h : (deepEqT (.fsym c t : Expr K) f).calls = 1 := by cases f <;> rfl
    rw [h]; exact ⟨size_pos _, this⟩
  | .un _ _, .const _ | .un _ _, .var _ | .un _ _, .fsym _ _ | .un _ _, .bin _ _ _ | .un _ _, .vec _ => by
    simp only [deepEqT, calls_tick, calls_ret, size]; omega
  | .integ _ _ _ _, .const _ | .integ _ _ _ _, .var _ | .integ _ _ _ _, .fsym _ _ | .integ _ _ _ _, .bin _ _ _
  | .integ _ _ _ _, .vec _ => by simp only [deepEqT, calls_tick, calls_ret, size]; omega
  | .bin _ _ _, .const _ | .bin _ _ _, .var _ | .bin _ _ _, .fsym _ _ | .bin _ _ _, .un _ _
  | .bin _ _ _, .integ _ _ _ _ | .bin _ _ _, .vec _ => by simp only [deepEqT, calls_tick, calls_ret, size]; omega
  | .vec _, .const _ | .vec _, .var _ | .vec _, .fsym _ _ | .vec _, .un _ _
  | .vec _, .integ _ _ _ _ | .vec _, .bin _ _ _ => by simp only [deepEqT, calls_tick, calls_ret, size]; omega
theorem calls_deepEqLT : ∀ es fs : List (Expr K), (deepEqLT es fs).calls ≤ sizes es ∧ (deepEqLT es fs).calls ≤ sizes fs
  | es, [] => by cases es <;> simp [deepEqLT]
  | [], _ :: _ => by simp [deepEqLT]
  | e :: es, f :: fs => by
    have h1 := calls_deepEqT e f
    have h2 := calls_deepEqLT es fs
    have h3 := calls_bind (m := deepEqT e f) (f := fun b => if b then deepEqLT es fs else ret (.ok false))
      (p := (deepEqLT es fs).calls) (Nat.le_refl _) fun b _ => calls_ite (fun _ => Nat.le_refl _) fun _ => Nat.zero_le _
    simp only [deepEqLT, sizes]; omega
end

omit [Num K] in
theorem calls_bothConstT (l r : Expr K) : (bothConstT l r).calls ≤ size l + size r :=
  calls_bind (calls_isConstT l) fun _ _ => calls_ite (fun _ => calls_isConstT r) fun _ => Nat.zero_le _

/-- What each binary operator does first: ask both operands whether they are constant. -/
theorem calls_asks {l r : Expr K} {α : Type} {f : K → Timed α} {g : K → Timed α} {m : Timed α} {N : Nat}
    (hf : ∀ v, (f v).calls ≤ N) (hg : ∀ v, (g v).calls ≤ N) (hm : m.calls ≤ N) :
    ((isConstT l).bind fun b => if b then (unwrapT leftFirst l).bind f else
      (isConstT r).bind fun b => if b then (unwrapT leftFirst r).bind g else m).calls ≤ 2 * (size l + size r) + N := by
  have h1 := calls_isConstT l
  have h2 := calls_isConstT r
  have h3 := calls_unwrapT leftFirst l
  have h4 := calls_unwrapT leftFirst r
  refine (calls_bind h1 (p := size l + 2 * size r + N) fun b _ => calls_ite (fun _ => ?_) fun _ => ?_).trans (by omega)
  · exact (calls_bind h3 fun v _ => hf v).trans (by omega)
  · refine (calls_bind h2 (p := size r + N) fun b _ => calls_ite (fun _ => calls_bind h4 fun v _ => hg v) fun _ => ?_).trans
      (by omega)
    omega

theorem calls_simpBinT {op : BOp} {l r : Expr K} {sl sr : Timed (Expr K)} :
    (simpBinT op l r sl sr).calls ≤ 2 * (size l + size r) + (sl.calls + sr.calls) := by
  have hb (f : Expr K → Expr K → Expr K) : (sl.bind fun l' => sr.map fun r' => f l' r').calls ≤ sl.calls + sr.calls :=
    calls_bind (Nat.le_refl _) fun _ _ => (calls_map _ _).le
  cases op with
  | plus =>
    refine calls_asks (fun v => calls_ite (fun _ => ?_) fun _ => ?_) (fun v => calls_ite (fun _ => ?_) fun _ => ?_) (hb _)
    all_goals first | omega | (rw [calls_map]; omega)
  | minus =>
    refine calls_asks (fun v => calls_ite (fun _ => ?_) fun _ => ?_) (fun v => calls_ite (fun _ => ?_) fun _ => ?_) (hb _)
    all_goals first | omega | (rw [calls_map]; omega)
  | mult =>
    refine calls_asks (fun v => calls_ite (fun _ => Nat.zero_le _) fun _ => calls_ite (fun _ => ?_) fun _ => ?_)
      (fun v => calls_ite (fun _ => Nat.zero_le _) fun _ => calls_ite (fun _ => ?_) fun _ => ?_) ?_
    · omega
    · rw [calls_map]; omega
    · omega
    · rw [calls_map]; omega
    · split
      · exact Nat.zero_le _
      · exact hb _
  | div =>
    refine calls_asks (fun v => calls_ite (fun _ => Nat.zero_le _) fun _ => ?_) (fun v => calls_ite (fun _ => ?_) fun _ => ?_) (hb _)
    all_goals first | omega | (rw [calls_map]; omega)
  | uid => exact Nat.zero_le _

theorem calls_simplifyT : ∀ e : Expr K, (simplifyT e).calls ≤ 3 * size e ^ 2
  | .const _ => by simp [simplifyT, size]
  | .var _ => by simp [simplifyT, size]
  | .fsym _ _ => by simp [simplifyT, size]
  | .vec es => by
    have : 1 ≤ size (.vec es) ^ 2 := Nat.one_le_pow _ _ (size_pos _)
    simp only [simplifyT, calls_tick, calls_ret]; omega
  | .un op e => by
    have h1 := calls_isConstT e
    have h2 := calls_unwrapT leftFirst e
    have h3 := calls_simplifyT e
    have h : (simplifyT (.un op e)).calls ≤ size e + (size e + 3 * size e ^ 2) + 1 := by
      rw [simplifyT, calls_tick]
      refine Nat.succ_le_succ (calls_bind h1 fun b _ => calls_ite (fun _ => ?_) fun _ => ?_)
      · exact (calls_bind h2 (p := 0) fun _ _ => calls_ite (fun _ => Nat.le_refl _) fun _ => Nat.le_refl _).trans (by omega)
      · rw [calls_map]; omega
    refine h.trans ?_
    simp only [size]; nlinarith
  | .integ lo hi x e => by
    have h1 := calls_isConstT e
    have h2 := calls_unwrapT leftFirst e
    have h3 := calls_simplifyT e
    have h : (simplifyT (.integ lo hi x e)).calls ≤ size e + (size e + 3 * size e ^ 2) + 1 := by
      rw [simplifyT, calls_tick]
      refine Nat.succ_le_succ (calls_bind h1 fun b _ => calls_ite (fun _ => ?_) fun _ => ?_)
      · rw [calls_map]; omega
      · rw [calls_map]; omega
    refine h.trans ?_
    have := Nat.pow_le_pow_left (show size e + 1 ≤ size lo + size hi + size e + 1 by omega) 2
    simp only [size]; nlinarith
  | .bin op l r => by
    have h1 := calls_bothConstT l r
    have h2 := calls_unwrapT leftFirst (.bin op l r)
    have h3 := calls_simplifyT l
    have h4 := calls_simplifyT r
    have h5 := calls_simpBinT (op := op) (l := l) (r := r) (sl := simplifyT l) (sr := simplifyT r)
    have h : (simplifyT (.bin op l r)).calls ≤
        (size l + size r) + (2 * (size l + size r) + 1 + (3 * size l ^ 2 + 3 * size r ^ 2)) + 1 := by
      rw [simplifyT, calls_tick]
      refine Nat.succ_le_succ (calls_bind h1 fun b _ => calls_ite (fun _ => ?_) fun _ => ?_)
      · rw [calls_map]
        simp only [size] at h2; omega
      · omega
    refine h.trans ?_
    simp only [size]; nlinarith

theorem calls_constCheckT {e : Expr K} {p : K → Bool} {m : Timed Bool} {N : Nat} (hm : m.calls ≤ N) :
    (constCheckT e p m).calls ≤ 2 * size e + N := by
  refine (calls_bind (calls_isConstT e) (p := size e + N) fun b _ => calls_ite (fun _ => ?_) fun _ => ?_).trans (by omega)
  · exact calls_bind (calls_unwrapT leftFirst e) fun v _ => calls_ite (fun _ => Nat.zero_le _) fun _ => hm
  · omega

theorem calls_canBinT {op : BOp} {l r : Expr K} {cl cr : Timed Bool} :
    (canBinT op l r cl cr).calls ≤ 2 * (size l + size r) + (cl.calls + cr.calls) := by
  have hb : (cl.bind fun b => if b then ret (.ok true) else cr).calls ≤ cl.calls + cr.calls :=
    calls_bind (Nat.le_refl _) fun _ _ => calls_ite (fun _ => Nat.zero_le _) fun _ => Nat.le_refl _
  have hc {p q : K → Bool} {m : Timed Bool} (hm : m.calls ≤ cl.calls + cr.calls) :
      (constCheckT l p (constCheckT r q m)).calls ≤ 2 * (size l + size r) + (cl.calls + cr.calls) :=
    (calls_constCheckT (calls_constCheckT hm)).trans (by omega)
  cases op with
  | plus => exact hc hb
  | minus => exact hc hb
  | mult =>
    refine hc ?_
    split
    · exact Nat.zero_le _
    · exact hb
  | div => exact hc hb
  | uid => exact Nat.zero_le _

theorem calls_canSimplifyT : ∀ e : Expr K, (canSimplifyT e).calls ≤ 3 * size e ^ 2
  | .const _ => by simp [canSimplifyT, size]
  | .var _ => by simp [canSimplifyT, size]
  | .fsym _ _ => by simp [canSimplifyT, size]
  | .vec es => by
    have : 1 ≤ size (.vec es) ^ 2 := Nat.one_le_pow _ _ (size_pos _)
    simp only [canSimplifyT, calls_tick, calls_ret]; omega
  | .un op e => by
    have h3 := calls_canSimplifyT e
    have : (size e + 1) ^ 2 = size e ^ 2 + 2 * size e + 1 := by ring
    simp only [canSimplifyT, calls_tick, size]; omega
  | .integ lo hi x e => by
    have h3 := calls_canSimplifyT e
    have : (size e + 1) ^ 2 = size e ^ 2 + 2 * size e + 1 := by ring
    have := Nat.pow_le_pow_left (show size e + 1 ≤ size lo + size hi + size e + 1 by omega) 2
    simp only [canSimplifyT, calls_tick, size]; omega
  | .bin op l r => by
    have h1 := calls_bothConstT l r
    have h3 := calls_canSimplifyT l
    have h4 := calls_canSimplifyT r
    have h5 := calls_canBinT (op := op) (l := l) (r := r) (cl := canSimplifyT l) (cr := canSimplifyT r)
    have h : (canSimplifyT (.bin op l r)).calls ≤
        (size l + size r) + (2 * (size l + size r) + (3 * size l ^ 2 + 3 * size r ^ 2)) + 1 := by
      rw [canSimplifyT, calls_tick]
      refine Nat.succ_le_succ (calls_bind h1 fun b _ => calls_ite (fun _ => Nat.zero_le _) fun _ => ?_)
      omega
    refine h.trans ?_
    simp only [size]; nlinarith

theorem calls_simplifyLoopT {S : Nat} : ∀ (n : Nat) (e : Expr K), size e ≤ S → (simplifyLoopT n e).calls ≤ n * (6 * S ^ 2)
  | 0, _, _ => Nat.zero_le _
  | n + 1, e, he => by
    have h0 := Nat.pow_le_pow_left he 2
    have h1 := calls_canSimplifyT e
    have h2 := calls_simplifyT e
    have hn : (n + 1) * (6 * S ^ 2) = 3 * S ^ 2 + (3 * S ^ 2 + n * (6 * S ^ 2)) := by ring
    rw [hn, simplifyLoopT]
    refine calls_bind (h1.trans (by omega)) fun b _ => calls_ite (fun _ => ?_) fun _ => Nat.zero_le _
    refine calls_bind (h2.trans (by omega)) fun e' he' => ?_
    rw [val_simplifyT] at he'
    exact calls_simplifyLoopT n e' ((Pass.of_simplify he').size_le.trans he)

theorem calls_simplifiedT (e : Expr K) : (simplifiedT e).calls ≤ 12 * size e ^ 3 := by
  refine (calls_simplifyLoopT _ e (Nat.le_refl _)).trans ?_
  have := Nat.mul_le_mul_right (6 * size e ^ 2) (weight_size e)
  have h3 : 2 * size e * (6 * size e ^ 2) = 12 * size e ^ 3 := by ring
  omega

omit [Num K] in
theorem calls_diffBinT {op : BOp} {l r : Expr K} {dl dr : Timed (Expr K)} :
    (diffBinT op l r dl dr).calls ≤ dl.calls + dr.calls := by
  unfold diffBinT
  split
  · exact Nat.zero_le _
  · exact calls_bind (Nat.le_refl _) fun _ _ => (calls_bind_pure _ _).le

/-- The bound for a gradient. -/
theorem grad_step {n : Nat} (s : Nat) : 1 + (2 ^ n * (2 * s) + (1 + 2 ^ n * (2 * s))) ≤ 2 ^ (n + 1) * (2 * (s + 1)) := by
  have : 1 ≤ 2 ^ n := Nat.one_le_two_pow
  rw [Nat.pow_succ]
  nlinarith

theorem pow_max {m n s t : Nat} : 2 ^ m * (2 * s) + 2 ^ n * (2 * t) + 1 ≤ 2 ^ max m n * (2 * (s + t + 1)) := by
  have h1 : 2 ^ m ≤ 2 ^ max m n := Nat.pow_le_pow_right (by omega) (le_max_left _ _)
  have h2 : 2 ^ n ≤ 2 ^ max m n := Nat.pow_le_pow_right (by omega) (le_max_right _ _)
  have h0 : 1 ≤ 2 ^ max m n := Nat.one_le_two_pow
  nlinarith [Nat.mul_le_mul_right (2 * s) h1, Nat.mul_le_mul_right (2 * t) h2]

mutual
theorem calls_diffET (x : DVar) : ∀ e : Expr K, (diffET x e).calls ≤ 2 ^ gradDepth e * (2 * size e)
  | .const _ => by simp [diffET, size, gradDepth]
  | .var _ => by simp [diffET, size, gradDepth]
  | .fsym _ _ => by simp [diffET, size, gradDepth]
  | .un (.fn f) e => by
    have h := calls_diffET x e
    have h1 : 1 ≤ 2 ^ gradDepth e := Nat.one_le_two_pow
    have : (diffET x (.un (.fn f) e)).calls ≤ (diffET x e).calls + 1 := by
      cases f <;> simp only [diffET, calls_tick, calls_bind_pure, calls_ret] <;> omega
    rw [show gradDepth (.un (.fn f) e) = gradDepth e by simp [gradDepth], size]
    nlinarith
  | .un .grad e => by
    have h := calls_diffET x e
    refine Nat.le_trans ?_ (grad_step (size e))
    cases x with
    | var i => simp only [diffET, calls_tick, calls_ret]; omega
    | fsym i t =>
      rw [diffET, calls_tick, Nat.add_comm _ 1]
      refine Nat.add_le_add_left (calls_bind h fun d _ => ?_) 1
      refine calls_bind ((calls_deepEqT d _).2.trans (by simp [size])) fun b _ => calls_ite (fun _ => Nat.zero_le _) fun _ => ?_
      rw [calls_map]; exact h
  | .un .divg e => by
    have : 1 ≤ 2 ^ gradDepth (.un .divg e) := Nat.one_le_two_pow
    simp only [diffET, calls_tick, calls_ret, size]; nlinarith
  | .un (.pd i) e => by
    have : 1 ≤ 2 ^ gradDepth (.un (.pd i) e) := Nat.one_le_two_pow
    simp only [diffET, calls_tick, calls_ret, size]; nlinarith
  | .un (.symInt k) e => by
    have : 1 ≤ 2 ^ gradDepth (.un (.symInt k) e) := Nat.one_le_two_pow
    simp only [diffET, calls_tick, calls_ret, size]; nlinarith
  | .integ lo hi y e => by
    have : 1 ≤ 2 ^ gradDepth (.integ lo hi y e) := Nat.one_le_two_pow
    simp only [diffET, calls_tick, calls_ret, size]; nlinarith
  | .bin op l r => by
    have h1 := calls_diffET x l
    have h2 := calls_diffET x r
    have h3 := calls_diffBinT (op := op) (l := l) (r := r) (dl := diffET x l) (dr := diffET x r)
    rw [diffET, calls_tick, gradDepth, size]
    refine Nat.le_trans ?_ pow_max
    omega
  | .vec es => by
    have h1 := calls_diffELT x es
    have : 1 ≤ 2 ^ gradDepths es := Nat.one_le_two_pow
    rw [diffET, calls_tick, calls_map, gradDepth, size]
    nlinarith
theorem calls_diffELT (x : DVar) : ∀ es : List (Expr K), (diffELT x es).calls ≤ 2 ^ gradDepths es * (2 * sizes es)
  | [] => by simp [diffELT]
  | e :: es => by
    have h1 := calls_diffET x e
    have h2 := calls_diffELT x es
    have h3 : (diffELT x (e :: es)).calls ≤ (diffET x e).calls + (diffELT x es).calls :=
      calls_bind (Nat.le_refl _) fun _ _ => (calls_map _ _).le
    rw [gradDepths, sizes]
    have h4 := pow_max (m := gradDepth e) (n := gradDepths es) (s := size e) (t := sizes es)
    rw [show size e + 1 + sizes es = size e + sizes es + 1 by omega]
    omega
end

theorem calls_diffT (x : DVar) (e : Expr K) :
    (diffT x e).calls ≤ 2 ^ gradDepth e * (2 * size e) + 96 * size e ^ 6 := by
  refine calls_bind (calls_diffET x e) fun e' he' => (calls_simplifiedT e').trans ?_
  rw [val_diffET] at he'
  have := Nat.pow_le_pow_left (size_diffE x e e' he') 3
  have h6 : 12 * (2 * size e ^ 2) ^ 3 = 96 * size e ^ 6 := by ring
  omega

mutual
theorem calls_substET (s r : Expr K) : ∀ e : Expr K, (substET s r e).calls ≤ size e * (size s + 1)
  | .const c => by
    have := (calls_deepEqT (.const c) s).2
    simp only [substET, calls_tick, calls_map, size]; omega
  | .var c => by
    have := (calls_deepEqT (.var c) s).2
    simp only [substET, calls_tick, calls_map, size]; omega
  | .fsym c t => by
    have := (calls_deepEqT (.fsym c t) s).2
    simp only [substET, calls_tick, calls_map, size]; omega
  | .un op e => by
    have h1 := (calls_deepEqT (.un op e) s).2
    have h2 := calls_substET s r e
    have h : (substET s r (.un op e)).calls ≤ size s + size e * (size s + 1) + 1 := by
      rw [substET, calls_tick]
      refine Nat.succ_le_succ (calls_bind h1 fun b _ => calls_ite (fun _ => Nat.zero_le _) fun _ => ?_)
      rw [calls_map]; exact h2
    refine h.trans ?_
    rw [size]; nlinarith
  | .integ lo hi x e => by
    have h1 := (calls_deepEqT (.integ lo hi x e) s).2
    have h2 := calls_substET s r e
    have h : (substET s r (.integ lo hi x e)).calls ≤ size s + size e * (size s + 1) + 1 := by
      rw [substET, calls_tick]
      refine Nat.succ_le_succ (calls_bind h1 fun b _ => calls_ite (fun _ => Nat.zero_le _) fun _ => ?_)
      rw [calls_map]; exact h2
    refine h.trans ?_
    rw [size]; nlinarith
  | .bin op l f => by
    have h1 := (calls_deepEqT (.bin op l f) s).2
    have h2 := calls_substET s r l
    have h3 := calls_substET s r f
    have h : (substET s r (.bin op l f)).calls ≤ size s + (size l * (size s + 1) + size f * (size s + 1)) + 1 := by
      rw [substET, calls_tick]
      refine Nat.succ_le_succ (calls_bind h1 fun b _ => calls_ite (fun _ => Nat.zero_le _) fun _ => ?_)
      refine calls_bind h2 fun _ _ => ?_
      rw [calls_map]; exact h3
    refine h.trans ?_
    rw [size]; nlinarith
  | .vec es => by
    have h1 := (calls_deepEqT (.vec es) s).2
    have h2 := calls_substELT s r es
    have h : (substET s r (.vec es)).calls ≤ size s + sizes es * (size s + 1) + 1 := by
      rw [substET, calls_tick]
      refine Nat.succ_le_succ (calls_bind h1 fun b _ => calls_ite (fun _ => Nat.zero_le _) fun _ => ?_)
      rw [calls_map]; exact h2
    refine h.trans ?_
    rw [size]; nlinarith
theorem calls_substELT (s r : Expr K) : ∀ es : List (Expr K), (substELT s r es).calls ≤ sizes es * (size s + 1)
  | [] => by simp [substELT]
  | e :: es => by
    have h1 := calls_substET s r e
    have h2 := calls_substELT s r es
    have h3 : (substELT s r (e :: es)).calls ≤ (substET s r e).calls + (substELT s r es).calls :=
      calls_bind (Nat.le_refl _) fun _ _ => (calls_map _ _).le
    rw [sizes]; nlinarith
end

theorem calls_substituteT (s r e : Expr K) :
    (substituteT s r e).calls ≤ size e * (size s + 1) + 12 * (size r * size e) ^ 3 := by
  refine calls_bind (calls_substET s r e) fun e' he' => (calls_simplifiedT e').trans ?_
  rw [val_substET, substE_eq_substM] at he'
  have := Nat.pow_le_pow_left (size_substM [s] [r] _ (size_pos r) (by simp) e e' he') 3
  omega

/-! ### Nested gradients -/

theorem calls_diffET_nested {j t : Nat} (h01 : Num.eqb (Num.lit 0 : K) (Num.lit 1) = false) :
    ∀ n, (diffET (.fsym j t) (nested (.fsym j t) n : Expr K)).calls + 2 = 3 * 2 ^ n
  | 0 => by simp [nested, diffET]
  | n + 1 => by
    have ih := calls_diffET_nested (j := j) (t := t) h01 n
    have hd := (val_diffET _ _).trans (diffE_nested (j := j) (t := t) h01 n).1
    have h1 : (deepEqT (nested (.const (Num.lit 1)) n : Expr K) (.const (Num.lit 0))).calls = 1 := by
      cases n <;> rfl
    have h0 := (val_deepEqT _ _).trans (diffE_nested (j := j) (t := t) h01 n).2
    rw [nested, diffET, calls_tick, calls_bind_ok hd, calls_bind_ok h0, if_neg (by simp), calls_map, h1, Nat.pow_succ]
    omega

/-! ### Sums -/

omit [Num K] in
theorem isConst_sums : ∀ n, isConst (sums n : Expr K) = false
  | 0 => rfl
  | n + 1 => by simp [sums, isConst]

omit [Num K] in
theorem calls_isConstT_sums : ∀ n, (isConstT (sums n : Expr K)).calls = n + 1
  | 0 => rfl
  | n + 1 => by
    have h := (val_isConstT (sums n : Expr K)).trans (by rw [isConst_sums])
    rw [sums, isConstT, calls_tick, calls_bind_ok h, calls_isConstT_sums n]
    rfl

theorem canSimplify_sums : ∀ n, canSimplify (sums n : Expr K) = .ok false
  | 0 => rfl
  | n + 1 => by
    simp [sums, canSimplify, canBin, constCheck, isConst, isConst_sums, canSimplify_sums n]

theorem calls_canSimplifyT_sums : ∀ n, (canSimplifyT (sums n : Expr K)).calls = n ^ 2 + 4 * n + 1
  | 0 => rfl
  | n + 1 => by
    have h := (val_isConstT (sums n : Expr K)).trans (by rw [isConst_sums])
    have h1 := (val_bothConstT (sums n : Expr K) (.var 0)).trans (by rw [isConst_sums, Bool.false_and])
    have h2 : (bothConstT (sums n : Expr K) (.var 0)).calls = n + 1 := by
      rw [bothConstT, calls_bind_ok h, calls_isConstT_sums]; rfl
    have h3 := (val_canSimplifyT (sums n : Expr K)).trans (canSimplify_sums n)
    have h4 : (isConstT (.var 0 : Expr K)).val = .ok false := rfl
    have ih := calls_canSimplifyT_sums n
    rw [sums, canSimplifyT, calls_tick, calls_bind_ok h1, if_neg (by simp), canBinT, constCheckT, calls_bind_ok h,
      if_neg (by simp), constCheckT, calls_bind_ok h4, if_neg (by simp), calls_bind_ok h3, if_neg (by simp), h2, ih,
      calls_isConstT_sums]
    simp only [isConstT, canSimplifyT, calls_tick, calls_ret]
    ring

end VM
