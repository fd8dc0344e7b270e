import Verif.Spec.Rename
import Verif.Spec.Syntax
import Verif.Rt.Quadrature
import Verif.Rt.SimplifyLemmas
import Verif.Rt.EvalLemmas
import Mathlib.Tactic.SplitIfs
/-
Renaming commutes with the algorithms.
-/
namespace VM
open VM.Spec
variable {K : Type}

theorem renameL_eq (ρ : Renaming) (es : List (Expr K)) : renameL ρ es = es.map (rename ρ) := by
  induction es with
  | nil => rfl
  | cons e es ih => rw [renameL, ih]; rfl

section
variable [Num K] (ρ : Renaming)

omit [Num K] in
@[simp] theorem ren_isConst (e : Expr K) : isConst (rename ρ e) = isConst e := by
  induction e using Expr.ind with
  | bin op l r hl hr => rw [rename, isConst, isConst, hl, hr]
  | _ => simp [rename, isConst]

theorem applyU_op (op : UOp) (c : K) : applyU (ρ.op op) c = applyU op c := by cases op <;> rfl

@[simp] theorem ren_canSimplifyOp (op : UOp) : (ρ.op op).canSimplify = op.canSimplify := by cases op <;> rfl

@[simp] theorem ren_unwrap (e : Expr K) : unwrap leftFirst (rename ρ e) = unwrap leftFirst e := by
  induction e using Expr.ind with
  | un op e ih =>
    rw [rename, unwrap, unwrap, ih]
    congr 1; funext c; exact applyU_op ρ op c
  | integ lo hi x e _ _ ih => rw [rename, unwrap, unwrap, ih]
  | bin op l r hl hr => rw [rename, unwrap, unwrap, hl, hr]; rfl
  | _ => rfl

omit [Num K] in
theorem ren_dotFrom (acc : Expr K) (ls rs : List (Expr K)) :
    dotFrom (rename ρ acc) (renameL ρ ls) (renameL ρ rs) = rename ρ (dotFrom acc ls rs) := by
  induction ls generalizing acc rs with
  | nil => rfl
  | cons l ls ih =>
    cases rs with
    | nil => rfl
    | cons r rs => simp only [renameL, dotFrom]; rw [← ih]; rfl

omit [Num K] in
theorem renameL_length (es : List (Expr K)) : (renameL ρ es).length = es.length := by
  rw [renameL_eq, List.length_map]

omit [Num K] in
theorem ren_dot (ls rs : List (Expr K)) :
    dot (renameL ρ ls) (renameL ρ rs) = (dot ls rs).map (rename ρ) := by
  cases ls with
  | nil => rfl
  | cons l ls =>
    cases rs with
    | nil => rfl
    | cons r rs =>
      simp only [renameL, dot, renameL_length]
      split
      · rw [Res.map_ok, ← ren_dotFrom]; rfl
      · rfl

theorem ren_simpBin (op : BOp) (l r : Expr K) (sl sr : Res (Expr K)) :
    simpBin op (rename ρ l) (rename ρ r) (sl.map (rename ρ)) (sr.map (rename ρ)) =
      (simpBin op l r sl sr).map (rename ρ) := by
  by_cases hl : isConst l = true
  · cases op <;> simp only [simpBin, ren_isConst, hl, if_true, ren_unwrap]
    case uid => rfl
    all_goals
      generalize unwrap leftFirst l = u
      cases u with
      | ok c => simp only [Res.bind_ok]; split_ifs <;> cases sr <;> rfl
      | throw x => rfl
      | ub => rfl
  · by_cases hr : isConst r = true
    · cases op <;> simp only [simpBin, ren_isConst, hl, hr, if_true, ren_unwrap, Bool.false_eq_true, if_false]
      case uid => rfl
      all_goals
        generalize unwrap leftFirst r = u
        cases u with
        | ok c => simp only [Res.bind_ok]; split_ifs <;> cases sl <;> rfl
        | throw x => rfl
        | ub => rfl
    · cases op <;> simp only [simpBin, ren_isConst, hl, hr]
      case mult =>
        cases l <;> cases r <;> first | exact ren_dot ρ _ _ | (cases sl <;> cases sr <;> rfl)
      all_goals first | rfl | (cases sl <;> cases sr <;> rfl)

theorem ren_simplify (e : Expr K) : simplify (rename ρ e) = (simplify e).map (rename ρ) := by
  induction e using Expr.ind with
  | un op e ih =>
    rw [rename, simplify, simplify, ren_isConst, ren_unwrap, ih, ren_canSimplifyOp]
    split
    · cases unwrap leftFirst e with
      | ok c =>
        simp only [Res.bind_ok, applyU_op]
        split
        · cases applyU op c <;> rfl
        · rfl
      | throw x => rfl
      | ub => rfl
    · cases simplify e <;> rfl
  | integ lo hi x e _ _ ih =>
    rw [rename, simplify, simplify, ren_isConst, ren_unwrap, ih]
    split
    · cases unwrap leftFirst e <;> rfl
    · cases simplify e <;> rfl
  | bin op l r hl hr =>
    have hu := ren_unwrap ρ (.bin op l r)
    rw [rename] at hu ⊢
    rw [simplify, simplify, ren_isConst, ren_isConst, hu, hl, hr, ren_simpBin]
    split
    · cases unwrap leftFirst (.bin op l r) <;> rfl
    · rfl
  | _ => rfl

theorem ren_constCheck (e : Expr K) (p : K → Bool) (rest : Res Bool) :
    constCheck (rename ρ e) p rest = constCheck e p rest := by
  rw [constCheck, constCheck, ren_isConst, ren_unwrap]

theorem ren_canSimplify (e : Expr K) : canSimplify (rename ρ e) = canSimplify e := by
  induction e using Expr.ind with
  | un op e ih => rw [rename, canSimplify, canSimplify, ih]
  | integ lo hi x e _ _ ih => rw [rename, canSimplify, canSimplify, ih]
  | bin op l r hl hr =>
    rw [rename, canSimplify, canSimplify, ren_isConst, ren_isConst, hl, hr]
    have : canBin op (rename ρ l) (rename ρ r) (canSimplify l) (canSimplify r) =
        canBin op l r (canSimplify l) (canSimplify r) := by
      cases op <;> simp only [canBin, ren_constCheck]
      congr 2
      cases l <;> cases r <;> rfl
    rw [this]
  | _ => rfl

theorem ren_loop (n : Nat) (e : Expr K) :
    simplifyLoop n (rename ρ e) = (simplifyLoop n e).map fun r => r.map (rename ρ) := by
  induction n generalizing e with
  | zero => rfl
  | succ n ih =>
    simp only [simplifyLoop, ren_canSimplify, ren_simplify]
    cases canSimplify e with
    | ok b =>
      cases b
      · rfl
      · cases simplify e with
        | ok e' => exact ih e'
        | throw x => rfl
        | ub => rfl
    | throw x => rfl
    | ub => rfl

theorem ren_simplified (e : Expr K) : simplified (rename ρ e) = (simplified e).map (rename ρ) := by
  rw [← Simplifies_iff]
  obtain ⟨n, hn⟩ := Simplifies_simplified e
  exact ⟨n, by rw [ren_loop, hn]; rfl⟩

variable {ρ}

theorem ren_equalOp (hρ : ρ.Injective) (op op' : UOp) : UOp.equal (ρ.op op) (ρ.op op') = UOp.equal op op' := by
  cases op <;> cases op' <;> simp [Renaming.op, UOp.equal]
  exact ⟨fun h => hρ.1 _ _ h, fun h => h ▸ rfl⟩

theorem ren_deepEq (hρ : ρ.Injective) (e f : Expr K) : deepEq (rename ρ e) (rename ρ f) = deepEq e f := by
  induction e using Expr.ind generalizing f with
  | const c => cases f <;> simp [rename, deepEq]
  | var i =>
    cases f <;> simp [rename, deepEq]
    exact ⟨fun h => hρ.1 _ _ h, fun h => h ▸ rfl⟩
  | fsym i t =>
    cases f <;> simp [rename, deepEq]
    rename_i j u
    rw [Bool.eq_iff_iff]
    simp only [Bool.and_eq_true, decide_eq_true_eq]
    exact ⟨fun h => hρ.2 _ _ _ _ (Prod.ext h.1 h.2), fun ⟨h, h'⟩ => by rw [h, h']; exact ⟨rfl, rfl⟩⟩
  | un op e ih => cases f <;> simp [rename, deepEq, ih, ren_equalOp hρ]
  | integ lo hi x e _ _ ih => cases f <;> simp [rename, deepEq, ih]
  | bin op l r hl hr => cases f <;> simp [rename, deepEq, hl, hr]
  | vec es ih =>
    cases f <;> simp only [rename, deepEq]
    rename_i fs
    induction es generalizing fs with
    | nil => cases fs <;> simp [renameL, deepEqL]
    | cons e es ih' =>
      cases fs with
      | nil => simp [renameL, deepEqL]
      | cons f fs =>
        simp only [renameL, deepEqL, ih e (by simp), ih' (fun e he => ih e (by simp [he]))]

theorem renameD_eq (hρ : ρ.Injective) (x : DVar) (i : Nat) :
    renameD ρ x = .var (ρ.var i) ↔ x = .var i := by
  cases x with
  | var j => simp only [renameD, DVar.var.injEq]; exact ⟨fun h => hρ.1 _ _ h, fun h => h ▸ rfl⟩
  | fsym j u => simp [renameD]

theorem ren_diffFn (f : Fn) (e : Expr K) (d : Res (Expr K)) :
    diffFn f (rename ρ e) (d.map (rename ρ)) = (diffFn f e d).map (rename ρ) := by
  cases f <;> cases d <;> rfl

omit [Num K] in
theorem ren_diffBin (op : BOp) (l r : Expr K) (dl dr : Res (Expr K)) :
    diffBin op (rename ρ l) (rename ρ r) (dl.map (rename ρ)) (dr.map (rename ρ)) =
      (diffBin op l r dl dr).map (rename ρ) := by
  cases op <;> cases dl <;> cases dr <;> rfl

theorem ren_diffE (hρ : ρ.Injective) (x : DVar) (e : Expr K) :
    diffE (renameD ρ x) (rename ρ e) = (diffE x e).map (rename ρ) := by
  induction e using Expr.ind with
  | const c => rfl
  | var i => simp only [rename, diffE, renameD_eq hρ, Res.map_ok]
  | fsym i t =>
    cases x with
    | var j => rfl
    | fsym j u =>
      have : ((ρ.sym j u).1 = (ρ.sym i t).1 ∧ (ρ.sym j u).2 = (ρ.sym i t).2) ↔ (j = i ∧ u = t) :=
        ⟨fun h => hρ.2 _ _ _ _ (Prod.ext h.1 h.2), fun ⟨h, h'⟩ => by rw [h, h']; exact ⟨rfl, rfl⟩⟩
      simp only [rename, renameD, diffE, this, Res.map_ok]
  | un op e ih =>
    cases op with
    | fn f => simp only [rename, Renaming.op, diffE, ih, ren_diffFn]
    | grad =>
      cases x with
      | var j => rfl
      | fsym j u =>
        simp only [renameD] at ih
        simp only [rename, Renaming.op, renameD, diffE, ih]
        cases diffE (.fsym j u) e with
        | ok d =>
          have h := ren_deepEq hρ d (.const (Num.lit 0))
          rw [rename.eq_1] at h
          simp only [Res.map_ok, Res.bind_ok, h]
          cases deepEq d (.const (Num.lit 0)) with
          | ok b => cases b <;> rfl
          | throw x => rfl
          | ub => rfl
        | throw x => rfl
        | ub => rfl
    | _ => rfl
  | integ => rfl
  | bin op l r hl hr => simp only [rename, diffE, hl, hr, ren_diffBin]
  | vec es ih =>
    simp only [rename, diffE]
    have : diffEL (renameD ρ x) (renameL ρ es) = (diffEL x es).map (renameL ρ) := by
      induction es with
      | nil => rfl
      | cons e es ih' =>
        simp only [renameL, diffEL, ih e (by simp), ih' fun e he => ih e (by simp [he])]
        cases diffE x e <;> cases diffEL x es <;> rfl
    rw [this]
    cases diffEL x es <;> rfl

theorem ren_diff (hρ : ρ.Injective) (x : DVar) (e : Expr K) :
    diff (renameD ρ x) (rename ρ e) = (diff x e).map (rename ρ) := by
  rw [diff, diff, ren_diffE hρ]
  cases diffE x e with
  | ok d => exact ren_simplified ρ d
  | throw x => rfl
  | ub => rfl

theorem ren_substE (hρ : ρ.Injective) (s r e : Expr K) :
    substE (rename ρ s) (rename ρ r) (rename ρ e) = (substE s r e).map (rename ρ) := by
  induction e using Expr.ind with
  | const c =>
    have h := ren_deepEq hρ (.const c) s
    rw [rename] at h ⊢
    rw [substE, substE, h]
    cases deepEq (.const c) s with
    | ok b => cases b <;> rfl
    | throw x => rfl
    | ub => rfl
  | var i =>
    have h := ren_deepEq hρ (.var i) s
    rw [rename] at h ⊢
    rw [substE, substE, h]
    cases deepEq (.var i) s with
    | ok b => cases b <;> rfl
    | throw x => rfl
    | ub => rfl
  | fsym i t =>
    have h := ren_deepEq hρ (.fsym i t) s
    rw [rename] at h ⊢
    rw [substE, substE, h]
    cases deepEq (.fsym i t) s with
    | ok b => cases b <;> rfl
    | throw x => rfl
    | ub => rfl
  | un op e ih =>
    have h := ren_deepEq hρ (.un op e) s
    rw [rename] at h ⊢
    rw [substE, substE, h, ih]
    cases deepEq (.un op e) s with
    | ok b => cases b <;> cases substE s r e <;> rfl
    | throw x => rfl
    | ub => rfl
  | integ lo hi x e _ _ ih =>
    have h := ren_deepEq hρ (.integ lo hi x e) s
    rw [rename] at h ⊢
    rw [substE, substE, h, ih]
    cases deepEq (.integ lo hi x e) s with
    | ok b => cases b <;> cases substE s r e <;> rfl
    | throw x => rfl
    | ub => rfl
  | bin op a b iha ihb =>
    have h := ren_deepEq hρ (.bin op a b) s
    rw [rename] at h ⊢
    rw [substE, substE, h, iha, ihb]
    cases deepEq (.bin op a b) s with
    | ok c => cases c <;> cases substE s r a <;> cases substE s r b <;> rfl
    | throw x => rfl
    | ub => rfl
  | vec es ih =>
    have h := ren_deepEq hρ (.vec es) s
    rw [rename] at h ⊢
    have hl : substEL (rename ρ s) (rename ρ r) (renameL ρ es) = (substEL s r es).map (renameL ρ) := by
      clear h
      induction es with
      | nil => rfl
      | cons e es ih' =>
        simp only [renameL, substEL, ih e (by simp), ih' fun e he => ih e (by simp [he])]
        cases substE s r e <;> cases substEL s r es <;> rfl
    rw [substE, substE, h, hl]
    cases deepEq (.vec es) s with
    | ok b => cases b <;> cases substEL s r es <;> rfl
    | throw x => rfl
    | ub => rfl

theorem ren_substitute (hρ : ρ.Injective) (s r e : Expr K) :
    substitute (rename ρ s) (rename ρ r) (rename ρ e) = (substitute s r e).map (rename ρ) := by
  rw [substitute, substitute, ren_substE hρ]
  cases substE s r e with
  | ok d => exact ren_simplified ρ d
  | throw x => rfl
  | ub => rfl

theorem ren_findRepl (hρ : ρ.Injective) (e : Expr K) (ss rs : List (Expr K)) :
    findRepl (rename ρ e) (renameL ρ ss) (renameL ρ rs) =
      (findRepl e ss rs).map fun o => o.map (rename ρ) := by
  induction ss generalizing rs with
  | nil => rfl
  | cons s ss ih =>
    cases rs with
    | nil =>
      have := ih []
      simp only [renameL, findRepl, ren_deepEq hρ] at this ⊢
      cases deepEq e s with
      | ok b => cases b <;> simp [this]
      | throw x => rfl
      | ub => rfl
    | cons r rs =>
      simp only [renameL, findRepl, ren_deepEq hρ]
      cases deepEq e s with
      | ok b => cases b <;> simp [ih]
      | throw x => rfl
      | ub => rfl

theorem ren_substM (hρ : ρ.Injective) (ss rs : List (Expr K)) (e : Expr K) :
    substM (renameL ρ ss) (renameL ρ rs) (rename ρ e) = (substM ss rs e).map (rename ρ) := by
  induction e using Expr.ind with
  | const c =>
    have h := ren_findRepl hρ (.const c) ss rs
    rw [rename] at h ⊢
    rw [substM, substM, h]
    cases findRepl (.const c) ss rs with
    | ok o => cases o <;> rfl
    | throw x => rfl
    | ub => rfl
  | var i =>
    have h := ren_findRepl hρ (.var i) ss rs
    rw [rename] at h ⊢
    rw [substM, substM, h]
    cases findRepl (.var i) ss rs with
    | ok o => cases o <;> rfl
    | throw x => rfl
    | ub => rfl
  | fsym i t =>
    have h := ren_findRepl hρ (.fsym i t) ss rs
    rw [rename] at h ⊢
    rw [substM, substM, h]
    cases findRepl (.fsym i t) ss rs with
    | ok o => cases o <;> rfl
    | throw x => rfl
    | ub => rfl
  | un op e ih =>
    have h := ren_findRepl hρ (.un op e) ss rs
    rw [rename] at h ⊢
    rw [substM, substM, h, ih]
    cases findRepl (.un op e) ss rs with
    | ok o => cases o <;> cases substM ss rs e <;> rfl
    | throw x => rfl
    | ub => rfl
  | integ lo hi x e _ _ ih =>
    have h := ren_findRepl hρ (.integ lo hi x e) ss rs
    rw [rename] at h ⊢
    rw [substM, substM, h, ih]
    cases findRepl (.integ lo hi x e) ss rs with
    | ok o => cases o <;> cases substM ss rs e <;> rfl
    | throw x => rfl
    | ub => rfl
  | bin op a b iha ihb =>
    have h := ren_findRepl hρ (.bin op a b) ss rs
    rw [rename] at h ⊢
    rw [substM, substM, h, iha, ihb]
    cases findRepl (.bin op a b) ss rs with
    | ok o => cases o <;> cases substM ss rs a <;> cases substM ss rs b <;> rfl
    | throw x => rfl
    | ub => rfl
  | vec es ih =>
    have h := ren_findRepl hρ (.vec es) ss rs
    rw [rename] at h ⊢
    have hl : substML (renameL ρ ss) (renameL ρ rs) (renameL ρ es) = (substML ss rs es).map (renameL ρ) := by
      clear h
      induction es with
      | nil => rfl
      | cons e es ih' =>
        simp only [renameL, substML, ih e (by simp), ih' fun e he => ih e (by simp [he])]
        cases substM ss rs e <;> cases substML ss rs es <;> rfl
    rw [substM, substM, h, hl]
    cases findRepl (.vec es) ss rs with
    | ok o => cases o <;> cases substML ss rs es <;> rfl
    | throw x => rfl
    | ub => rfl

theorem ren_substituteMany (hρ : ρ.Injective) (ss rs : List (Expr K)) (e : Expr K) :
    substituteMany (renameL ρ ss) (renameL ρ rs) (rename ρ e) =
      (substituteMany ss rs e).map (rename ρ) := by
  rw [substituteMany, substituteMany, renameL_length, renameL_length, ren_substM hρ]
  split
  · cases substM ss rs e with
    | ok d => exact ren_simplified ρ d
    | throw x => rfl
    | ub => rfl
  · rfl

theorem ren_eval (o o' : Order K) (v w : List K) (e : Expr K) (h : Carries ρ e v w) (a : K) :
    eval o' w (rename ρ e) = .ok a ↔ eval o v e = .ok a := by
  induction e using Expr.ind generalizing a with
  | const c => rfl
  | var i =>
    have := h i .var
    simp only [rename, eval, this]
    cases v[i]? <;> simp
  | fsym => rfl
  | un op e ih =>
    simp only [rename, eval, Res.bind_eq_ok, applyU_op, ih fun i hi => h i (.un hi)]
  | integ lo hi x e _ _ ih => simp [rename, eval, Res.bind_eq_ok]
  | bin op l r hl hr =>
    simp only [rename, eval, Res.both_eq_ok, hl fun i hi => h i (.binL hi), hr fun i hi => h i (.binR hi)]
  | vec => rfl

omit [Num K] in
theorem isConst_noOccurs {e : Expr K} (h : isConst e = true) (i : Nat) : ¬ Occurs i e := by
  induction e using Expr.ind with
  | const c => intro h; cases h
  | bin op l r hl hr =>
    rw [isConst, Bool.and_eq_true] at h
    intro ho
    cases ho with
    | binL ho => exact hl h.1 ho
    | binR ho => exact hr h.2 ho
  | _ => simp [isConst] at h

theorem ren_evalS (o o' : Order K) (s : K) {e : Expr K} (h : isConst e = true) (a : K) :
    evalS o' s (rename ρ e) = .ok a ↔ evalS o s e = .ok a := by
  rw [evalS_eq_eval, evalS_eq_eval]
  exact ren_eval o o' _ _ e (fun i hi => absurd hi (isConst_noOccurs h i)) a

theorem ren_unwrapO (o o' : Order K) (e : Expr K) (a : K) :
    unwrap o' (rename ρ e) = .ok a ↔ unwrap o e = .ok a := by
  induction e using Expr.ind generalizing a with
  | un op e ih => simp only [rename, unwrap, Res.bind_eq_ok, applyU_op, ih]
  | integ lo hi x e _ _ ih => simp [rename, unwrap, Res.bind_eq_ok]
  | bin op l r hl hr => simp only [rename, unwrap, Res.both_eq_ok, hl, hr]
  | _ => rfl

theorem ren_gauss (hρ : ρ.Injective) (o o' : Order K) (lo hi : Expr K) (x : Nat) (e : Expr K) (y : K) :
    gaussQuad1 o' (rename ρ lo) (rename ρ hi) (ρ.var x) (rename ρ e) = .ok y ↔
      gaussQuad1 o lo hi x e = .ok y := by
  rw [gaussQuad1, gaussQuad1, ren_isConst, ren_isConst]
  split
  · rename_i hc
    rw [Bool.and_eq_true] at hc
    have hw : isConst (.bin .minus hi lo) = true := by rw [isConst, hc.1, hc.2]; rfl
    have hs (m : K) := ren_substitute hρ (.var x) (.const m) e
    simp only [rename] at hs
    have hd (a : K) := ren_evalS (ρ := ρ) o o' (Num.lit 0) hw a
    simp only [rename] at hd
    simp only [Res.bind_eq_ok, Res.both_eq_ok, ren_evalS o o' _ hc.1, ren_evalS o o' _ hc.2, hs, hd,
      Res.map_eq_ok]
    constructor
    · rintro ⟨m, hm, t, ⟨t', ht', rfl⟩, a, c, ha, hc, hk⟩
      exact ⟨m, hm, t', ht', a, c, (ren_unwrapO o o' _ _).1 ha, hc, hk⟩
    · rintro ⟨m, hm, t, ht, a, c, ha, hc, hk⟩
      exact ⟨m, hm, _, ⟨t, ht, rfl⟩, a, c, (ren_unwrapO o o' _ _).2 ha, hc, hk⟩
  · simp

theorem ren_zeroCheck (o o' : Order K) (e : Expr K) (rest rest' : Res K) (y : K)
    (hr : rest' = .ok y ↔ rest = .ok y) :
    zeroCheck o' (rename ρ e) rest' = .ok y ↔ zeroCheck o e rest = .ok y := by
  rw [zeroCheck, zeroCheck, ren_isConst]
  split
  · rename_i hc
    simp only [Res.bind_eq_ok, ren_evalS o o' _ hc]
    refine exists_congr fun c => and_congr_right fun _ => ?_
    split
    · rfl
    · exact hr
  · exact hr

theorem ren_quadOf (o o' : Order K) (q q' : Rule K)
    (hq : ∀ lo hi x e y, q' (rename ρ lo) (rename ρ hi) (ρ.var x) (rename ρ e) = .ok y ↔
      q lo hi x e = .ok y) (e : Expr K) (y : K) :
    quadOf o' q' (rename ρ e) = .ok y ↔ quadOf o q e = .ok y := by
  induction e using Expr.ind generalizing y with
  | integ lo hi x e _ _ _ => exact hq lo hi x e y
  | un op e _ => cases op <;> simp [rename, Renaming.op, quadOf]
  | bin op l r hl hr =>
    have := ren_zeroCheck (ρ := ρ) o o' (.bin op l r) (quadBin (o l r) (quadOf o q l) (quadOf o q r) op)
      (quadBin (o' (rename ρ l) (rename ρ r)) (quadOf o' q' (rename ρ l)) (quadOf o' q' (rename ρ r)) op) y
      (by cases op <;> simp only [quadBin, Res.both_eq_ok, hl, hr])
    rw [rename] at this ⊢
    rw [quadOf, quadOf]
    exact this
  | const c => exact ren_zeroCheck (ρ := ρ) o o' (.const c) (.throw .noIntegral) _ y (by simp)
  | var i => exact ren_zeroCheck (ρ := ρ) o o' (.var i) (.throw .noIntegral) _ y (by simp)
  | fsym i t => exact ren_zeroCheck (ρ := ρ) o o' (.fsym i t) (.throw .noIntegral) _ y (by simp)
  | vec es _ => exact ren_zeroCheck (ρ := ρ) o o' (.vec es) (.throw .noIntegral) _ y (by simp)

end
end VM
