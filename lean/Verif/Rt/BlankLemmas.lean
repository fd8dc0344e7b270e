import Verif.Spec.Blank
import Verif.Rt.CoversLemmas
import Verif.Rt.PairsLemmas
import Verif.Rt.Diff
import Verif.Rt.Subst
import Verif.Spec.Syntax
import Verif.Rt.Quadrature
import Verif.Rt.SimplifyLemmas
import Verif.Rt.EvalLemmas
import Mathlib.Tactic.SplitIfs
/-
Ignoring the intervals of integrals commutes with the algorithms.
-/
namespace VM
open VM.Spec
variable {K : Type}

theorem blankL_eq (es : List (Expr K)) : blankL es = es.map blank := by
  induction es with
  | nil => rfl
  | cons e es ih => rw [blankL, ih]; rfl

section
variable [Num K]

omit [Num K] in
@[simp] theorem blank_isConst (e : Expr K) : isConst (blank e) = isConst e := by
  induction e using Expr.ind with
  | bin op l r hl hr => rw [blank, isConst, isConst, hl, hr]
  | _ => simp [blank, isConst]

theorem applyU_blankOp (op : UOp) (c : K) : applyU (blankOp op) c = applyU op c := by cases op <;> rfl

@[simp] theorem blank_canSimplifyOp (op : UOp) : (blankOp op).canSimplify = op.canSimplify := by cases op <;> rfl

@[simp] theorem blank_unwrap (e : Expr K) : unwrap leftFirst (blank e) = unwrap leftFirst e := by
  induction e using Expr.ind with
  | un op e ih =>
    rw [blank, unwrap, unwrap, ih]
    congr 1; funext c; exact applyU_blankOp op c
  | integ lo hi x e _ _ ih => rw [blank, unwrap, unwrap, ih]
  | bin op l r hl hr => rw [blank, unwrap, unwrap, hl, hr]; rfl
  | _ => rfl

omit [Num K] in
theorem blank_dotFrom (acc : Expr K) (ls rs : List (Expr K)) :
    dotFrom (blank acc) (blankL ls) (blankL rs) = blank (dotFrom acc ls rs) := by
  induction ls generalizing acc rs with
  | nil => rfl
  | cons l ls ih =>
    cases rs with
    | nil => rfl
    | cons r rs => simp only [blankL, dotFrom]; rw [← ih]; rfl

omit [Num K] in
theorem blankL_length (es : List (Expr K)) : (blankL es).length = es.length := by
  rw [blankL_eq, List.length_map]

omit [Num K] in
theorem blank_dot (ls rs : List (Expr K)) :
    dot (blankL ls) (blankL rs) = (dot ls rs).map blank := by
  cases ls with
  | nil => rfl
  | cons l ls =>
    cases rs with
    | nil => rfl
    | cons r rs =>
      simp only [blankL, dot, blankL_length]
      split
      · rw [Res.map_ok, ← blank_dotFrom]; rfl
      · rfl

theorem blank_simpBin (op : BOp) (l r : Expr K) (sl sr : Res (Expr K)) :
    simpBin op (blank l) (blank r) (sl.map blank) (sr.map blank) =
      (simpBin op l r sl sr).map blank := by
  by_cases hl : isConst l = true
  · cases op <;> simp only [simpBin, blank_isConst, hl, if_true, blank_unwrap]
    case uid => rfl
    all_goals
      generalize unwrap leftFirst l = u
      cases u with
      | ok c => simp only [Res.bind_ok]; split_ifs <;> cases sr <;> rfl
      | throw x => rfl
      | ub => rfl
  · by_cases hr : isConst r = true
    · cases op <;> simp only [simpBin, blank_isConst, hl, hr, if_true, blank_unwrap, Bool.false_eq_true, if_false]
      case uid => rfl
      all_goals
        generalize unwrap leftFirst r = u
        cases u with
        | ok c => simp only [Res.bind_ok]; split_ifs <;> cases sl <;> rfl
        | throw x => rfl
        | ub => rfl
    · cases op <;> simp only [simpBin, blank_isConst, hl, hr]
      case mult =>
        cases l <;> cases r <;> first | exact blank_dot _ _ | (cases sl <;> cases sr <;> rfl)
      all_goals first | rfl | (cases sl <;> cases sr <;> rfl)

theorem blank_simplify (e : Expr K) : simplify (blank e) = (simplify e).map blank := by
  induction e using Expr.ind with
  | un op e ih =>
    rw [blank, simplify, simplify, blank_isConst, blank_unwrap, ih, blank_canSimplifyOp]
    split
    · cases unwrap leftFirst e with
      | ok c =>
        simp only [Res.bind_ok, applyU_blankOp]
        split
        · cases applyU op c <;> rfl
        · rfl
      | throw x => rfl
      | ub => rfl
    · cases simplify e <;> rfl
  | integ lo hi x e _ _ ih =>
    rw [blank, simplify, simplify, blank_isConst, blank_unwrap, ih]
    split
    · cases unwrap leftFirst e <;> rfl
    · cases simplify e <;> rfl
  | bin op l r hl hr =>
    have hu := blank_unwrap (.bin op l r)
    rw [blank] at hu ⊢
    rw [simplify, simplify, blank_isConst, blank_isConst, hu, hl, hr, blank_simpBin]
    split
    · cases unwrap leftFirst (.bin op l r) <;> rfl
    · rfl
  | _ => rfl

theorem blank_constCheck (e : Expr K) (p : K → Bool) (rest : Res Bool) :
    constCheck (blank e) p rest = constCheck e p rest := by
  rw [constCheck, constCheck, blank_isConst, blank_unwrap]

theorem blank_canSimplify (e : Expr K) : canSimplify (blank e) = canSimplify e := by
  induction e using Expr.ind with
  | un op e ih => rw [blank, canSimplify, canSimplify, ih]
  | integ lo hi x e _ _ ih => rw [blank, canSimplify, canSimplify, ih]
  | bin op l r hl hr =>
    rw [blank, canSimplify, canSimplify, blank_isConst, blank_isConst, hl, hr]
    have : canBin op (blank l) (blank r) (canSimplify l) (canSimplify r) =
        canBin op l r (canSimplify l) (canSimplify r) := by
      cases op <;> simp only [canBin, blank_constCheck]
      congr 2
      cases l <;> cases r <;> rfl
    rw [this]
  | _ => rfl

theorem blank_loop (n : Nat) (e : Expr K) :
    simplifyLoop n (blank e) = (simplifyLoop n e).map fun r => r.map blank := by
  induction n generalizing e with
  | zero => rfl
  | succ n ih =>
    simp only [simplifyLoop, blank_canSimplify, blank_simplify]
    cases canSimplify e with
    | ok b =>
      cases b
      · rfl
      · cases simplify e with
        | ok e' => exact ih e'
        | throw x => rfl
        | ub => rfl
    | throw x => rfl
    | ub => rfl

theorem blank_simplified (e : Expr K) : simplified (blank e) = (simplified e).map blank := by
  rw [← Simplifies_iff]
  obtain ⟨n, hn⟩ := Simplifies_simplified e
  exact ⟨n, by rw [blank_loop, hn]; rfl⟩


theorem blank_equalOp (op op' : UOp) : UOp.equal (blankOp op) (blankOp op') = UOp.equal op op' := by
  cases op <;> cases op' <;> simp [blankOp, UOp.equal]

theorem blank_deepEq (e f : Expr K) : deepEq (blank e) (blank f) = deepEq e f := by
  induction e using Expr.ind generalizing f with
  | const c => cases f <;> simp [blank, deepEq]
  | var i => cases f <;> simp [blank, deepEq]
  | fsym i t => cases f <;> simp [blank, deepEq]
  | un op e ih => cases f <;> simp [blank, deepEq, ih, blank_equalOp]
  | integ lo hi x e _ _ ih => cases f <;> simp [blank, deepEq, ih]
  | bin op l r hl hr => cases f <;> simp [blank, deepEq, hl, hr]
  | vec es ih =>
    cases f <;> simp only [blank, deepEq]
    rename_i fs
    induction es generalizing fs with
    | nil => cases fs <;> simp [blankL, deepEqL]
    | cons e es ih' =>
      cases fs with
      | nil => simp [blankL, deepEqL]
      | cons f fs =>
        simp only [blankL, deepEqL, ih e (by simp), ih' (fun e he => ih e (by simp [he]))]

theorem blank_diffFn (f : Fn) (e : Expr K) (d : Res (Expr K)) :
    diffFn f (blank e) (d.map blank) = (diffFn f e d).map blank := by
  cases f <;> cases d <;> rfl

omit [Num K] in
theorem blank_diffBin (op : BOp) (l r : Expr K) (dl dr : Res (Expr K)) :
    diffBin op (blank l) (blank r) (dl.map blank) (dr.map blank) =
      (diffBin op l r dl dr).map blank := by
  cases op <;> cases dl <;> cases dr <;> rfl

theorem blank_diffE (x : DVar) (e : Expr K) :
    diffE x (blank e) = (diffE x e).map blank := by
  induction e using Expr.ind with
  | const c => rfl
  | var i => rfl
  | fsym i t => cases x <;> rfl
  | un op e ih =>
    cases op with
    | fn f => simp only [blank, blankOp, diffE, ih, blank_diffFn]
    | grad =>
      cases x with
      | var j => rfl
      | fsym j u =>
        simp only [blank, blankOp, diffE, ih]
        cases diffE (.fsym j u) e with
        | ok d =>
          have h := blank_deepEq d (.const (Num.lit 0))
          rw [blank.eq_1] at h
          simp only [Res.map_ok, Res.bind_ok, h]
          cases deepEq d (.const (Num.lit 0)) with
          | ok b => cases b <;> rfl
          | throw x => rfl
          | ub => rfl
        | throw x => rfl
        | ub => rfl
    | _ => rfl
  | integ => rfl
  | bin op l r hl hr => simp only [blank, diffE, hl, hr, blank_diffBin]
  | vec es ih =>
    simp only [blank, diffE]
    have : diffEL x (blankL es) = (diffEL x es).map blankL := by
      induction es with
      | nil => rfl
      | cons e es ih' =>
        simp only [blankL, diffEL, ih e (by simp), ih' fun e he => ih e (by simp [he])]
        cases diffE x e <;> cases diffEL x es <;> rfl
    rw [this]
    cases diffEL x es <;> rfl

theorem blank_diff (x : DVar) (e : Expr K) :
    diff x (blank e) = (diff x e).map blank := by
  rw [diff, diff, blank_diffE]
  cases diffE x e with
  | ok d => exact blank_simplified d
  | throw x => rfl
  | ub => rfl

theorem blank_substE (s r e : Expr K) :
    substE (blank s) (blank r) (blank e) = (substE s r e).map blank := by
  induction e using Expr.ind with
  | const c =>
    have h := blank_deepEq (.const c) s
    rw [blank] at h ⊢
    rw [substE, substE, h]
    cases deepEq (.const c) s with
    | ok b => cases b <;> rfl
    | throw x => rfl
    | ub => rfl
  | var i =>
    have h := blank_deepEq (.var i) s
    rw [blank] at h ⊢
    rw [substE, substE, h]
    cases deepEq (.var i) s with
    | ok b => cases b <;> rfl
    | throw x => rfl
    | ub => rfl
  | fsym i t =>
    have h := blank_deepEq (.fsym i t) s
    rw [blank] at h ⊢
    rw [substE, substE, h]
    cases deepEq (.fsym i t) s with
    | ok b => cases b <;> rfl
    | throw x => rfl
    | ub => rfl
  | un op e ih =>
    have h := blank_deepEq (.un op e) s
    rw [blank] at h ⊢
    rw [substE, substE, h, ih]
    cases deepEq (.un op e) s with
    | ok b => cases b <;> cases substE s r e <;> rfl
    | throw x => rfl
    | ub => rfl
  | integ lo hi x e _ _ ih =>
    have h := blank_deepEq (.integ lo hi x e) s
    rw [blank] at h ⊢
    rw [substE, substE, h, ih]
    cases deepEq (.integ lo hi x e) s with
    | ok b => cases b <;> cases substE s r e <;> rfl
    | throw x => rfl
    | ub => rfl
  | bin op a b iha ihb =>
    have h := blank_deepEq (.bin op a b) s
    rw [blank] at h ⊢
    rw [substE, substE, h, iha, ihb]
    cases deepEq (.bin op a b) s with
    | ok c => cases c <;> cases substE s r a <;> cases substE s r b <;> rfl
    | throw x => rfl
    | ub => rfl
  | vec es ih =>
    have h := blank_deepEq (.vec es) s
    rw [blank] at h ⊢
    have hl : substEL (blank s) (blank r) (blankL es) = (substEL s r es).map blankL := by
      clear h
      induction es with
      | nil => rfl
      | cons e es ih' =>
        simp only [blankL, substEL, ih e (by simp), ih' fun e he => ih e (by simp [he])]
        cases substE s r e <;> cases substEL s r es <;> rfl
    rw [substE, substE, h, hl]
    cases deepEq (.vec es) s with
    | ok b => cases b <;> cases substEL s r es <;> rfl
    | throw x => rfl
    | ub => rfl

theorem blank_substitute (s r e : Expr K) :
    substitute (blank s) (blank r) (blank e) = (substitute s r e).map blank := by
  rw [substitute, substitute, blank_substE]
  cases substE s r e with
  | ok d => exact blank_simplified d
  | throw x => rfl
  | ub => rfl

theorem blank_findRepl (e : Expr K) (ss rs : List (Expr K)) :
    findRepl (blank e) (blankL ss) (blankL rs) =
      (findRepl e ss rs).map fun o => o.map blank := by
  induction ss generalizing rs with
  | nil => rfl
  | cons s ss ih =>
    cases rs with
    | nil =>
      have := ih []
      simp only [blankL, findRepl, blank_deepEq] at this ⊢
      cases deepEq e s with
      | ok b => cases b <;> simp [this]
      | throw x => rfl
      | ub => rfl
    | cons r rs =>
      simp only [blankL, findRepl, blank_deepEq]
      cases deepEq e s with
      | ok b => cases b <;> simp [ih]
      | throw x => rfl
      | ub => rfl

theorem blank_substM (ss rs : List (Expr K)) (e : Expr K) :
    substM (blankL ss) (blankL rs) (blank e) = (substM ss rs e).map blank := by
  induction e using Expr.ind with
  | const c =>
    have h := blank_findRepl (.const c) ss rs
    rw [blank] at h ⊢
    rw [substM, substM, h]
    cases findRepl (.const c) ss rs with
    | ok o => cases o <;> rfl
    | throw x => rfl
    | ub => rfl
  | var i =>
    have h := blank_findRepl (.var i) ss rs
    rw [blank] at h ⊢
    rw [substM, substM, h]
    cases findRepl (.var i) ss rs with
    | ok o => cases o <;> rfl
    | throw x => rfl
    | ub => rfl
  | fsym i t =>
    have h := blank_findRepl (.fsym i t) ss rs
    rw [blank] at h ⊢
    rw [substM, substM, h]
    cases findRepl (.fsym i t) ss rs with
    | ok o => cases o <;> rfl
    | throw x => rfl
    | ub => rfl
  | un op e ih =>
    have h := blank_findRepl (.un op e) ss rs
    rw [blank] at h ⊢
    rw [substM, substM, h, ih]
    cases findRepl (.un op e) ss rs with
    | ok o => cases o <;> cases substM ss rs e <;> rfl
    | throw x => rfl
    | ub => rfl
  | integ lo hi x e _ _ ih =>
    have h := blank_findRepl (.integ lo hi x e) ss rs
    rw [blank] at h ⊢
    rw [substM, substM, h, ih]
    cases findRepl (.integ lo hi x e) ss rs with
    | ok o => cases o <;> cases substM ss rs e <;> rfl
    | throw x => rfl
    | ub => rfl
  | bin op a b iha ihb =>
    have h := blank_findRepl (.bin op a b) ss rs
    rw [blank] at h ⊢
    rw [substM, substM, h, iha, ihb]
    cases findRepl (.bin op a b) ss rs with
    | ok o => cases o <;> cases substM ss rs a <;> cases substM ss rs b <;> rfl
    | throw x => rfl
    | ub => rfl
  | vec es ih =>
    have h := blank_findRepl (.vec es) ss rs
    rw [blank] at h ⊢
    have hl : substML (blankL ss) (blankL rs) (blankL es) = (substML ss rs es).map blankL := by
      clear h
      induction es with
      | nil => rfl
      | cons e es ih' =>
        simp only [blankL, substML, ih e (by simp), ih' fun e he => ih e (by simp [he])]
        cases substM ss rs e <;> cases substML ss rs es <;> rfl
    rw [substM, substM, h, hl]
    cases findRepl (.vec es) ss rs with
    | ok o => cases o <;> cases substML ss rs es <;> rfl
    | throw x => rfl
    | ub => rfl

theorem blank_substituteMany (ss rs : List (Expr K)) (e : Expr K) :
    substituteMany (blankL ss) (blankL rs) (blank e) =
      (substituteMany ss rs e).map blank := by
  rw [substituteMany, substituteMany, blankL_length, blankL_length, blank_substM]
  split
  · cases substM ss rs e with
    | ok d => exact blank_simplified d
    | throw x => rfl
    | ub => rfl
  · rfl


/-- Without regard to intervals, expressions that are taken for equal are the same. -/
theorem blank_eq_of_covers [EqbSound K] {n : Nat} {e f : Expr K} (h : Covers e f) (he : VecDim n e) (hf : VecDim n f) :
    blank e = blank f := by
  induction h with
  | const h => rw [EqbSound.eq_of_eqb h]
  | var => rfl
  | fsym => rfl
  | un _ ih => cases he with | un _ he => cases hf with | un _ hf => simp only [blank, ih he hf]
  | symInt _ ih => cases he with | un _ he => cases hf with | un _ hf => simp only [blank, blankOp, ih he hf]
  | integ _ ih =>
    cases he with | integ _ _ _ he => cases hf with | integ _ _ _ hf => simp only [blank, ih he hf]
  | bin _ _ ih1 ih2 =>
    cases he with | bin _ h1 h2 => cases hf with | bin _ h3 h4 => simp only [blank, ih1 h1 h3, ih2 h2 h4]
  | @vec es fs _ _ ih =>
    cases he with | vec hl he => cases hf with | vec hl' hf =>
    simp only [blank, blankL_eq, Expr.vec.injEq]
    refine List.ext_getElem? fun i => ?_
    rw [List.getElem?_map, List.getElem?_map]
    cases h1 : es[i]? with
    | none =>
      have : fs[i]? = none := by rw [List.getElem?_eq_none_iff] at h1 ⊢; omega
      rw [this]
    | some e =>
      cases h2 : fs[i]? with
      | none => rw [List.getElem?_eq_none_iff] at h2; have := (List.getElem?_eq_some_iff.1 h1).1; omega
      | some f =>
        simp only [Option.map_some, Option.some.injEq]
        exact ih i e f h1 h2 (he e (List.mem_of_getElem? h1)) (hf f (List.mem_of_getElem? h2))

theorem deepEq_blank_right {s s' : Expr K} (h : blank s = blank s') (t : Expr K) : deepEq t s = deepEq t s' := by
  rw [← blank_deepEq t s, ← blank_deepEq t s', h]

theorem findRepl_blank {ss ss' : List (Expr K)} (h : blankL ss = blankL ss') (t : Expr K) (rs : List (Expr K)) :
    findRepl t ss rs = findRepl t ss' rs := by
  induction ss generalizing ss' rs with
  | nil =>
    cases ss' with
    | nil => rfl
    | cons => simp [blankL] at h
  | cons s ss ih =>
    cases ss' with
    | nil => simp [blankL] at h
    | cons s' ss' =>
      simp only [blankL, List.cons.injEq] at h
      cases rs <;> simp only [findRepl, deepEq_blank_right h.1 t, ih h.2]

end
end VM
