import Verif.Spec.Scalar
import Verif.Rt.SimplifyLemmas
import Verif.Rt.EvalLemmas
import Mathlib.Tactic.SplitIfs
/-
The scalar types of constants do not matter to most functions.
-/
namespace VM
open VM.Spec
variable {K : Type} [Num K]

theorem held_eq (c : Scalar K) : held c = c.toNum := by cases c <;> rfl

theorem untypedL_eq (es : List (TExpr K)) : untypedL es = es.map untyped := by
  induction es with
  | nil => rfl
  | cons e es ih => rw [untypedL, ih]; rfl

@[simp] theorem unt_isConst (e : TExpr K) : isConst (untyped e) = isConst e := by
  induction e using Expr.ind with
  | bin op l r hl hr => rw [untyped, isConst, isConst, hl, hr]
  | _ => simp [untyped, isConst]

theorem unt_eval (o : Order K) (v : List K) (e : TExpr K) :
    Typed.eval (fun a b => o (untyped a) (untyped b)) v e = eval o v (untyped e) := by
  induction e using Expr.ind with
  | const c => rw [untyped, Typed.eval, eval, held_eq]
  | un op e ih => rw [untyped, Typed.eval, eval, ih]
  | integ lo hi x e _ _ ih => rw [untyped, Typed.eval, eval, ih]
  | bin op l r hl hr => rw [untyped, Typed.eval, eval, hl, hr]
  | _ => rfl

theorem unt_evalS (o : Order K) (s : K) (e : TExpr K) :
    Typed.evalS (fun a b => o (untyped a) (untyped b)) s e = evalS o s (untyped e) := by
  induction e using Expr.ind with
  | const c => rw [untyped, Typed.evalS, evalS, held_eq]
  | un op e ih => rw [untyped, Typed.evalS, evalS, ih]
  | integ lo hi x e _ _ ih => rw [untyped, Typed.evalS, evalS, ih]
  | bin op l r hl hr => rw [untyped, Typed.evalS, evalS, hl, hr]
  | _ => rfl

theorem unt_eval_ok (o : Order (Scalar K)) (o' : Order K) (v : List K) (e : TExpr K) (a : K) :
    Typed.eval o v e = .ok a ↔ eval o' v (untyped e) = .ok a := by
  induction e using Expr.ind generalizing a with
  | const c => rw [untyped, Typed.eval, eval, held_eq]
  | un op e ih => rw [untyped, Typed.eval, eval]; simp only [Res.bind_eq_ok, ih]
  | integ lo hi x e _ _ ih => rw [untyped, Typed.eval, eval]; simp only [Res.bind_eq_ok, ih]
  | bin op l r hl hr => rw [untyped, Typed.eval, eval]; simp only [Res.both_eq_ok, hl, hr]
  | _ => exact Iff.rfl

theorem unt_unwrap (o : Order K) (e : TExpr K) :
    Typed.unwrap (fun a b => o (untyped a) (untyped b)) e = unwrap o (untyped e) := by
  induction e using Expr.ind with
  | const c => rw [untyped, Typed.unwrap, unwrap, held_eq]
  | un op e ih => rw [untyped, Typed.unwrap, unwrap, ih]
  | integ lo hi x e _ _ ih => rw [untyped, Typed.unwrap, unwrap, ih]
  | bin op l r hl hr => rw [untyped, Typed.unwrap, unwrap, hl, hr]
  | _ => rfl

@[simp] theorem unt_unwrapL (e : TExpr K) : Typed.unwrap leftFirst e = unwrap leftFirst (untyped e) :=
  unt_unwrap leftFirst e

theorem unt_dotFrom (acc : TExpr K) (ls rs : List (TExpr K)) :
    dotFrom (untyped acc) (untypedL ls) (untypedL rs) = untyped (dotFrom acc ls rs) := by
  induction ls generalizing acc rs with
  | nil => rfl
  | cons l ls ih =>
    cases rs with
    | nil => rfl
    | cons r rs => simp only [untypedL, dotFrom]; rw [← ih]; rfl

theorem unt_dot (ls rs : List (TExpr K)) :
    dot (untypedL ls) (untypedL rs) = (dot ls rs).map untyped := by
  cases ls with
  | nil => rfl
  | cons l ls =>
    cases rs with
    | nil => rfl
    | cons r rs =>
      simp only [untypedL, dot, untypedL_eq, List.length_map]
      split
      · rw [Res.map_ok, ← unt_dotFrom, ← untypedL_eq, ← untypedL_eq]; rfl
      · rfl

theorem unt_simpBin (op : BOp) (l r : TExpr K) (sl sr : Res (TExpr K)) :
    (Typed.simpBin op l r sl sr).map untyped =
      simpBin op (untyped l) (untyped r) (sl.map untyped) (sr.map untyped) := by
  by_cases hl : isConst l = true
  · cases op <;> simp only [simpBin, Typed.simpBin, unt_isConst, hl, if_true, unt_unwrapL]
    case uid => rfl
    all_goals
      generalize unwrap leftFirst (untyped l) = u
      cases u with
      | ok c => simp only [Res.bind_ok]; split_ifs <;> cases sr <;> rfl
      | throw x => rfl
      | ub => rfl
  · by_cases hr : isConst r = true
    · cases op <;> simp only [simpBin, Typed.simpBin, unt_isConst, hl, hr, if_true, unt_unwrapL, Bool.false_eq_true,
        if_false]
      case uid => rfl
      all_goals
        generalize unwrap leftFirst (untyped r) = u
        cases u with
        | ok c => simp only [Res.bind_ok]; split_ifs <;> cases sl <;> rfl
        | throw x => rfl
        | ub => rfl
    · cases op <;> simp only [simpBin, Typed.simpBin, unt_isConst, hl, hr]
      case mult =>
        cases l <;> cases r <;> first | exact (unt_dot _ _).symm | (cases sl <;> cases sr <;> rfl)
      all_goals first | rfl | (cases sl <;> cases sr <;> rfl)

theorem unt_simplify (e : TExpr K) : (Typed.simplify e).map untyped = simplify (untyped e) := by
  induction e using Expr.ind with
  | un op e ih =>
    rw [untyped, simplify, Typed.simplify, unt_isConst, unt_unwrapL, ← ih]
    split
    · cases unwrap leftFirst (untyped e) with
      | ok c =>
        simp only [Res.bind_ok]
        split
        · cases applyU op c <;> rfl
        · rfl
      | throw x => rfl
      | ub => rfl
    · cases Typed.simplify e <;> rfl
  | integ lo hi x e _ _ ih =>
    rw [untyped, simplify, Typed.simplify, unt_isConst, unt_unwrapL, ← ih]
    split
    · cases unwrap leftFirst (untyped e) <;> rfl
    · cases Typed.simplify e <;> rfl
  | bin op l r hl hr =>
    have hu := unt_unwrapL (.bin op l r)
    rw [untyped] at hu ⊢
    rw [simplify, Typed.simplify, unt_isConst, unt_isConst, hu, ← hl, ← hr, ← unt_simpBin]
    split
    · cases unwrap leftFirst (.bin op (untyped l) (untyped r)) <;> rfl
    · rfl
  | _ => rfl

theorem unt_constCheck (e : TExpr K) (p : K → Bool) (rest : Res Bool) :
    Typed.constCheck e p rest = constCheck (untyped e) p rest := by
  rw [constCheck, Typed.constCheck, unt_isConst, unt_unwrapL]

theorem unt_canSimplify (e : TExpr K) : Typed.canSimplify e = canSimplify (untyped e) := by
  induction e using Expr.ind with
  | un op e ih => rw [untyped, canSimplify, Typed.canSimplify, ih]
  | integ lo hi x e _ _ ih => rw [untyped, canSimplify, Typed.canSimplify, ih]
  | bin op l r hl hr =>
    rw [untyped, canSimplify, Typed.canSimplify, unt_isConst, unt_isConst, hl, hr]
    have : Typed.canBin op l r (canSimplify (untyped l)) (canSimplify (untyped r)) =
        canBin op (untyped l) (untyped r) (canSimplify (untyped l)) (canSimplify (untyped r)) := by
      cases op <;> simp only [canBin, Typed.canBin, unt_constCheck]
      congr 2
      cases l <;> cases r <;> rfl
    rw [this]
  | _ => rfl

theorem unt_loop (n : Nat) (e : TExpr K) :
    (Typed.simplifyLoop n e).map (fun r => r.map untyped) = simplifyLoop n (untyped e) := by
  induction n generalizing e with
  | zero => rfl
  | succ n ih =>
    simp only [simplifyLoop, Typed.simplifyLoop, ← unt_canSimplify, ← unt_simplify]
    cases Typed.canSimplify e with
    | ok b =>
      cases b
      · rfl
      · cases Typed.simplify e with
        | ok e' => exact ih e'
        | throw x => rfl
        | ub => rfl
    | throw x => rfl
    | ub => rfl

theorem unt_weight (e : TExpr K) : weight (untyped e) = weight e := by
  induction e using Expr.ind with
  | un op e ih => rw [untyped, weight, weight, ih]
  | integ lo hi x e _ _ ih => rw [untyped, weight, weight, ih]
  | bin op l r hl hr => rw [untyped]; cases op <;> simp only [weight, hl, hr]
  | vec es ih =>
    rw [untyped, weight, weight]
    induction es with
    | nil => rfl
    | cons e es ih' =>
      rw [untypedL, weightL, weightL, ih e (by simp), ih' fun e he => ih e (by simp [he])]
  | _ => simp only [untyped, weight]

theorem unt_simplified (e : TExpr K) : (Typed.simplified e).map untyped = simplified (untyped e) := by
  have h := unt_loop (weight e + 1) e
  rw [Typed.simplified, simplified, unt_weight, ← h]
  cases Typed.simplifyLoop (weight e + 1) e <;> rfl

/-- The comparison of the two constants does not depend on their types. -/
def SameTest (c d : Scalar K) : Prop := c.equal d = Num.eqb (held d) (held c)

omit [Num K] in
theorem AllConst.mono {p q : Scalar K → Prop} (h : ∀ c, p c → q c) {e : TExpr K} (he : AllConst p e) :
    AllConst q e := by
  induction e using Expr.ind with
  | const c => exact h c he
  | var | fsym => trivial
  | un op e ih => exact ih he
  | integ lo hi x e h1 h2 h3 => exact ⟨h1 he.1, h2 he.2.1, h3 he.2.2⟩
  | bin op l r hl hr => exact ⟨hl he.1, hr he.2⟩
  | vec es ih =>
    simp only [AllConst] at he ⊢
    induction es with
    | nil => trivial
    | cons e es ih' => exact ⟨ih e (by simp) he.1, ih' (fun e he => ih e (by simp [he])) he.2⟩

theorem unt_deepEq {e f : TExpr K} (h : AllConst (fun c => AllConst (SameTest c) f) e) :
    Typed.deepEq e f = deepEq (untyped e) (untyped f) := by
  induction e using Expr.ind generalizing f with
  | const c =>
    cases f <;> simp only [untyped, deepEq, Typed.deepEq]
    rw [show Scalar.equal _ _ = _ from h]
  | var i => cases f <;> simp only [untyped, deepEq, Typed.deepEq]
  | fsym i t => cases f <;> simp only [untyped, deepEq, Typed.deepEq]
  | un op e ih =>
    cases f with
    | un op' e' => simp only [untyped, deepEq, Typed.deepEq]; rw [ih (f := e') h]
    | integ lo hi x e' =>
      simp only [untyped, deepEq, Typed.deepEq]
      rw [ih (AllConst.mono (fun c hc => hc.2.2) (e := e) h)]
    | _ => simp only [untyped, deepEq, Typed.deepEq]
  | integ lo hi x e _ _ ih =>
    cases f with
    | un op' e' => simp only [untyped, deepEq, Typed.deepEq]; rw [ih (f := e') h.2.2]
    | integ lo hi x e' =>
      simp only [untyped, deepEq, Typed.deepEq]
      rw [ih (AllConst.mono (fun c hc => hc.2.2) (e := e) h.2.2)]
    | _ => simp only [untyped, deepEq, Typed.deepEq]
  | bin op l r hl hr =>
    cases f with
    | bin op' l' r' =>
      simp only [untyped, deepEq, Typed.deepEq]
      rw [hl (AllConst.mono (fun c hc => hc.1) (e := l) h.1), hr (AllConst.mono (fun c hc => hc.2) (e := r) h.2)]
    | _ => simp only [untyped, deepEq, Typed.deepEq]
  | vec es ih =>
    cases f with
    | vec fs =>
      simp only [untyped, deepEq, Typed.deepEq]
      simp only [AllConst] at h
      induction es generalizing fs with
      | nil => cases fs <;> rfl
      | cons e es ih' =>
        cases fs with
        | nil => rfl
        | cons f fs =>
          have h1 := ih e (by simp) (f := f) (AllConst.mono (fun c hc => hc.1) (e := e) h.1)
          have h2 := ih' (fun e he => ih e (by simp [he])) fs
            (by
              have := AllConst.mono (p := fun c => AllConstL (SameTest c) (f :: fs))
                (q := fun c => AllConstL (SameTest c) fs) (fun c hc => hc.2) (e := .vec es) h.2
              exact this)
          simp only [untypedL, deepEqL, Typed.deepEqL, h1, h2]
    | _ => simp only [untyped, deepEq, Typed.deepEq]

theorem unt_substE {s e : TExpr K} (r : TExpr K) (h : AllConst (fun c => AllConst (SameTest c) s) e) :
    (Typed.substE s r e).map untyped = substE (untyped s) (untyped r) (untyped e) := by
  induction e using Expr.ind with
  | const c =>
    have h' := unt_deepEq h
    rw [untyped] at h' ⊢
    rw [substE, Typed.substE, ← h']
    cases Typed.deepEq (.const c) s with
    | ok b => cases b <;> rfl
    | throw x => rfl
    | ub => rfl
  | var i =>
    have h' := unt_deepEq (e := .var i) (f := s) h
    rw [untyped] at h' ⊢
    rw [substE, Typed.substE, ← h']
    cases Typed.deepEq (.var i) s with
    | ok b => cases b <;> rfl
    | throw x => rfl
    | ub => rfl
  | fsym i t =>
    have h' := unt_deepEq (e := .fsym i t) (f := s) h
    rw [untyped] at h' ⊢
    rw [substE, Typed.substE, ← h']
    cases Typed.deepEq (.fsym i t) s with
    | ok b => cases b <;> rfl
    | throw x => rfl
    | ub => rfl
  | un op e ih =>
    have h' := unt_deepEq h
    rw [untyped] at h' ⊢
    rw [substE, Typed.substE, ← h', ← ih h]
    cases Typed.deepEq (.un op e) s with
    | ok b => cases b <;> cases Typed.substE s r e <;> rfl
    | throw x => rfl
    | ub => rfl
  | integ lo hi x e _ _ ih =>
    have h' := unt_deepEq h
    rw [untyped] at h' ⊢
    rw [substE, Typed.substE, ← h', ← ih h.2.2]
    cases Typed.deepEq (.integ lo hi x e) s with
    | ok b => cases b <;> cases Typed.substE s r e <;> rfl
    | throw x => rfl
    | ub => rfl
  | bin op a b iha ihb =>
    have h' := unt_deepEq h
    rw [untyped] at h' ⊢
    rw [substE, Typed.substE, ← h', ← iha h.1, ← ihb h.2]
    cases Typed.deepEq (.bin op a b) s with
    | ok c => cases c <;> cases Typed.substE s r a <;> cases Typed.substE s r b <;> rfl
    | throw x => rfl
    | ub => rfl
  | vec es ih =>
    have h' := unt_deepEq h
    rw [untyped] at h' ⊢
    have hl : (Typed.substEL s r es).map untypedL = substEL (untyped s) (untyped r) (untypedL es) := by
      clear h'
      simp only [AllConst] at h
      induction es with
      | nil => rfl
      | cons e es ih' =>
        simp only [untypedL, substEL, Typed.substEL, ← ih e (by simp) h.1,
          ← ih' (fun e he => ih e (by simp [he])) h.2]
        cases Typed.substE s r e <;> cases Typed.substEL s r es <;> rfl
    rw [substE, Typed.substE, ← h', ← hl]
    cases Typed.deepEq (.vec es) s with
    | ok b => cases b <;> cases Typed.substEL s r es <;> rfl
    | throw x => rfl
    | ub => rfl

theorem unt_substitute {s e : TExpr K} (r : TExpr K) (h : AllConst (fun c => AllConst (SameTest c) s) e) :
    (Typed.substitute s r e).map untyped = substitute (untyped s) (untyped r) (untyped e) := by
  rw [substitute, Typed.substitute, ← unt_substE r h]
  cases Typed.substE s r e with
  | ok d => exact unt_simplified d
  | throw x => rfl
  | ub => rfl

theorem unt_diffFn (f : Fn) (e : TExpr K) (d : Res (TExpr K)) :
    (Typed.diffFn f e d).map untyped = diffFn f (untyped e) (d.map untyped) := by
  cases f <;> cases d <;> rfl

theorem unt_diffBin (op : BOp) (l r : TExpr K) (dl dr : Res (TExpr K)) :
    (diffBin op l r dl dr).map untyped =
      diffBin op (untyped l) (untyped r) (dl.map untyped) (dr.map untyped) := by
  cases op <;> cases dl <;> cases dr <;> rfl

theorem held_zero (c : Scalar K) : held c.zero = Num.lit 0 := by cases c <;> rfl

theorem unt_diffE_var (i : Nat) (e : TExpr K) :
    (Typed.diffE (.var i) e).map untyped = diffE (.var i) (untyped e) := by
  induction e using Expr.ind with
  | const c => simp only [untyped, diffE, Typed.diffE, Res.map_ok, held_zero]
  | var j => rfl
  | fsym j t => rfl
  | un op e ih =>
    cases op with
    | fn f => simp only [untyped, diffE, Typed.diffE, ← ih, unt_diffFn]
    | _ => rfl
  | integ => rfl
  | bin op l r hl hr => simp only [untyped, diffE, Typed.diffE, ← hl, ← hr, unt_diffBin]
  | vec es ih =>
    simp only [untyped, diffE, Typed.diffE]
    have : (Typed.diffEL (.var i) es).map untypedL = diffEL (.var i) (untypedL es) := by
      induction es with
      | nil => rfl
      | cons e es ih' =>
        simp only [untypedL, diffEL, Typed.diffEL, ← ih e (by simp), ← ih' fun e he => ih e (by simp [he])]
        cases Typed.diffE (.var i) e <;> cases Typed.diffEL (.var i) es <;> rfl
    rw [← this]
    cases Typed.diffEL (.var i) es <;> rfl

theorem unt_diff_var (i : Nat) (e : TExpr K) :
    (Typed.diff (.var i) e).map untyped = diff (.var i) (untyped e) := by
  rw [diff, Typed.diff, ← unt_diffE_var]
  cases Typed.diffE (.var i) e with
  | ok d => exact unt_simplified d
  | throw x => rfl
  | ub => rfl

/-- The derivative of something that is not a bare constant of another type is none either. -/
theorem diffE_const {x : DVar} {e : TExpr K} (he : ¬ BareConst e) {c : Scalar K}
    (h : Typed.diffE x e = .ok (.const c)) : IsDouble c := by
  induction e using Expr.ind with
  | const d =>
    simp only [Typed.diffE, Res.ok.injEq, Expr.const.injEq] at h
    subst h
    cases d with
    | dbl y => trivial
    | _ => exact absurd (fun h => h) he
  | var j => simp only [Typed.diffE, Typed.made, Res.ok.injEq, Expr.const.injEq] at h; subst h; trivial
  | fsym j t =>
    cases x with
    | var i => simp [Typed.diffE] at h
    | fsym i u => simp only [Typed.diffE, Typed.made, Res.ok.injEq, Expr.const.injEq] at h; subst h; trivial
  | un op e ih =>
    cases op with
    | fn f =>
      simp only [Typed.diffE] at h
      cases f <;> simp only [Typed.diffFn, Res.map_eq_ok, reduceCtorEq, and_false, exists_false] at h
      exact ih he h
    | grad =>
      cases x with
      | var i => simp [Typed.diffE] at h
      | fsym i u =>
        simp only [Typed.diffE, Res.bind_eq_ok, Res.map_eq_ok] at h
        obtain ⟨d, _, b, _, hb⟩ := h
        cases b
        · simp at hb
        · simp only [if_true, Typed.made, Expr.const.injEq] at hb; subst hb; trivial
    | _ => simp [Typed.diffE] at h
  | integ => simp [Typed.diffE] at h
  | bin op l r _ _ =>
    simp only [Typed.diffE] at h
    cases op <;> simp [diffBin, Res.bind_eq_ok, Res.map_eq_ok] at h
  | vec es _ => simp [Typed.diffE, Res.map_eq_ok] at h

theorem unt_diffE_sym (i t : Nat) {e : TExpr K} (he : GradsFine e) :
    (Typed.diffE (.fsym i t) e).map untyped = diffE (.fsym i t) (untyped e) := by
  induction e using Expr.ind with
  | const c => simp only [untyped, diffE, Typed.diffE, Res.map_ok, held_zero]
  | var j => rfl
  | fsym j t => rfl
  | un op e ih =>
    cases op with
    | fn f => simp only [untyped, diffE, Typed.diffE, ← ih he, unt_diffFn]
    | grad =>
      have ih := ih he.2
      simp only [untyped, diffE, Typed.diffE, ← ih]
      cases hd : Typed.diffE (.fsym i t) e with
      | ok d =>
        simp only [Res.bind_ok, Res.map_ok]
        cases d with
        | const c =>
          cases c with
          | dbl y =>
            simp only [untyped, held, deepEq, Typed.deepEq, Typed.made, Scalar.equal, Res.map_ok]
            split <;> rfl
          | _ => exact (diffE_const he.1 hd).elim
        | _ => rfl
      | throw x => rfl
      | ub => rfl
    | _ => rfl
  | integ => rfl
  | bin op l r hl hr => simp only [untyped, diffE, Typed.diffE, ← hl he.1, ← hr he.2, unt_diffBin]
  | vec es ih =>
    simp only [untyped, diffE, Typed.diffE]
    simp only [GradsFine] at he
    have : (Typed.diffEL (.fsym i t) es).map untypedL = diffEL (.fsym i t) (untypedL es) := by
      induction es with
      | nil => rfl
      | cons e es ih' =>
        simp only [untypedL, diffEL, Typed.diffEL, ← ih e (by simp) he.1,
          ← ih' (fun e he => ih e (by simp [he])) he.2]
        cases Typed.diffE (.fsym i t) e <;> cases Typed.diffEL (.fsym i t) es <;> rfl
    rw [← this]
    cases Typed.diffEL (.fsym i t) es <;> rfl

theorem unt_diff_sym (i t : Nat) {e : TExpr K} (he : GradsFine e) :
    (Typed.diff (.fsym i t) e).map untyped = diff (.fsym i t) (untyped e) := by
  rw [diff, Typed.diff, ← unt_diffE_sym i t he]
  cases Typed.diffE (.fsym i t) e with
  | ok d => exact unt_simplified d
  | throw x => rfl
  | ub => rfl

theorem unt_deepEq_true (hl : ∀ n : Int, Num.eqb (Num.lit n : K) (Num.lit n) = true) {e f : TExpr K}
    (h : Typed.deepEq e f = .ok true) : deepEq (untyped e) (untyped f) = .ok true := by
  induction e using Expr.ind generalizing f with
  | const c =>
    cases f <;> simp only [untyped, deepEq, Typed.deepEq, Res.ok.injEq, Bool.false_eq_true] at h ⊢
    rename_i d
    cases c <;> cases d <;> simp_all [Scalar.equal, held]
  | var i => cases f <;> simpa only [untyped, deepEq, Typed.deepEq] using h
  | fsym i t => cases f <;> simpa only [untyped, deepEq, Typed.deepEq] using h
  | un op e ih =>
    cases f <;> simp only [untyped, deepEq, Typed.deepEq, Res.map_eq_ok, Bool.false_eq_true, and_false,
      exists_false, Res.ok.injEq] at h ⊢
    obtain ⟨b, hb, hc⟩ := h
    simp only [Bool.and_eq_true] at hc
    exact ⟨true, ih (hc.1 ▸ hb), by simp [hc.2]⟩
  | integ lo hi x e _ _ ih =>
    cases f <;> simp only [untyped, deepEq, Typed.deepEq, Res.map_eq_ok, Bool.false_eq_true, and_false,
      exists_false, Res.ok.injEq] at h ⊢
    exact ih h
  | bin op l r ihl ihr =>
    cases f <;> simp only [untyped, deepEq, Typed.deepEq, Res.bind_eq_ok, Bool.false_eq_true, Res.ok.injEq] at h ⊢
    obtain ⟨b, hb, hc⟩ := h
    split at hc
    · rename_i hop
      simp only [Bool.and_eq_true, decide_eq_true_eq] at hop
      exact ⟨true, ihl (hop.1 ▸ hb), by simp [hop.2, ihr hc]⟩
    · simp at hc
  | vec es ih =>
    cases f <;> simp only [untyped, deepEq, Typed.deepEq, Res.ok.injEq, Bool.false_eq_true] at h ⊢
    rename_i fs
    induction es generalizing fs with
    | nil => cases fs <;> simp_all [untypedL, deepEqL, Typed.deepEqL]
    | cons e es ih' =>
      cases fs with
      | nil => rfl
      | cons f fs =>
        simp only [untypedL, deepEqL, Typed.deepEqL, Res.bind_eq_ok] at h ⊢
        obtain ⟨b, hb, hc⟩ := h
        cases b
        · simp at hc
        · exact ⟨true, ih e (by simp) hb, by simpa using ih' (fun e he => ih e (by simp [he])) fs (by simpa using hc)⟩

theorem unt_isUnary (e : TExpr K) : (untyped e).isUnary = e.isUnary := by cases e <;> rfl

theorem unt_deepStr {fmt : K → Txt} {e : TExpr K} (h : AllConst (fun c => c.txt fmt = fmt (held c)) e) :
    deepStr (Scalar.txt fmt) e = deepStr fmt (untyped e) := by
  induction e using Expr.ind with
  | const c => simp only [untyped, deepStr]; rw [show c.txt fmt = _ from h]
  | var | fsym => rfl
  | un op e ih => simp only [untyped, deepStr]; rw [ih h]
  | integ lo hi x e h1 h2 h3 =>
    simp only [untyped, deepStr, unt_isUnary]; rw [h1 h.1, h2 h.2.1, h3 h.2.2]
  | bin op l r hl hr => simp only [untyped, deepStr]; rw [hl h.1, hr h.2]
  | vec es ih =>
    simp only [untyped, deepStr, untypedL_eq, List.length_map]
    rw [← untypedL_eq]
    simp only [AllConst] at h
    have : entriesStr (Scalar.txt fmt) es = entriesStr fmt (untypedL es) := by
      induction es with
      | nil => rfl
      | cons e es ih' =>
        simp only [untypedL, entriesStr, unt_isUnary]
        rw [ih e (by simp) h.1, ih' (fun e he => ih e (by simp [he])) h.2]
        cases es <;> rfl
    rw [this]

theorem unt_latex {fmt : K → Txt} {tr : Translator} {e : TExpr K} (h : AllConst IsDouble e) (p : Bool) :
    latex (Scalar.latexTxt fmt) tr p e = latex fmt tr p (untyped e) := by
  induction e using Expr.ind generalizing p with
  | const c =>
    cases c with
    | dbl x => simp only [untyped, latex, held, Scalar.latexTxt]
    | _ => exact h.elim
  | var | fsym => simp only [untyped, latex]
  | un op e ih =>
    cases op with
    | fn f => cases f <;> simp only [untyped, latex] <;> rw [ih h]
    | _ => simp only [untyped, latex]; rw [ih h]
  | integ lo hi x e h1 h2 h3 => simp only [untyped, latex]; rw [h1 h.1, h2 h.2.1, h3 h.2.2]
  | bin op l r hl hr => cases op <;> simp only [untyped, latex] <;> rw [hl h.1, hr h.2]
  | vec es ih => simp only [untyped, latex]

end VM
