import Verif.Ct.OverloadLemmas
import Verif.NumRat
/-
C56: `simplify`, `diff` and `substitute` called with objects of any class.

The full claim: for every object that can be turned into an `expr`, the calls compile and the outcome is the
one for the `expr`.  It is false as it stands; what holds is proved below, and where it fails is stated.
Nothing is assumed of the numeric type unless said.
-/
namespace VM.Props
open VM.Ct VM.Spec
variable {K : Type} [Num K]

/-! ### `simplify` -/

/-- **C56 (simplify, which calls compile)**: all but those with a compile-time object, which are ambiguous. -/
theorem C56_simplify_compiles (cv : Conv) (a : Arg K) :
    (∃ r, callSimplify cv a = some r) ↔ ¬ CompileTime a := by
  rw [callSimplify, pick_simplify]
  cases a with
  | ct e => cases e <;> simp [Arg.cls, CtExpr.cls, simplifyPick, simplifyBody, Cls.isCt, CompileTime]
  | _ => simp [Arg.cls, simplifyPick, simplifyBody, Arg.toExpr, Cls.isCt, CompileTime]

/-- **C56 (simplify)**: whenever the call compiles, the object is one that converts to an `expr` and the outcome
is that of simplifying the `expr`. -/
theorem C56_simplify_partial (cv : Conv) (a : Arg K) (r : Res (Out K)) (h : callSimplify cv a = some r) :
    ∃ e, a.toExpr = some e ∧ Exactly r (simplified e) := by
  rw [callSimplify, pick_simplify] at h
  cases a with
  | ct e => cases e <;> simp [Arg.cls, CtExpr.cls, simplifyPick, simplifyBody, Cls.isCt] at h
  | un | integ | bin | expr =>
    simp [Arg.cls, simplifyPick, simplifyBody, Arg.toExpr] at h
    subst h
    exact ⟨_, rfl, exactly_map⟩
  | _ =>
    simp [Arg.cls, simplifyPick, simplifyBody, Cls.isCt] at h
    subst h
    refine ⟨_, rfl, ?_⟩
    rw [simplified_leaf (by rfl)]
    exact ⟨_, rfl, rfl⟩

/-- **C56 (inplace_simplify)**: it compiles for everything but unary and binary expression objects; it
simplifies an `expr` and leaves anything else as it is. -/
theorem C56_inplace (a : Arg K) :
    ((∃ r, callInplace a = some r) ↔ a.cls ≠ .un ∧ a.cls ≠ .bin) ∧
    (∀ e, a = .expr e → ∃ r, callInplace a = some r ∧ Exactly r (simplified e)) ∧
    (∀ r, callInplace a = some r → a.cls ≠ .expr → r = .ok (.obj a)) := by
  rw [callInplace, pick_inplace]
  refine ⟨?_, ?_, ?_⟩
  · cases a with
    | ct e => cases e <;> simp [Arg.cls, CtExpr.cls, inplacePick, inplaceBody]
    | _ => simp [Arg.cls, inplacePick, inplaceBody, Arg.toExpr]
  · rintro e rfl
    exact ⟨_, rfl, exactly_map⟩
  · intro r h he
    cases a with
    | ct e => cases e <;> simp_all [Arg.cls, CtExpr.cls, inplacePick, inplaceBody]
    | _ => simp_all [Arg.cls, inplacePick, inplaceBody]

/-! ### `diff` -/

/-- **C56 (diff, which calls compile)**: exactly those in the table, and compile-time expressions only without
function symbols.  In particular the derivative of a run-time variable or of a vector cannot be taken, a
constant cannot be differentiated with respect to a compile-time variable, and a compile-time expression cannot
be differentiated with respect to a run-time variable unless it is a constant. -/
theorem C56_diff_compiles (a v : Arg K) :
    (∃ r, callDiff a v = some r) ↔ a.cls ∈ differentiable v.cls ∧ SymbolFree a := by
  constructor
  · rintro ⟨r, h⟩
    refine ⟨callDiff_some h, ?_⟩
    rintro e rfl
    have hm := callDiff_some h
    rw [callDiff_eq] at h
    cases v with
    | rtVar x => cases e <;> trivial
    | fsym x t => cases e <;> simp [Arg.cls, CtExpr.cls, differentiable] at hm
    | ct v =>
      cases v with
      | var i =>
        cases e with
        | bin l op r =>
          simp only [Arg.cls, CtExpr.cls, diffPick, Option.bind_some, diffBody, Option.map_eq_some_iff] at h
          exact (ctDiff_isSome i _).1 ⟨_, h.choose_spec.1⟩
        | fsym t => simp [Arg.cls, CtExpr.cls, differentiable] at hm
        | _ => trivial
      | _ => simp [Arg.cls, CtExpr.cls, differentiable] at hm
    | _ => simp [Arg.cls, differentiable] at hm
  · rintro ⟨hm, hs⟩
    rw [callDiff_eq]
    cases v with
    | rtVar x =>
      cases a with
      | ct e =>
        cases e with
        | const n => exact ⟨_, rfl⟩
        | _ => simp [Arg.cls, CtExpr.cls, differentiable] at hm
      | rtVar | vec => simp [Arg.cls, differentiable] at hm
      | _ => exact ⟨_, rfl⟩
    | fsym x t =>
      cases a with
      | ct e => cases e <;> simp [Arg.cls, CtExpr.cls, differentiable] at hm
      | un | integ | bin | expr | fsym => exact ⟨_, rfl⟩
      | _ => simp [Arg.cls, differentiable] at hm
    | ct v =>
      cases v with
      | var i =>
        cases a with
        | ct e =>
          obtain ⟨d, hd⟩ := (ctDiff_isSome i e).2 (hs e rfl)
          refine ⟨.ok (.obj (.ct d)), ?_⟩
          cases e with
          | fsym t => simp [Arg.cls, CtExpr.cls, differentiable] at hm
          | _ => simp only [Arg.cls, CtExpr.cls, diffPick, Option.bind_some, diffBody, hd, Option.map_some]
        | un | integ | bin | expr | fsym => exact ⟨_, rfl⟩
        | _ => simp [Arg.cls, CtExpr.cls, differentiable] at hm
      | _ => simp [Arg.cls, CtExpr.cls, differentiable] at hm
    | _ => simp [Arg.cls, differentiable] at hm

/-- **C56 (diff)**: whenever the call compiles and neither a function symbol is differentiated with respect to a
variable, nor a compile-time expression with respect to a compile-time variable, the outcome is that of
differentiating the `expr`. -/
theorem C56_diff_partial (a v : Arg K) (r : Res (Out K)) (h : callDiff a v = some r)
    (h1 : a.cls = .fsym → v.cls = .fsym) (h2 : CompileTime a → v.cls ≠ .ctVar) :
    ∃ e x, a.toExpr = some e ∧ direction v = some x ∧ Exactly r (diff x e) := by
  have hm := callDiff_some h
  rw [callDiff_eq] at h
  have hz : ∀ (i : Nat) (c : K), diff (.var i) (.const c) = .ok (.const (Num.lit 0)) := fun i c => by
    rw [diff, diffE, Res.bind_ok, simplified_leaf (by rfl)]
  cases v with
  | rtVar x =>
    cases a with
    | ct e =>
      cases e with
      | const n =>
        cases h
        exact ⟨_, _, rfl, rfl, by rw [hz]; exact ⟨_, rfl, rfl⟩⟩
      | _ => simp [Arg.cls, CtExpr.cls, differentiable] at hm
    | rtVar | vec => simp [Arg.cls, differentiable] at hm
    | un | integ | bin | expr =>
      cases h
      exact ⟨_, _, rfl, rfl, exactly_map⟩
    | fsym => simp [Arg.cls] at h1
    | _ =>
      cases h
      exact ⟨_, _, rfl, rfl, by rw [hz]; exact ⟨_, rfl, rfl⟩⟩
  | fsym j u =>
    cases a with
    | ct e => cases e <;> simp [Arg.cls, CtExpr.cls, differentiable] at hm
    | un | integ | bin | expr =>
      cases h
      exact ⟨_, _, rfl, rfl, exactly_map⟩
    | fsym i t =>
      cases h
      refine ⟨_, _, rfl, rfl, ?_⟩
      simp only [diff, diffE, Res.bind_ok]
      rw [simplified_leaf (by rfl)]
      refine ⟨_, rfl, ?_⟩
      simp only [asExpr, Arg.toExpr, @eq_comm _ i j, @eq_comm _ t u]
    | _ => simp [Arg.cls, differentiable] at hm
  | ct v =>
    cases v with
    | var i =>
      cases a with
      | ct e => exact absurd rfl (h2 ⟨e, rfl⟩)
      | un | integ | bin | expr =>
        cases h
        exact ⟨_, _, rfl, rfl, exactly_map⟩
      | fsym => simp [Arg.cls, CtExpr.cls] at h1
      | _ => simp [Arg.cls, CtExpr.cls, differentiable] at hm
    | _ => simp [Arg.cls, CtExpr.cls, differentiable] at hm
  | _ => simp [Arg.cls, differentiable] at hm

/-- **C56 (diff of compile-time expressions)**: simplifying what is returned gives what differentiating the
`expr` gives. -/
theorem C56_diff_compiletime (e : CtExpr) (i : Nat) (r : Res (Out K))
    (h : callDiff (K := K) (.ct e) (.ct (.var i)) = some r) :
    ∃ e', toRt e = some e' ∧ Simplified r (diff (.var i) e') := by
  have hs := ((C56_diff_compiles (.ct e) (.ct (.var i))).1 ⟨r, h⟩).2 e rfl
  refine ⟨image e, toRt_noSym hs, ?_⟩
  rw [callDiff, pick_diff] at h
  have : ∃ d, ctDiff i e = some d ∧ r = .ok (.obj (.ct d)) := by
    cases e <;> simp [Arg.cls, CtExpr.cls, diffPick, diffBody, diffRt, Arg.dvar, Arg.toExpr] at h
    all_goals exact ⟨_, h.choose_spec.1, h.choose_spec.2.symm⟩
  obtain ⟨d, hd, rfl⟩ := this
  refine ⟨_, image d, rfl, toRt_noSym (ctDiff_noSym hd), ?_⟩
  rw [diff, diffE_image i hd, Res.bind_ok]

/-- **C56 (diff of a function symbol, what differs)**: with respect to a variable the object gives the formal
derivative, the `expr` throws. -/
theorem C56_diff_symbol (i t x : Nat) :
    callDiff (K := K) (.fsym i t) (.rtVar x) = some (.ok (.obj (.expr (.un (.pd x) (.fsym i t))))) ∧
    callDiff (K := K) (.fsym i t) (.ct (.var x)) = some (.ok (.obj (.expr (.un (.pd x) (.fsym i t))))) ∧
    callDiff (K := K) (.expr (.fsym i t)) (.rtVar x) = some (.throw .notDifferentiable) := by
  refine ⟨?_, ?_, ?_⟩ <;> rw [callDiff, pick_diff]
  · simp [Arg.cls, diffPick, diffBody, diffRt, Arg.dvar, Arg.toExpr, diffSymbol]
  · simp [Arg.cls, CtExpr.cls, diffPick, diffBody, diffRt, Arg.dvar, Arg.toExpr, diffSymbol]
  · simp [Arg.cls, diffPick, diffBody, diffRt, Arg.dvar, Arg.toExpr, diff, diffE]

/-! ### `substitute` -/

/-- **C56 (substitute, which calls compile)**: exactly those of the specification.  In particular a variable
cannot be replaced by an `expr` or an `int`, a function symbol not by a variable or a unary or binary expression
object, and a binary expression not by an `expr`. -/
theorem C56_substitute_compiles (s r e : Arg K) :
    (∃ o, callSubst s r e = some o) ↔ SubstCompiles s r e := by
  by_cases he : CompileTime e
  · obtain ⟨e, rfl⟩ := he
    have hc : (Arg.ct e : Arg K).cls ≠ .expr ∧ (Arg.ct e : Arg K).cls ∉ addressable := by
      cases e <;> simp [addressable, Arg.cls, CtExpr.cls]
    rw [callSubst_eq, substPick_ct _ _ (Arg.ct e : Arg K).cls (ct_isCt e)]
    simp only [SubstCompiles, hc.1, hc.2, false_and, false_or, Arg.ct.injEq, exists_eq_left']
    by_cases hs : s.cls = .rtVar
    · have hn : (Arg.ct e : Arg K).node = none := by cases e <;> rfl
      simp only [hs, if_true, Option.bind_some, substBody, ne_eq, not_true, false_and, iff_false, hn]
      rintro ⟨o, ho⟩
      cases hx : s.toExpr <;> cases hy : r.node <;> simp [substRt, hx, hy] at ho
    · simp only [hs, if_false, Option.bind_some, substBody, ne_eq, not_false_iff, true_and,
        Option.map_eq_some_iff]
      cases s with
      | ct s =>
        cases r with
        | ct r => cases r <;> simp [substByType, Arg.cls, CtExpr.cls]
        | _ =>
          have hi := occursIn_iff (s := s) (e := e)
          by_cases h : Inside s e
          · simp [substByType, hi.2 h, h, Arg.cls, Cls.defaultable]
          · simp [substByType, Bool.eq_false_iff.2 fun x => h (hi.1 x), h]
      | _ => simp [substByType]
  · have he' : e.cls.isCt = false := by rw [← Bool.not_eq_true]; exact fun h => he (cls_isCt.1 h)
    have h2 : ¬ ∃ e', e = .ct e' ∧ s.cls ≠ .rtVar ∧
        ∀ s', s = .ct s' → Inside s' e' → r.cls ∉ [Cls.rtConst, .rtVar, .vec] :=
      fun ⟨e', h, _⟩ => he ⟨e', h⟩
    rw [SubstCompiles, or_iff_left h2 |> fun h => (or_assoc.symm.trans h), ← subst_accepts _ _ _ he', callSubst_eq]
    constructor
    · rintro ⟨o, ho⟩
      obtain ⟨k, hk, ho⟩ := Option.bind_eq_some_iff.1 ho
      obtain ⟨k0, k1, k2, k3, k4⟩ := substPick_rt _ _ _ he' k hk
      rw [substBody_rt k0 k1] at ho
      have := congrArg Option.isSome ho
      rw [substRt_isSome, replBy_isSome k4] at this
      simp only [Option.isSome_some, Bool.and_eq_true] at this
      refine ⟨k, hk, this.1.2, ?_⟩
      rintro rfl
      rw [← node_isSome]
      exact this.2
    · rintro ⟨k, hk, hr, hn⟩
      obtain ⟨k0, k1, k2, k3, k4⟩ := substPick_rt _ _ _ he' k hk
      refine Option.isSome_iff_exists.1 ?_
      rw [Option.mem_def.1 hk, Option.bind_some, substBody_rt k0 k1, substRt_isSome, replBy_isSome k4, hr,
        toExpr_isSome' k2]
      split
      · rw [node_isSome, hn (by assumption)]; rfl
      · rw [toExpr_isSome' he']; rfl

/-- **C56 (substitute)**: whenever the call compiles and the expression is not a compile-time one, the outcome is
that of substituting in the `expr`. -/
theorem C56_substitute_partial (s r e : Arg K) (o : Res (Out K)) (h : callSubst s r e = some o)
    (he : ¬ CompileTime e) :
    ∃ s' r' e', s.toExpr = some s' ∧ r.toExpr = some r' ∧ e.toExpr = some e' ∧
      Exactly o (substitute s' r' e') := by
  have he' : e.cls.isCt = false := by rw [← Bool.not_eq_true]; exact fun h => he (cls_isCt.1 h)
  rw [callSubst_eq] at h
  obtain ⟨k, hk, ho⟩ := Option.bind_eq_some_iff.1 h
  obtain ⟨k0, k1, -⟩ := substPick_rt _ _ _ he' k hk
  rw [substBody_rt k0 k1] at ho
  cases hs : s.toExpr <;> cases hr : replBy k r <;> cases hx : (if k = 1 then e.node else e.toExpr) <;>
    rw [hs, hr, hx] at ho <;> cases ho
  refine ⟨_, _, _, rfl, replBy_toExpr hr, ?_, exactly_map⟩
  split at hx
  · exact node_toExpr hx
  · exact hx

/-- **C56 (substitute in compile-time expressions)**: with compile-time objects for all three arguments,
simplifying what is returned gives what substituting in the `expr` gives. -/
theorem C56_substitute_compiletime (hK : LitsDistinct K) (s r e : CtExpr) (o : Res (Out K))
    (h : callSubst (K := K) (.ct s) (.ct r) (.ct e) = some o) (hs : NoSym s) (hr : NoSym r) (he : NoSym e) :
    ∃ s' r' e', toRt s = some s' ∧ toRt r = some r' ∧ toRt e = some e' ∧
      Simplified o (substitute s' r' e') := by
  refine ⟨_, _, _, toRt_noSym hs, toRt_noSym hr, toRt_noSym he, ?_⟩
  have hsv : (Arg.ct s : Arg K).cls ≠ .rtVar := by cases s <;> exact fun h => by cases h
  rw [callSubst_eq, substPick_ct _ _ (Arg.ct e : Arg K).cls (ct_isCt e), if_neg hsv] at h
  cases h
  refine ⟨_, image (ctSubst s r e), rfl, toRt_noSym (ctSubst_noSym hr he), ?_⟩
  rw [substitute, substE_image hK s r e he, Res.bind_ok]

/-- **C56 (substitute in compile-time expressions, what is lost)**: with a run-time object as replacement of a
part of a compile-time expression, nothing of the replacement but its class has an effect. -/
theorem C56_substitute_hollow (s e : CtExpr) (h : Inside s e) (r r' : Arg K) (hr : ¬ CompileTime r)
    (hc : r.cls = r'.cls) :
    callSubst (.ct s) r (.ct e) = callSubst (.ct s) r' (.ct e) ∧
    ∀ o, callSubst (.ct s) r (.ct e) = some (.ok o) → asExpr o = none := by
  have hsv : (Arg.ct s : Arg K).cls ≠ .rtVar := by cases s <;> exact fun h => by cases h
  have hr' : ¬ CompileTime r' := fun h => hr (cls_isCt.1 (hc ▸ cls_isCt.2 h))
  have key : ∀ r : Arg K, ¬ CompileTime r →
      callSubst (.ct s) r (.ct e) = (if r.cls.defaultable then some (.ok (.hollow r.cls s e)) else none) := by
    intro r hr
    rw [callSubst_eq, substPick_ct _ _ (Arg.ct e : Arg K).cls (ct_isCt e), if_neg hsv, Option.bind_some, substBody]
    cases r with
    | ct r => exact absurd ⟨r, rfl⟩ hr
    | _ => simp [substByType, occursIn_iff.2 h, Arg.cls, Cls.defaultable]
  rw [key r hr, key r' hr', hc]
  refine ⟨rfl, fun o ho => ?_⟩
  split at ho <;> cases ho
  rfl

/-- **C56 (substitute in compile-time expressions, what is missed)**: a search object of a run-time class never
matches, although the expression may contain it. -/
theorem C56_substitute_missed (s r : Arg K) (e : CtExpr) (hs : ¬ CompileTime s) (hv : s.cls ≠ .rtVar) :
    callSubst s r (.ct e) = some (.ok (.obj (.ct e))) := by
  rw [callSubst_eq, substPick_ct _ _ (Arg.ct e : Arg K).cls (ct_isCt e), if_neg hv, Option.bind_some, substBody]
  cases s with
  | ct s => exact absurd ⟨s, rfl⟩ hs
  | _ => rfl

omit [Num K] in
theorem pick_list (a : Arg K) : pick substListSigs [a.cls] =
    if a.cls.isCt then some 0 else if a.cls = .expr then some 1 else none := by
  generalize a.cls = c
  clear a
  cases c <;> rfl

/-- **C56 (substitute with lists or an interval, which calls compile)**: an `expr` or a compile-time expression has to
be given for the expression; unlike with one searched expression no other object is accepted. -/
theorem C56_lists_compile (ss rs : List (Expr K)) (k : Nat) (lo hi : Expr K) (x : Nat) (e : Arg K) :
    ((∃ o, callSubstList ss rs e = some o) ↔ CompileTime e ∨ e.cls = .expr) ∧
    ((∃ o, callSubstInterval k lo hi x e = some o) ↔ CompileTime e ∨ e.cls = .expr) := by
  rw [callSubstList, callSubstInterval, pick_list]
  cases e with
  | ct e => cases e <;> simp [Arg.cls, CtExpr.cls, Cls.isCt, CompileTime]
  | _ => simp [Arg.cls, Cls.isCt, CompileTime]

/-- **C56 (substitute with lists or an interval)**: whenever the call compiles and the expression is not a compile-time
one, the outcome is that of the substitution in the `expr`. -/
theorem C56_lists_partial (ss rs : List (Expr K)) (k : Nat) (lo hi : Expr K) (x : Nat) (e : Arg K)
    (he : ¬ CompileTime e) :
    (∀ o, callSubstList ss rs e = some o → ∃ e', e.toExpr = some e' ∧ Exactly o (substituteMany ss rs e')) ∧
    (∀ o, callSubstInterval k lo hi x e = some o →
      ∃ e', e.toExpr = some e' ∧ Exactly o (substituteInterval k lo hi x e')) := by
  rw [callSubstList, callSubstInterval, pick_list]
  cases e with
  | ct e => exact absurd ⟨e, rfl⟩ he
  | expr e =>
    simp only [Arg.cls, Cls.isCt, Bool.false_eq_true, if_false, if_true, Option.bind_some, Option.some.injEq, Arg.toExpr,
      forall_eq', exists_eq_left']
    exact ⟨by cases substituteMany ss rs e <;> simp [Exactly, asExpr, Arg.toExpr],
      by cases substituteInterval k lo hi x e <;> simp [Exactly, asExpr, Arg.toExpr]⟩
  | _ => simp [Arg.cls, Cls.isCt]

/-- **C56 (substitute with lists or an interval in compile-time expressions)**: nothing is ever replaced. -/
theorem C56_lists_ignored (ss rs : List (Expr K)) (k : Nat) (lo hi : Expr K) (x : Nat) (e : CtExpr) :
    callSubstList ss rs (.ct e) = some (.ok (.obj (.ct e))) ∧
    callSubstInterval k lo hi x (.ct e) = some (.ok (.obj (.ct e))) := by
  rw [callSubstList, callSubstInterval, pick_list]
  cases e <;> simp [Arg.cls, CtExpr.cls, Cls.isCt]

/-- `substitute({x, y}, {y, x}, e)` for `e = x - y`: swapped if `e` is an `expr`, unchanged if it is a compile-time
expression, not compiled if it is a binary expression object. -/
example : callSubstList (K := XRat) [.var 0, .var 1] [.var 1, .var 0] (.expr (.bin .minus (.var 0) (.var 1))) =
      some (.ok (.obj (.expr (.bin .minus (.var 1) (.var 0))))) ∧
    callSubstList (K := XRat) [.var 0, .var 1] [.var 1, .var 0] (.ct (.bin (.var 0) .minus (.var 1))) =
      some (.ok (.obj (.ct (.bin (.var 0) .minus (.var 1))))) ∧
    callSubstList (K := XRat) [.var 0, .var 1] [.var 1, .var 0] (.bin .minus (.var 0) (.var 1)) = none := by
  refine ⟨?_, (C56_lists_ignored _ _ 0 (.var 0) (.var 0) 0 _).1, ?_⟩
  · rw [callSubstList, pick_list]
    have : substituteMany (K := XRat) [.var 0, .var 1] [.var 1, .var 0] (.bin .minus (.var 0) (.var 1)) =
        .ok (.bin .minus (.var 1) (.var 0)) := by decide +kernel
    simp [Arg.cls, Cls.isCt, this]
  · rw [callSubstList, pick_list]
    simp [Arg.cls, Cls.isCt]

/-- **C56 (the full claim fails)**: objects that convert to an `expr`, for which the call does not compile or
does something else. -/
theorem C56_fails (cv : Conv) :
    -- simplify(ct_x)
    callSimplify (K := K) cv (.ct (.var 0)) = none ∧
    -- diff(x, x), diff(ct_x, x), diff(3.0, ct_x)
    callDiff (K := K) (.rtVar 0) (.rtVar 0) = none ∧
    callDiff (K := K) (.ct (.var 0)) (.rtVar 0) = none ∧
    (∀ c : K, callDiff (.num c) (.ct (.var 0)) = none) ∧
    -- substitute(x, expr, expr), substitute(x, 300, expr), substitute(u, y, expr)
    (∀ r e : Expr K, callSubst (.rtVar 0) (.expr r) (.expr e) = none) ∧
    (∀ (n : Int) (e : Expr K), callSubst (.rtVar 0) (.int n) (.expr e) = none) ∧
    (∀ e : Expr K, callSubst (.fsym 0 0) (.rtVar 1) (.expr e) = none) ∧
    -- substitute(expr x, expr z, ct_x + ct_y) returns ct_x + ct_y, not z + y
    callSubst (K := K) (.expr (.var 0)) (.expr (.var 2)) (.ct (.var 0 +' .var 1)) =
      some (.ok (.obj (.ct (.var 0 +' .var 1)))) ∧
    substitute (K := K) (.var 0) (.var 2) (.bin .plus (.var 0) (.var 1)) =
      .ok (.bin .plus (.var 2) (.var 1)) := by
  refine ⟨?_, ?_, ?_, fun c => ?_, fun r e => ?_, fun n e => ?_, fun e => ?_, ?_, ?_⟩
  · rw [callSimplify, pick_simplify]; rfl
  · rw [callDiff_eq]; rfl
  · rw [callDiff_eq]; rfl
  · rw [callDiff_eq]; rfl
  · rw [callSubst_eq]; rfl
  · rw [callSubst_eq]; rfl
  · rw [callSubst_eq]; rfl
  · rw [callSubst_eq]; rfl
  · simp only [substitute, substE, deepEq, Res.map_ok, Res.bind_ok]
    simp
    rw [simplified_leaf (by simp [canSimplify, canBin, constCheck, isConst])]

/-! Concrete cases -/

-- simplify(0 * x) of a binary expression object, and of the number 2.5
example (cv : Conv) : callSimplify (K := XRat) cv (.bin .mult (.const (some 0)) (.var 0)) =
    some (.ok (.obj (.expr (.const (some 0))))) := by
  have h : simplified (K := XRat) (.bin .mult (.const (some 0)) (.var 0)) = .ok (.const (some 0)) := by
    decide +kernel
  rw [callSimplify, pick_simplify]
  simp [simplifyPick, Arg.cls, simplifyBody, Arg.toExpr, h]
example (cv : Conv) : callSimplify (K := XRat) cv (.num (some (5 / 2))) =
    some (.ok (.obj (.num (some (5 / 2))))) := by
  rw [callSimplify, pick_simplify]; rfl
-- diff(3, x) with an `int`, an overload for numbers; diff(exp(x) * x, ct_x) of a binary expression object
example : callDiff (K := XRat) (.int 3) (.rtVar 0) = some (.ok (.obj (.rtConst (some 0)))) := by
  rw [callDiff_eq]; rfl
example : ∃ r, callDiff (K := XRat) (.bin .mult (.un (.fn .exp) (.var 0)) (.var 0)) (.ct (.var 0)) = some r ∧
    r = .ok (.obj (.expr (.bin .plus (.bin .mult (.un (.fn .exp) (.var 0)) (.var 0))
      (.un (.fn .exp) (.var 0))))) := by
  have h : diff (K := XRat) (.var 0) (.bin .mult (.un (.fn .exp) (.var 0)) (.var 0)) =
      .ok (.bin .plus (.bin .mult (.un (.fn .exp) (.var 0)) (.var 0)) (.un (.fn .exp) (.var 0))) := by
    decide +kernel
  refine ⟨_, rfl, ?_⟩
  simp [h]
-- diff of x * x + 3 written with compile-time objects
example : callDiff (K := XRat) (.ct (.var 0 *' .var 0 +' ♯3)) (.ct (.var 0)) =
    some (.ok (.obj (.ct (((♯1 *' .var 0) +' (.var 0 *' ♯1)) +' ♯0)))) := by rw [callDiff_eq]; rfl
-- substitute(x, 2.0, x * y) and substitute(u, 2, u * y)
example : callSubst (K := XRat) (.rtVar 0) (.num (some 2)) (.expr (.bin .mult (.var 0) (.var 1))) =
    some (.ok (.obj (.expr (.bin .mult (.const (some 2)) (.var 1))))) := by
  have h : substitute (K := XRat) (.var 0) (.const (some 2)) (.bin .mult (.var 0) (.var 1)) =
      .ok (.bin .mult (.const (some 2)) (.var 1)) := by decide +kernel
  rw [callSubst_eq]
  simp [substPick, Arg.cls, substBody, substRt, Arg.toExpr, Arg.number, h]
example : callSubst (K := XRat) (.fsym 0 7) (.int 2) (.expr (.bin .mult (.fsym 0 7) (.var 1))) =
    some (.ok (.obj (.expr (.bin .mult (.const (some 2)) (.var 1))))) := by
  have h : substitute (K := XRat) (.fsym 0 7) (.const (Num.lit 2)) (.bin .mult (.fsym 0 7) (.var 1)) =
      .ok (.bin .mult (.const (some 2)) (.var 1)) := by decide +kernel
  rw [callSubst_eq]
  simp [substPick, Arg.cls, substBody, substRt, Arg.toExpr, Arg.number, h]
-- the same number 2.0 or 5.0 for ct_x in ct_x + ct_y: no difference
example : callSubst (K := XRat) (.ct (.var 0)) (.num (some 2)) (.ct (.var 0 +' .var 1)) =
    callSubst (.ct (.var 0)) (.num (some 5)) (.ct (.var 0 +' .var 1)) :=
  (C56_substitute_hollow _ _ (.left .here) _ _ (fun ⟨_, h⟩ => by cases h) rfl).1
-- rational numbers compare faithfully
example : LitsDistinct XRat := fun a b => by simp [Num.eqb, Num.lit, XRat.eqb]

end VM.Props
