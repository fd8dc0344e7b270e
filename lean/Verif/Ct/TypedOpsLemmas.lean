import Verif.Spec.TypedOps
import Verif.Ct.OpsLemmas
/-
Folding constants of several scalar types.
-/
namespace VM.Ct
open VM.Spec
variable {F : Type} [Field F]

theorem foldC_ub (neg : Bool) (s t : Scalar F) : foldC neg s t = .ub ↔ Overflows neg s t := by
  cases neg <;> cases s <;> cases t <;> simp only [foldC, styOf, commonTy, promote, arith, whole, Overflows,
    Res.bind_ok, stored, reduceCtorEq, if_true, Bool.false_eq_true, if_false]
  all_goals
    split
    · rename_i h; simpa [stored] using h
    · rename_i h; simpa [Res.bind] using h

theorem foldC_ok {neg : Bool} {s t u : Scalar F} (h : foldC neg s t = .ok u) :
    exactly u = if neg then exactly s - exactly t else exactly s + exactly t := by
  cases neg <;> cases s <;> cases t <;> simp only [foldC, styOf, commonTy, promote, arith, whole, Res.bind_ok, stored,
    number, Res.ok.injEq, if_true, Bool.false_eq_true, if_false] at h
  all_goals first
    | (subst h; rfl)
    | (split at h
       · simp only [Res.bind_ok, stored, Res.ok.injEq, number] at h
         subst h
         simp [exactly]
       · cases h)

theorem foldC_cases (neg : Bool) (s t : Scalar F) :
    (Overflows neg s t ∧ foldC neg s t = .ub) ∨
    (¬ Overflows neg s t ∧ ∃ u, foldC neg s t = .ok u ∧
      exactly u = if neg then exactly s - exactly t else exactly s + exactly t) := by
  by_cases h : Overflows neg s t
  · exact .inl ⟨h, (foldC_ub neg s t).2 h⟩
  · refine .inr ⟨h, ?_⟩
    cases hf : foldC neg s t with
    | ok u => exact ⟨u, rfl, foldC_ok hf⟩
    | ub => exact absurd ((foldC_ub neg s t).1 hf) h
    | throw x =>
      exfalso
      cases neg <;> cases s <;> cases t <;> simp only [foldC, styOf, commonTy, promote, arith, whole, Res.bind_ok,
        stored, reduceCtorEq, if_true, Bool.false_eq_true, if_false] at hf
      all_goals
        split at hf
        · simp [stored] at hf
        · cases hf

theorem foldC_type {neg : Bool} {s t u : Scalar F} (h : foldC neg s t = .ok u) :
    styOf u = promote (styOf s) (styOf t) := by
  cases neg <;> cases s <;> cases t <;> simp only [foldC, styOf, commonTy, promote, arith, whole, Res.bind_ok, stored,
    number, Res.ok.injEq, if_true, Bool.false_eq_true, if_false] at h
  all_goals first
    | (subst h; rfl)
    | (split at h
       · simp only [Res.bind_ok, stored, Res.ok.injEq, number] at h
         subst h; rfl
       · cases h)

theorem forget_isCt (e : TMix F) : (forget e).isCompiletime = e.isCompiletime := by cases e <;> rfl
theorem forget_def (e : TMix F) : (forget e).defaultable = e.defaultable := by
  induction e with
  | bin l op r hl hr => simp only [forget, MixExpr.defaultable, hl, hr]
  | _ => rfl
theorem forget_plain (e : TMix F) : (forget e).plainLeaves = e.plainLeaves := by
  induction e with
  | bin l op r hl hr => simp only [forget, MixExpr.plainLeaves, hl, hr]
  | _ => rfl
theorem forget_clone (e : TMix F) : (forget e).cloneable = e.cloneable := by
  cases e <;> first | rfl | simp only [forget, MixExpr.cloneable, MixExpr.plainLeaves, forget_plain]

theorem forget_generic (a b : TMix F) (op : COp) :
    opGeneric (forget a) op (forget b) = (opGeneric a op b).map forgetB := by
  simp only [opGeneric, forget_isCt, forget_def, forget_clone]
  split <;> split <;> rfl

theorem generic_some {a b : TMix F} {op : COp} {r : Built (Scalar F)}
    (h : (opGeneric a op b).map Res.ok = some (Res.ok r)) : opGeneric (forget a) op (forget b) = some (forgetB r) := by
  rw [forget_generic]
  cases hg : opGeneric a op b with
  | none => rw [hg] at h; cases h
  | some x => rw [hg] at h; cases h; rfl

omit [Field F] in
theorem generic_ub {a b : TMix F} {op : COp} (h : (opGeneric a op b).map Res.ok = some Res.ub) : False := by
  cases hg : opGeneric a op b <;> rw [hg] at h <;> cases h

omit [Field F] in
theorem folded_ok {c : Res (Scalar F)} {f : TMix F → TMix F} {r : Built (Scalar F)}
    (h : folded c f = some (.ok r)) : ∃ u, c = .ok u ∧ r = .ct (f (.rc u)) := by
  cases c <;> simp only [folded, Res.map_ok, Option.some.injEq, Res.ok.injEq] at h
  · exact ⟨_, rfl, h.symm⟩
  all_goals cases h

omit [Field F] in
theorem foldedMixed_some {folds : Bool} {c : Res (Scalar F)} {f : TMix F → TMix F} {x : Res (Built (Scalar F))}
    (h : foldedMixed folds c f = some x) : folds = true ∧ folded c f = some x := by
  unfold foldedMixed at h
  split at h
  · exact ⟨by assumption, h⟩
  · cases h

omit [Field F] in
theorem folded_ub {c : Res (Scalar F)} {f : TMix F → TMix F} (h : folded c f = some .ub) : c = .ub := by
  cases c <;> first | rfl | cases h

theorem withConst_forget {x : Int} {f : TMix F → TMix F} {g : MixExpr F → MixExpr F}
    (hfg : ∀ n, forget (f (.const n)) = g (.const n)) {r : Built (Scalar F)}
    (h : (withConst (fit x) f).map Res.ok = some (Res.ok r)) : withConst (fit x) g = some (forgetB r) := by
  unfold withConst at h ⊢
  cases hx : fit x with
  | none => rw [hx] at h; cases h
  | some n => rw [hx] at h; cases h; simp only [Option.map_some, forgetB, hfg]

omit [Field F] in
theorem withConst_ub {x : Int} {f : TMix F → TMix F} (h : (withConst (fit x) f).map Res.ok = some Res.ub) : False := by
  unfold withConst at h
  cases hx : fit x <;> rw [hx] at h <;> cases h

theorem tAdd_ok {folds : Bool} {a b : TMix F} {r : Built (Scalar F)} (h : tAdd folds a b = some (.ok r)) :
    opAdd folds (forget a) (forget b) = some (forgetB r) := by
  cases a with
  | fsym t => simp only [tAdd] at h; rw [← generic_some h]; simp only [forget]; unfold opAdd; split <;> first | rfl | contradiction
  | var i =>
    cases b with
    | var j =>
      simp only [tAdd] at h
      split at h
      · rename_i hij; subst hij; cases h; simp [forget, opAdd, forgetB]
      · rename_i hij; rw [← generic_some h]; simp [forget, opAdd, hij]
    | _ => simp only [tAdd] at h; rw [← generic_some h]; simp only [forget]; unfold opAdd; split <;> first | rfl | contradiction
  | rc c =>
    cases b with
    | bin l op x =>
      cases l <;> cases op <;> simp only [tAdd] at h <;> first
        | (rw [← generic_some h]; simp only [forget, opAdd])
        | (obtain ⟨u, hu, rfl⟩ := folded_ok h
           simp only [forget, opAdd, forgetB, foldC_ok hu]; simp [exactly])
    | _ => simp only [tAdd] at h; rw [← generic_some h]; simp only [forget]; unfold opAdd; split <;> first | rfl | contradiction
  | const n =>
    cases b with
    | bin l op x =>
      cases l <;> cases op <;> simp only [tAdd] at h <;> first
        | (rw [← generic_some h]; simp only [forget, opAdd])
        | (simp only [forget, opAdd]; exact withConst_forget (fun _ => rfl) h)
        | (obtain ⟨hf, h⟩ := foldedMixed_some h
           obtain ⟨u, hu, rfl⟩ := folded_ok h
           subst hf
           simp only [forget, opAdd, withMixed, forgetB, foldC_ok hu]; simp [exactly])
    | const m => simp only [tAdd] at h; simp only [forget, opAdd]; exact withConst_forget (fun _ => rfl) h
    | _ => simp only [tAdd] at h; rw [← generic_some h]; simp only [forget]; unfold opAdd; split <;> first | rfl | contradiction
  | bin l op x =>
    cases b with
    | rc c =>
      cases l <;> cases op <;> simp only [tAdd] at h <;> first
        | (rw [← generic_some h]; simp only [forget, opAdd])
        | (obtain ⟨u, hu, rfl⟩ := folded_ok h
           simp only [forget, opAdd, forgetB, foldC_ok hu]; simp [exactly])
        | (split at h
           · obtain ⟨hf, h⟩ := foldedMixed_some h
             obtain ⟨u, hu, rfl⟩ := folded_ok h
             subst hf
             simp only [forget, opAdd, withMixed, forgetB, foldC_ok hu]; simp [exactly]
           · cases h)
    | const m =>
      cases l <;> cases op <;> simp only [tAdd] at h <;> first
        | (rw [← generic_some h]; simp only [forget, opAdd])
        | (simp only [forget, opAdd]; exact withConst_forget (fun _ => rfl) h)
        | (obtain ⟨u, hu, rfl⟩ := folded_ok h
           simp only [forget, opAdd, forgetB, foldC_ok hu]; simp [exactly])
    | _ => simp only [tAdd] at h; rw [← generic_some h]; simp only [forget]; unfold opAdd; split <;> first | rfl | contradiction

theorem tSub_ok {folds : Bool} {a b : TMix F} {r : Built (Scalar F)} (h : tSub folds a b = some (.ok r)) :
    opSub folds (forget a) (forget b) = some (forgetB r) := by
  cases a with
  | fsym t => simp only [tSub] at h; rw [← generic_some h]; simp only [forget]; unfold opSub; split <;> first | rfl | contradiction
  | var i =>
    cases b with
    | var j =>
      simp only [tSub] at h
      split at h
      · rename_i hij; subst hij; cases h; simp [forget, opSub, forgetB]
      · rename_i hij; rw [← generic_some h]; simp [forget, opSub, hij]
    | _ => simp only [tSub] at h; rw [← generic_some h]; simp only [forget]; unfold opSub; split <;> first | rfl | contradiction
  | rc c =>
    cases b with
    | bin l op x =>
      cases l <;> cases op <;> simp only [tSub] at h <;> first
        | (rw [← generic_some h]; simp only [forget, opSub])
        | (obtain ⟨u, hu, rfl⟩ := folded_ok h
           simp only [forget, opSub, forgetB, foldC_ok hu]; simp [exactly])
    | _ => simp only [tSub] at h; rw [← generic_some h]; simp only [forget]; unfold opSub; split <;> first | rfl | contradiction
  | const n =>
    cases b with
    | bin l op x =>
      cases l <;> cases op <;> simp only [tSub] at h <;> first
        | (rw [← generic_some h]; simp only [forget, opSub])
        | (simp only [forget, opSub]; exact withConst_forget (fun _ => rfl) h)
        | (obtain ⟨hf, h⟩ := foldedMixed_some h
           obtain ⟨u, hu, rfl⟩ := folded_ok h
           subst hf
           simp only [forget, opSub, withMixed, forgetB, foldC_ok hu]; simp [exactly])
    | const m => simp only [tSub] at h; simp only [forget, opSub]; exact withConst_forget (fun _ => rfl) h
    | _ => simp only [tSub] at h; rw [← generic_some h]; simp only [forget]; unfold opSub; split <;> first | rfl | contradiction
  | bin l op x =>
    cases b with
    | var j =>
      cases l <;> cases op <;> simp only [tSub] at h <;> first
        | (rw [← generic_some h]; simp only [forget, opSub])
        | (split at h
           · rename_i hij; subst hij; cases h; simp [forget, opSub, forgetB]
           · rename_i hij; rw [← generic_some h]; simp [forget, opSub, hij])
    | const m =>
      cases l <;> cases op <;> simp only [tSub] at h <;> first
        | (rw [← generic_some h]; simp only [forget, opSub])
        | (simp only [forget, opSub]; exact withConst_forget (fun _ => rfl) h)
        | (obtain ⟨u, hu, rfl⟩ := folded_ok h
           simp only [forget, opSub, forgetB, foldC_ok hu]; simp [exactly])
    | _ => simp only [tSub] at h; rw [← generic_some h]; simp only [forget]; unfold opSub; split <;> first | rfl | contradiction

theorem tAdd_ub {folds : Bool} {a b : TMix F} (h : tAdd folds a b = some .ub) :
    ∃ s t, leading a = some s ∧ leading b = some t ∧ Overflows false s t := by
  unfold tAdd at h
  split at h
  case h_15 => split at h; · cases h
               · exact (generic_ub h).elim
  case h_6 =>
    split at h
    · exact ⟨_, _, rfl, rfl, (foldC_ub _ _ _).1 (folded_ub (foldedMixed_some h).2)⟩
    · cases h
  all_goals first
    | exact (withConst_ub h).elim
    | exact (generic_ub h).elim
    | exact ⟨_, _, rfl, rfl, (foldC_ub _ _ _).1 (folded_ub h)⟩
    | exact ⟨_, _, rfl, rfl, (foldC_ub _ _ _).1 (folded_ub (foldedMixed_some h).2)⟩

theorem tSub_ub {folds : Bool} {a b : TMix F} (h : tSub folds a b = some .ub) :
    ∃ s t, leading a = some s ∧ leading b = some t ∧ Overflows true s t := by
  unfold tSub at h
  split at h
  case h_10 => split at h; · cases h
               · exact (generic_ub h).elim
  case h_15 => split at h; · cases h
               · exact (generic_ub h).elim
  all_goals first
    | exact (withConst_ub h).elim
    | exact (generic_ub h).elim
    | exact ⟨_, _, rfl, rfl, (foldC_ub _ _ _).1 (folded_ub h)⟩
    | exact ⟨_, _, rfl, rfl, (foldC_ub _ _ _).1 (folded_ub (foldedMixed_some h).2)⟩

theorem tMul_ok {a b : TMix F} {r : Built (Scalar F)} (h : tMul a b = some (.ok r)) :
    opMul (forget a) (forget b) = some (forgetB r) := by
  unfold tMul at h
  split at h
  · simp only [forget, opMul]; exact withConst_forget (fun _ => rfl) h
  · rename_i hab
    rw [← generic_some h]
    unfold opMul
    split
    · rename_i n m ha hb
      cases a <;> simp only [forget, reduceCtorEq] at ha
      cases b <;> simp only [forget, reduceCtorEq] at hb
      exact (hab _ _ rfl rfl).elim
    · rfl

omit [Field F] in
theorem sameTypeT_iff {a b : TMix F} : sameTypeT a b = true ↔ OneType a b := by
  constructor
  · intro h
    induction a generalizing b with
    | bin l op r hl hr =>
      cases b <;> simp only [sameTypeT, Bool.and_eq_true, beq_iff_eq, Bool.false_eq_true] at h
      obtain ⟨⟨h1, rfl⟩, h2⟩ := h
      exact .bin _ (hl h1) (hr h2)
    | rc c =>
      cases b <;> simp only [sameTypeT, Bool.false_eq_true] at h
      rename_i d
      cases c <;> cases d <;> simp only [styOf, beq_iff_eq, reduceCtorEq] at h <;> constructor
    | _ =>
      cases b <;> simp only [sameTypeT, Bool.false_eq_true, beq_iff_eq] at h
      subst h; constructor
  · intro h
    induction h with
    | bin op _ _ h1 h2 => simp [sameTypeT, h1, h2]
    | _ => simp [sameTypeT, styOf]

omit [Field F] in
theorem oneType_eq {a b : TMix F} (h : OneType a b) (ha : NoRtConst a ∨ NoRtConst b) : a = b := by
  induction h with
  | bin op _ _ h1 h2 =>
    rw [h1 (ha.imp And.left And.left), h2 (ha.imp And.right And.right)]
  | const | var | fsym => rfl
  | _ => exact (ha.elim (fun h => h) fun h => h).elim

theorem tDiv_ok {a b : TMix F} {r : Built (Scalar F)} (h : tDiv a b = some (.ok r))
    (hab : a = b ∨ ¬ OneType a b) : Computes .div (forget a) (forget b) (forgetB r) := by
  have key : ∀ e : MixExpr F, Computes .div e e (.ct (.const 1)) := by
    intro e v φ x y z ha hb hz
    obtain rfl := mval_unique ha hb
    obtain ⟨h0, rfl⟩ := hz
    rw [div_self h0]
    exact .ct (by simpa using MVal.const (v := v) (φ := φ) 1)
  unfold tDiv at h
  split at h
  · split at h
    · rename_i i j hij; subst hij; cases h; exact key _
    · exact generic_computes (generic_some h)
  · split at h
    · rename_i hs
      cases h
      rcases hab with hab | hab
      · rw [hab]; exact key _
      · exact (hab (sameTypeT_iff.1 hs)).elim
    · exact generic_computes (generic_some h)
  · exact generic_computes (generic_some h)

omit [Field F] in
theorem tMul_ub {a b : TMix F} : tMul a b ≠ some .ub := by
  intro h
  unfold tMul at h
  split at h
  · exact withConst_ub h
  · exact generic_ub h

omit [Field F] in
theorem tDiv_ub {a b : TMix F} : tDiv a b ≠ some .ub := by
  intro h
  unfold tDiv at h
  repeat' split at h
  all_goals first | exact generic_ub h | cases h

omit [Field F] in
theorem doubles_generic (a b : MixExpr F) (op : COp) :
    opGeneric (doubles a) op (doubles b) = (opGeneric a op b).map doublesB := by
  have h1 : ∀ e : MixExpr F, (doubles e).isCompiletime = e.isCompiletime := fun e => by cases e <;> rfl
  have h2 : ∀ e : MixExpr F, (doubles e).defaultable = e.defaultable := fun e => by
    induction e with
    | bin l op r hl hr => simp only [doubles, MixExpr.defaultable, hl, hr]
    | _ => rfl
  have h3 : ∀ e : MixExpr F, (doubles e).plainLeaves = e.plainLeaves := fun e => by
    induction e with
    | bin l op r hl hr => simp only [doubles, MixExpr.plainLeaves, hl, hr]
    | _ => rfl
  have h4 : ∀ e : MixExpr F, (doubles e).cloneable = e.cloneable := fun e => by
    cases e <;> first | rfl | simp only [doubles, MixExpr.cloneable, MixExpr.plainLeaves, h3]
  simp only [opGeneric, h1, h2, h4]
  split <;> split <;> rfl

/-- What the operators of `Ct/Ops.lean` return, with types. -/
abbrev typedResult (x : Option (Built F)) : TBuilt F := (x.map doublesB).map .ok

omit [Field F] in
theorem doubles_withConst {x : Int} {f : TMix F → TMix F} {g : MixExpr F → MixExpr F}
    (hfg : ∀ n, f (.const n) = doubles (g (.const n))) :
    (withConst (fit x) f).map Res.ok = typedResult (withConst (fit x) g) := by
  unfold withConst
  cases fit x <;> simp [typedResult, doublesB, hfg]

omit [Field F] in
theorem doubles_generic' (a b : MixExpr F) (op : COp) :
    (opGeneric (doubles a) op (doubles b)).map Res.ok = typedResult (opGeneric a op b) := by
  rw [doubles_generic]

omit [Field F] in
theorem doubles_mixed (folds : Bool) (c : F) (f : TMix F → TMix F) (e : MixExpr F)
    (he : f (.rc (.dbl c)) = doubles e) :
    foldedMixed folds (.ok (.dbl c)) f = typedResult (withMixed folds e) := by
  cases folds
  · rfl
  · simp [foldedMixed, folded, withMixed, typedResult, doublesB, he]

theorem foldC_dbl (x y : F) : foldC false (.dbl x) (.dbl y) = .ok (.dbl (x + y)) := rfl
theorem foldC_dbl' (x y : F) : foldC true (.dbl x) (.dbl y) = .ok (.dbl (x - y)) := rfl
theorem foldC_dl (x : F) (n : Int) : foldC false (.dbl x) (.long n) = .ok (.dbl (x + n)) := rfl
theorem foldC_dl' (x : F) (n : Int) : foldC true (.dbl x) (.long n) = .ok (.dbl (x - n)) := rfl
theorem foldC_ld (n : Int) (x : F) : foldC false (.long n) (.dbl x) = .ok (.dbl (n + x)) := rfl
theorem foldC_ld' (n : Int) (x : F) : foldC true (.long n) (.dbl x) = .ok (.dbl (n - x)) := rfl

theorem tAdd_doubles (folds : Bool) (a b : MixExpr F) :
    tAdd folds (doubles a) (doubles b) = typedResult (opAdd folds a b) := by
  cases a with
  | fsym t => simp only [opAdd]; rw [← doubles_generic']; simp only [doubles, tAdd]
  | var i =>
    cases b with
    | var j =>
      simp only [opAdd, doubles, tAdd]
      split
      · rfl
      · rw [← doubles_generic']; rfl
    | _ => simp only [opAdd]; rw [← doubles_generic']; simp only [doubles]; unfold tAdd; split <;> first | rfl | contradiction
  | rc c =>
    cases b with
    | bin l op x =>
      cases l <;> cases op <;> simp only [doubles, tAdd, opAdd, foldC_dbl, foldC_dl] <;> first
        | rfl
        | (rw [← doubles_generic']; simp only [doubles])
    | _ => simp only [opAdd]; rw [← doubles_generic']; simp only [doubles, tAdd]
  | const n =>
    cases b with
    | bin l op x =>
      cases l <;> cases op <;> simp only [doubles, tAdd, opAdd, foldC_ld] <;> first
        | exact doubles_withConst fun _ => rfl
        | exact doubles_mixed _ _ _ _ rfl
        | (rw [← doubles_generic']; simp only [doubles])
    | const m => simp only [doubles, tAdd, opAdd]; exact doubles_withConst fun _ => rfl
    | _ => simp only [opAdd]; rw [← doubles_generic']; simp only [doubles, tAdd]
  | bin l op x =>
    cases b with
    | rc c =>
      cases l <;> cases op <;> simp only [doubles, tAdd, opAdd, foldC_ld, styOf, if_true] <;> first
        | rfl
        | exact doubles_mixed _ _ _ _ rfl
        | (rw [← doubles_generic']; simp only [doubles])
    | const m =>
      cases l <;> cases op <;> simp only [doubles, tAdd, opAdd, foldC_dl] <;> first
        | rfl
        | exact doubles_withConst fun _ => rfl
        | (rw [← doubles_generic']; simp only [doubles])
    | _ =>
      simp only [opAdd]
      rw [← doubles_generic']; simp only [doubles]; unfold tAdd; split <;> first | rfl | contradiction

theorem tSub_doubles (folds : Bool) (a b : MixExpr F) :
    tSub folds (doubles a) (doubles b) = typedResult (opSub folds a b) := by
  cases a with
  | fsym t => simp only [opSub]; rw [← doubles_generic']; simp only [doubles, tSub]
  | var i =>
    cases b with
    | var j =>
      simp only [opSub, doubles, tSub]
      split
      · rfl
      · rw [← doubles_generic']; rfl
    | _ => simp only [opSub]; rw [← doubles_generic']; simp only [doubles]; unfold tSub; split <;> first | rfl | contradiction
  | rc c =>
    cases b with
    | bin l op x =>
      cases l <;> cases op <;> simp only [doubles, tSub, opSub, foldC_dbl', foldC_dl'] <;> first
        | rfl
        | (rw [← doubles_generic']; simp only [doubles])
    | _ => simp only [opSub]; rw [← doubles_generic']; simp only [doubles, tSub]
  | const n =>
    cases b with
    | bin l op x =>
      cases l <;> cases op <;> simp only [doubles, tSub, opSub, foldC_ld'] <;> first
        | exact doubles_withConst fun _ => rfl
        | exact doubles_mixed _ _ _ _ rfl
        | (rw [← doubles_generic']; simp only [doubles])
    | const m => simp only [doubles, tSub, opSub]; exact doubles_withConst fun _ => rfl
    | _ => simp only [opSub]; rw [← doubles_generic']; simp only [doubles, tSub]
  | bin l op x =>
    cases b with
    | var j =>
      cases l <;> cases op <;> simp only [doubles, tSub, opSub] <;> first
        | (rw [← doubles_generic']; simp only [doubles])
        | (split
           · rfl
           · rw [← doubles_generic']; simp only [doubles])
    | const m =>
      cases l <;> cases op <;> simp only [doubles, tSub, opSub, foldC_dl'] <;> first
        | rfl
        | exact doubles_withConst fun _ => rfl
        | (rw [← doubles_generic']; simp only [doubles])
    | _ =>
      simp only [opSub]
      rw [← doubles_generic']; simp only [doubles]; unfold tSub; split <;> first | rfl | contradiction

theorem gen_isSome (a b : TMix F) (op : COp) :
    (opGeneric (forget a) op (forget b)).isSome = ((opGeneric a op b).map (Res.ok (α := Built (Scalar F)))).isSome := by
  rw [forget_generic]; cases opGeneric a op b <;> rfl

omit [Field F] in
theorem const_isSome (x : Int) (f : TMix F → TMix F) (g : MixExpr F → MixExpr F) :
    (withConst (fit x) g).isSome = ((withConst (fit x) f).map (Res.ok (α := Built (Scalar F)))).isSome := by
  unfold withConst; cases fit x <;> rfl

omit [Field F] in
theorem mixed_isSome (folds : Bool) (c : Res (Scalar F)) (f : TMix F → TMix F) (e : MixExpr F) :
    (withMixed folds e).isSome = (foldedMixed folds c f).isSome := by
  cases folds <;> rfl

theorem tAdd_isSome (folds : Bool) (a b : TMix F)
    (h : ∀ n x c, a = .bin (.const n) .minus x → b = .rc c → styOf c = .dbl) :
    (opAdd folds (forget a) (forget b)).isSome = (tAdd folds a b).isSome := by
  cases a with
  | fsym t => simp only [tAdd]; rw [← gen_isSome]; simp only [forget, opAdd]
  | var i =>
    cases b with
    | var j =>
      simp only [opAdd, forget, tAdd]
      split
      · rfl
      · exact gen_isSome (.var i) (.var j) _
    | _ => simp only [tAdd]; rw [← gen_isSome]; simp only [forget]; unfold opAdd; split <;> first | rfl | contradiction
  | rc c =>
    cases b with
    | bin l op x =>
      cases l <;> cases op <;> simp only [tAdd] <;> first
        | (rw [← gen_isSome]; simp only [forget, opAdd])
        | rfl
    | _ => simp only [tAdd]; rw [← gen_isSome]; simp only [forget, opAdd]
  | const n =>
    cases b with
    | bin l op x =>
      cases l <;> cases op <;> simp only [tAdd] <;> first
        | (rw [← gen_isSome]; simp only [forget, opAdd])
        | (simp only [forget, opAdd]; exact const_isSome _ _ _)
        | (simp only [forget, opAdd]; exact mixed_isSome _ _ _ _)
    | const m => simp only [forget, tAdd, opAdd]; exact const_isSome _ _ _
    | _ => simp only [tAdd]; rw [← gen_isSome]; simp only [forget, opAdd]
  | bin l op x =>
    cases b with
    | rc c =>
      cases l <;> cases op <;> simp only [tAdd] <;> first
        | (rw [← gen_isSome]; simp only [forget, opAdd])
        | rfl
        | (rw [if_pos (h _ _ _ rfl rfl)]; simp only [forget, opAdd]; exact mixed_isSome _ _ _ _)
    | const m =>
      cases l <;> cases op <;> simp only [tAdd] <;> first
        | (rw [← gen_isSome]; simp only [forget, opAdd])
        | rfl
        | (simp only [forget, opAdd]; exact const_isSome _ _ _)
    | _ => simp only [tAdd]; rw [← gen_isSome]; simp only [forget]; unfold opAdd; split <;> first | rfl | contradiction

theorem tSub_isSome (folds : Bool) (a b : TMix F) :
    (opSub folds (forget a) (forget b)).isSome = (tSub folds a b).isSome := by
  cases a with
  | fsym t => simp only [tSub]; rw [← gen_isSome]; simp only [forget, opSub]
  | var i =>
    cases b with
    | var j =>
      simp only [opSub, forget, tSub]
      split
      · rfl
      · exact gen_isSome (.var i) (.var j) _
    | _ => simp only [tSub]; rw [← gen_isSome]; simp only [forget]; unfold opSub; split <;> first | rfl | contradiction
  | rc c =>
    cases b with
    | bin l op x =>
      cases l <;> cases op <;> simp only [tSub] <;> first
        | (rw [← gen_isSome]; simp only [forget, opSub])
        | rfl
    | _ => simp only [tSub]; rw [← gen_isSome]; simp only [forget, opSub]
  | const n =>
    cases b with
    | bin l op x =>
      cases l <;> cases op <;> simp only [tSub] <;> first
        | (rw [← gen_isSome]; simp only [forget, opSub])
        | (simp only [forget, opSub]; exact const_isSome _ _ _)
        | (simp only [forget, opSub]; exact mixed_isSome _ _ _ _)
    | const m => simp only [forget, tSub, opSub]; exact const_isSome _ _ _
    | _ => simp only [tSub]; rw [← gen_isSome]; simp only [forget, opSub]
  | bin l op x =>
    cases b with
    | var j =>
      cases l <;> cases op <;> simp only [tSub] <;> first
        | (rw [← gen_isSome]; simp only [forget, opSub])
        | (simp only [forget, opSub]
           split
           · rfl
           · rw [← gen_isSome]; simp only [forget])
    | const m =>
      cases l <;> cases op <;> simp only [tSub] <;> first
        | (rw [← gen_isSome]; simp only [forget, opSub])
        | rfl
        | (simp only [forget, opSub]; exact const_isSome _ _ _)
    | _ => simp only [tSub]; rw [← gen_isSome]; simp only [forget]; unfold opSub; split <;> first | rfl | contradiction

end VM.Ct
