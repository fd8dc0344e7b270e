import Verif.Spec.Mentions
import Verif.Rt.SimplifySound
import Verif.Rt.Diff
import Verif.Rt.Subst
import Verif.Rt.Traverse
import Verif.Rt.Coords
/-
Manipulations mention nothing new.
-/
namespace VM
open Spec
variable {K : Type}

/-- Everything mentioned is in `S`. -/
def Only (S : Item → Prop) (e : Expr K) : Prop := ∀ m, Mentions m e → S m

/-- What an operator mentions. -/
def opItem : UOp → Option Item
  | .fn _ => none
  | .grad => some .gradient
  | .divg => some .divergence
  | .pd x => some (.deriv x)
  | .symInt k => some (.interval k)

variable {S : Item → Prop}

theorem only_const {c : K} : Only S (.const c) := fun _ h => nomatch h

theorem only_var {i : Nat} : Only S (.var i : Expr K) ↔ S (.var i) :=
  ⟨fun h => h _ (.var i), fun h _ hm => by cases hm; exact h⟩

theorem only_fsym {i t : Nat} : Only S (.fsym i t : Expr K) ↔ S (.sym i t) :=
  ⟨fun h => h _ (.sym i t), fun h _ hm => by cases hm; exact h⟩

theorem only_un {op : UOp} {e : Expr K} : Only S (.un op e) ↔ (∀ m, opItem op = some m → S m) ∧ Only S e := by
  refine ⟨fun h => ⟨fun m hm => ?_, fun m hm => h m (.un op hm)⟩, fun ⟨h1, h2⟩ m hm => ?_⟩
  · cases op with
    | fn => cases hm
    | grad => cases hm; exact h _ (.gradient e)
    | divg => cases hm; exact h _ (.divergence e)
    | pd x => cases hm; exact h _ (.deriv x e)
    | symInt k => cases hm; exact h _ (.interval k e)
  · cases hm with
    | un _ hm => exact h2 m hm
    | _ => exact h1 _ rfl

theorem only_integ {lo hi e : Expr K} {x : Nat} :
    Only S (.integ lo hi x e) ↔ S .integral ∧ S (.var x) ∧ Only S lo ∧ Only S hi ∧ Only S e := by
  refine ⟨fun h => ⟨h _ (.integral ..), h _ (.integVar ..), fun m hm => h m (.integLo _ _ _ hm),
    fun m hm => h m (.integHi _ _ _ hm), fun m hm => h m (.integBody _ _ _ hm)⟩, fun ⟨h1, h2, h3, h4, h5⟩ m hm => ?_⟩
  cases hm with
  | integral => exact h1
  | integVar => exact h2
  | integLo _ _ _ h => exact h3 m h
  | integHi _ _ _ h => exact h4 m h
  | integBody _ _ _ h => exact h5 m h

theorem only_bin {op : BOp} {l r : Expr K} : Only S (.bin op l r) ↔ Only S l ∧ Only S r := by
  refine ⟨fun h => ⟨fun m hm => h m (.left _ _ hm), fun m hm => h m (.right _ _ hm)⟩, fun ⟨h1, h2⟩ m hm => ?_⟩
  cases hm with
  | left _ _ h => exact h1 m h
  | right _ _ h => exact h2 m h

theorem only_vec {es : List (Expr K)} : Only S (.vec es) ↔ S .vector ∧ ∀ e ∈ es, Only S e := by
  refine ⟨fun h => ⟨h _ (.vector es), fun e he m hm => h m (.entry he hm)⟩, fun ⟨h1, h2⟩ m hm => ?_⟩
  cases hm with
  | vector => exact h1
  | entry he h => exact h2 _ he m h

theorem Only.mono {T : Item → Prop} (hST : ∀ m, S m → T m) {e : Expr K} (h : Only S e) : Only T e :=
  fun m hm => hST m (h m hm)

theorem Only.sub {t e : Expr K} (hs : SubV t e) (h : Only S e) : Only S t := by
  induction hs with
  | refl => exact h
  | un _ ih => exact ih (only_un.1 h).2
  | integ _ ih => exact ih (only_integ.1 h).2.2.2.2
  | binL _ ih => exact ih (only_bin.1 h).1
  | binR _ ih => exact ih (only_bin.1 h).2
  | vec he _ ih => exact ih ((only_vec.1 h).2 _ he)

theorem Only.dotFrom {acc : Expr K} {ls rs : List (Expr K)} (ha : Only S acc) (hl : ∀ e ∈ ls, Only S e)
    (hr : ∀ e ∈ rs, Only S e) : Only S (dotFrom acc ls rs) := by
  induction ls generalizing acc rs with
  | nil => cases rs <;> exact ha
  | cons l ls ih => cases rs with
    | nil => exact ha
    | cons r rs =>
      exact ih (only_bin.2 ⟨ha, only_bin.2 ⟨hl _ (by simp), hr _ (by simp)⟩⟩)
        (fun e he => hl e (by simp [he])) (fun e he => hr e (by simp [he]))

theorem Spec.Occurs.mentions {i : Nat} {e : Expr K} (h : Occurs i e) : Mentions (.var i) e := by
  induction h with
  | var => exact .var i
  | un _ ih => exact .un _ ih
  | integLo _ ih => exact .integLo _ _ _ ih
  | integHi _ ih => exact .integHi _ _ _ ih
  | integVar => exact .integVar _ _ _ _
  | integBody _ ih => exact .integBody _ _ _ ih
  | binL _ ih => exact .left _ _ ih
  | binR _ ih => exact .right _ _ ih
  | vec he _ ih => exact .entry he ih

theorem Spec.Mentions.occurs {i : Nat} {e : Expr K} (h : Mentions (.var i) e) : Occurs i e := by
  generalize hm : Item.var i = m at h
  induction h with
  | var => cases hm; exact .var
  | integVar => cases hm; exact .integVar
  | integLo _ _ _ _ ih => exact .integLo (ih hm)
  | integHi _ _ _ _ ih => exact .integHi (ih hm)
  | integBody _ _ _ _ ih => exact .integBody (ih hm)
  | un _ _ ih => exact .un (ih hm)
  | left _ _ _ ih => exact .binL (ih hm)
  | right _ _ _ ih => exact .binR (ih hm)
  | entry he _ ih => exact .vec he (ih hm)
  | _ => cases hm

variable [Num K]

theorem Pass.only {e e' : Expr K} (h : Pass e e') (hw : Only S e) : Only S e' := by
  induction h with
  | const | var | fsym | vec | uid => exact hw
  | unFold | fold | multZeroL | multZeroR | divZeroL => exact only_const
  | unConst => exact only_un.2 ⟨(only_un.1 hw).1, only_const⟩
  | un _ _ ih => exact only_un.2 ⟨(only_un.1 hw).1, ih (only_un.1 hw).2⟩
  | integConst =>
    obtain ⟨h1, h2, h3, h4, -⟩ := only_integ.1 hw
    exact only_integ.2 ⟨h1, h2, h3, h4, only_const⟩
  | integ _ _ ih =>
    obtain ⟨h1, h2, h3, h4, h5⟩ := only_integ.1 hw
    exact only_integ.2 ⟨h1, h2, h3, h4, ih h5⟩
  | plusZeroL _ _ _ _ _ ih | multOneL _ _ _ _ _ ih => exact ih (only_bin.1 hw).2
  | plusZeroR _ _ _ _ _ ih | minusZeroR _ _ _ _ _ ih | multOneR _ _ _ _ _ ih
  | divOneR _ _ _ _ _ ih => exact ih (only_bin.1 hw).1
  | minusZeroL _ _ _ _ _ ih | constL _ _ _ _ _ _ ih => exact only_bin.2 ⟨only_const, ih (only_bin.1 hw).2⟩
  | constR _ _ _ _ _ _ ih => exact only_bin.2 ⟨ih (only_bin.1 hw).1, only_const⟩
  | cong _ _ _ _ _ _ ihl ihr => exact only_bin.2 ⟨ihl (only_bin.1 hw).1, ihr (only_bin.1 hw).2⟩
  | dotp h =>
    obtain ⟨l, ls, r, rs, rfl, rfl, _, rfl⟩ := dot_eq_ok h
    obtain ⟨h1, h2⟩ := only_bin.1 hw
    have h1 := (only_vec.1 h1).2
    have h2 := (only_vec.1 h2).2
    exact Only.dotFrom (only_bin.2 ⟨h1 _ (by simp), h2 _ (by simp)⟩) (fun e he => h1 e (by simp [he]))
      (fun e he => h2 e (by simp [he]))

theorem simplified_only {e e' : Expr K} (h : simplified e = .ok e') (he : Only S e) : Only S e' :=
  (simplified_induct (P := Only S) (fun _ _ hp => hp.only) h he).1

/-! ### Differentiation -/

theorem diffFn_only {f : Fn} {e : Expr K} {d : Res (Expr K)} {r : Expr K} (h : diffFn f e d = .ok r) (he : Only S e)
    (hd : ∀ d', d = .ok d' → Only S d') : Only S r := by
  have fn : ∀ g, Only S (.un (.fn g) e) := fun g => only_un.2 ⟨fun _ h => (nomatch h), he⟩
  cases f <;> simp only [diffFn, Res.map_eq_ok] at h
  case id => exact hd _ h
  case fabs => cases h
  all_goals
    obtain ⟨d', h1, rfl⟩ := h
    have := hd _ h1
    simp only [only_bin]
    simp [this, fn, only_const]

omit [Num K] in
theorem diffBin_only {op : BOp} {l r : Expr K} {dl dr : Res (Expr K)} {t : Expr K} (h : diffBin op l r dl dr = .ok t)
    (hl : Only S l) (hr : Only S r) (h1 : ∀ d', dl = .ok d' → Only S d') (h2 : ∀ d', dr = .ok d' → Only S d') :
    Only S t := by
  cases op <;> simp only [diffBin, Res.map_eq_ok, Res.bind_eq_ok] at h
  case uid => cases h
  all_goals
    obtain ⟨l', e1, r', e2, rfl⟩ := h
    have := h1 _ e1
    have := h2 _ e2
    simp only [only_bin]
    simp [*]

theorem diffE_only {x : DVar} {e : Expr K} : ∀ {d : Expr K}, diffE x e = .ok d → Only S e → Only S d := by
  induction e using Expr.ind with
  | const c => intro d h _; simp only [diffE, Res.ok.injEq] at h; subst h; exact only_const
  | var i => intro d h _; simp only [diffE, Res.ok.injEq] at h; subst h; exact only_const
  | fsym i t =>
    intro d h _
    cases x <;> simp only [diffE, Res.ok.injEq, reduceCtorEq] at h
    subst h; exact only_const
  | un op e ih =>
    intro d h he
    obtain ⟨h1, h2⟩ := only_un.1 he
    cases op with
    | fn f =>
      simp only [diffE] at h
      exact diffFn_only h h2 fun d' h' => ih h' h2
    | grad =>
      cases x <;> simp only [diffE, Res.map_eq_ok, Res.bind_eq_ok, reduceCtorEq] at h
      obtain ⟨d', e1, b, -, rfl⟩ := h
      split
      · exact only_const
      · exact only_un.2 ⟨h1, ih e1 h2⟩
    | _ => simp [diffE] at h
  | integ lo hi x e => intro d h _; simp [diffE] at h
  | bin op l r ihl ihr =>
    intro d h he
    obtain ⟨h1, h2⟩ := only_bin.1 he
    simp only [diffE] at h
    exact diffBin_only h h1 h2 (fun _ h' => ihl h' h1) fun _ h' => ihr h' h2
  | vec es ih =>
    intro d h he
    obtain ⟨h1, h2⟩ := only_vec.1 he
    simp only [diffE, Res.map_eq_ok] at h
    obtain ⟨ds, h, rfl⟩ := h
    refine only_vec.2 ⟨h1, ?_⟩
    clear he h1
    induction es generalizing ds with
    | nil => simp only [diffEL, Res.ok.injEq] at h; subst h; simp
    | cons e es ihs =>
      simp only [diffEL, Res.map_eq_ok, Res.bind_eq_ok] at h
      obtain ⟨d', e1, ds', e2, rfl⟩ := h
      intro t ht
      rcases List.mem_cons.1 ht with rfl | ht
      · exact ih e (by simp) e1 (h2 e (by simp))
      · exact ihs (fun e he => ih e (by simp [he])) (fun e he => h2 e (by simp [he])) ds' e2 t ht

/-! ### Substitution -/

theorem substE_only {s r : Expr K} {e : Expr K} : ∀ {e' : Expr K}, substE s r e = .ok e' → Only S e →
    (∀ t, SubV t e → deepEq t s = .ok true → Only S r) → Only S e' := by
  induction e using Expr.ind with
  | const c | var i | fsym i t =>
    intro e' h he hr
    simp only [substE, Res.map_eq_ok] at h
    obtain ⟨b, hb, rfl⟩ := h
    cases b
    · exact he
    · exact hr _ .refl hb
  | un op e ih =>
    intro e' h he hr
    simp only [substE, Res.bind_eq_ok] at h
    obtain ⟨b, hb, h⟩ := h
    cases b
    · simp only [Bool.false_eq_true, if_false, Res.map_eq_ok] at h
      obtain ⟨d, h, rfl⟩ := h
      exact only_un.2 ⟨(only_un.1 he).1, ih h (only_un.1 he).2 fun t ht => hr t (.un ht)⟩
    · cases h; exact hr _ .refl hb
  | integ lo hi x e ih1 ih2 ih =>
    intro e' h he hr
    simp only [substE, Res.bind_eq_ok] at h
    obtain ⟨b, hb, h⟩ := h
    cases b
    · simp only [Bool.false_eq_true, if_false, Res.map_eq_ok] at h
      obtain ⟨d, h, rfl⟩ := h
      obtain ⟨h1, h2, h3, h4, h5⟩ := only_integ.1 he
      exact only_integ.2 ⟨h1, h2, h3, h4, ih h h5 fun t ht => hr t (.integ ht)⟩
    · cases h; exact hr _ .refl hb
  | bin op l r' ihl ihr =>
    intro e' h he hr
    simp only [substE, Res.bind_eq_ok] at h
    obtain ⟨b, hb, h⟩ := h
    cases b
    · simp only [Bool.false_eq_true, if_false, Res.map_eq_ok, Res.bind_eq_ok] at h
      obtain ⟨d, h1, d', h2, rfl⟩ := h
      exact only_bin.2 ⟨ihl h1 (only_bin.1 he).1 fun t ht => hr t (.binL ht),
        ihr h2 (only_bin.1 he).2 fun t ht => hr t (.binR ht)⟩
    · cases h; exact hr _ .refl hb
  | vec es ih =>
    intro e' h he hr
    simp only [substE, Res.bind_eq_ok] at h
    obtain ⟨b, hb, h⟩ := h
    cases b
    · simp only [Bool.false_eq_true, if_false, Res.map_eq_ok] at h
      obtain ⟨ds, h, rfl⟩ := h
      obtain ⟨h1, h2⟩ := only_vec.1 he
      refine only_vec.2 ⟨h1, ?_⟩
      have hr' : ∀ e ∈ es, ∀ t, SubV t e → deepEq t s = .ok true → Only S r :=
        fun e he t ht => hr t (.vec he ht)
      clear he h1 hb hr
      induction es generalizing ds with
      | nil => simp only [substEL, Res.ok.injEq] at h; subst h; simp
      | cons e es ihs =>
        simp only [substEL, Res.map_eq_ok, Res.bind_eq_ok] at h
        obtain ⟨d', e1, ds', e2, rfl⟩ := h
        intro t ht
        rcases List.mem_cons.1 ht with rfl | ht
        · exact ih e (by simp) e1 (h2 e (by simp)) (hr' e (by simp))
        · exact ihs (fun e he => ih e (by simp [he])) ds' e2 (fun e he => h2 e (by simp [he]))
            (fun e he => hr' e (by simp [he])) t ht
    · cases h; exact hr _ .refl hb

theorem findRepl_at {e r : Expr K} : ∀ {ss rs : List (Expr K)}, findRepl e ss rs = .ok (some r) →
    ∃ (k : Nat) (s : Expr K), ss[k]? = some s ∧ rs[k]? = some r ∧ deepEq e s = .ok true
  | [], rs, h => by simp [findRepl] at h
  | s :: ss, [], h => by
    simp only [findRepl, Res.bind_eq_ok] at h
    obtain ⟨b, hb, h⟩ := h
    cases b
    · obtain ⟨k, s, -, h2, -⟩ := findRepl_at (by simpa using h)
      simp at h2
    · simp at h
  | s :: ss, r' :: rs, h => by
    simp only [findRepl, Res.bind_eq_ok] at h
    obtain ⟨b, hb, h⟩ := h
    cases b
    · obtain ⟨k, s, h1, h2, h3⟩ := findRepl_at (by simpa using h)
      exact ⟨k + 1, s, by simpa using h1, by simpa using h2, h3⟩
    · simp only [if_true, Res.ok.injEq, Option.some.injEq] at h
      subst h
      exact ⟨0, s, rfl, rfl, hb⟩

theorem substM_only {ss rs : List (Expr K)} {e : Expr K} : ∀ {e' : Expr K}, substM ss rs e = .ok e' → Only S e →
    (∀ t r, SubV t e → findRepl t ss rs = .ok (some r) → Only S r) → Only S e' := by
  induction e using Expr.ind with
  | const c | var i | fsym i t =>
    intro e' h he hr
    simp only [substM, Res.map_eq_ok] at h
    obtain ⟨b, hb, rfl⟩ := h
    cases b
    · exact he
    · exact hr _ _ .refl hb
  | un op e ih =>
    intro e' h he hr
    simp only [substM, Res.bind_eq_ok] at h
    obtain ⟨b, hb, h⟩ := h
    cases b
    · simp only [Res.map_eq_ok] at h
      obtain ⟨d, h, rfl⟩ := h
      exact only_un.2 ⟨(only_un.1 he).1, ih h (only_un.1 he).2 fun t r ht => hr t r (.un ht)⟩
    · cases h; exact hr _ _ .refl hb
  | integ lo hi x e ih1 ih2 ih =>
    intro e' h he hr
    simp only [substM, Res.bind_eq_ok] at h
    obtain ⟨b, hb, h⟩ := h
    cases b
    · simp only [Res.map_eq_ok] at h
      obtain ⟨d, h, rfl⟩ := h
      obtain ⟨h1, h2, h3, h4, h5⟩ := only_integ.1 he
      exact only_integ.2 ⟨h1, h2, h3, h4, ih h h5 fun t r ht => hr t r (.integ ht)⟩
    · cases h; exact hr _ _ .refl hb
  | bin op l r' ihl ihr =>
    intro e' h he hr
    simp only [substM, Res.bind_eq_ok] at h
    obtain ⟨b, hb, h⟩ := h
    cases b
    · simp only [Res.map_eq_ok, Res.bind_eq_ok] at h
      obtain ⟨d, h1, d', h2, rfl⟩ := h
      exact only_bin.2 ⟨ihl h1 (only_bin.1 he).1 fun t r ht => hr t r (.binL ht),
        ihr h2 (only_bin.1 he).2 fun t r ht => hr t r (.binR ht)⟩
    · cases h; exact hr _ _ .refl hb
  | vec es ih =>
    intro e' h he hr
    simp only [substM, Res.bind_eq_ok] at h
    obtain ⟨b, hb, h⟩ := h
    cases b
    · simp only [Res.map_eq_ok] at h
      obtain ⟨ds, h, rfl⟩ := h
      obtain ⟨h1, h2⟩ := only_vec.1 he
      refine only_vec.2 ⟨h1, ?_⟩
      have hr' : ∀ e ∈ es, ∀ t r, SubV t e → findRepl t ss rs = .ok (some r) → Only S r :=
        fun e he t r ht => hr t r (.vec he ht)
      clear he h1 hb hr
      induction es generalizing ds with
      | nil => simp only [substML, Res.ok.injEq] at h; subst h; simp
      | cons e es ihs =>
        simp only [substML, Res.map_eq_ok, Res.bind_eq_ok] at h
        obtain ⟨d', e1, ds', e2, rfl⟩ := h
        intro t ht
        rcases List.mem_cons.1 ht with rfl | ht
        · exact ih e (by simp) e1 (h2 e (by simp)) (hr' e (by simp))
        · exact ihs (fun e he => ih e (by simp [he])) ds' e2 (fun e he => h2 e (by simp [he]))
            (fun e he => hr' e (by simp [he])) t ht
    · cases h; exact hr _ _ .refl hb

theorem substitute_only {s r e e' : Expr K} (h : substitute s r e = .ok e') (he : Only S e)
    (hr : ∀ t, SubV t e → deepEq t s = .ok true → Only S r) : Only S e' := by
  obtain ⟨d, h1, h2⟩ := Res.bind_eq_ok.1 h
  exact simplified_only h2 (substE_only h1 he hr)

/-! ### Symbolic intervals -/

omit [Num K] in
theorem interval_only {lo hi : Expr K} {x : Nat} {e : Expr K} :
    ∀ {e' : Expr K}, manipulate (symIntFunctor lo hi x) e = .ok e' → Only S e →
    (∀ k, Mentions (.interval k) e → S .integral ∧ S (.var x) ∧ Only S lo ∧ Only S hi) → Only S e' := by
  induction e using Expr.ind with
  | const c | var i | fsym i t | vec es ih =>
    intro e' h he _
    simp only [manipulate, symIntFunctor, Res.ok.injEq] at h
    subst h; exact he
  | un op e ih =>
    intro e' h he hr
    have hr' : ∀ k, Mentions (.interval k) e → S .integral ∧ S (.var x) ∧ Only S lo ∧ Only S hi :=
      fun k hk => hr k (.un _ hk)
    cases op with
    | symInt k =>
      simp only [manipulate, symIntFunctor, if_true, Res.ok.injEq] at h
      subst h
      obtain ⟨h1, h2, h3, h4⟩ := hr k (.interval k e)
      exact only_integ.2 ⟨h1, h2, h3, h4, (only_un.1 he).2⟩
    | _ =>
      simp only [manipulate, symIntFunctor, Bool.false_eq_true, if_false, Res.map_eq_ok] at h
      obtain ⟨d, h, rfl⟩ := h
      exact only_un.2 ⟨(only_un.1 he).1, ih h (only_un.1 he).2 hr'⟩
  | integ lo' hi' y e ih1 ih2 ih =>
    intro e' h he hr
    simp only [manipulate, symIntFunctor, Bool.false_eq_true, if_false, Res.map_eq_ok] at h
    obtain ⟨d, h, rfl⟩ := h
    obtain ⟨h1, h2, h3, h4, h5⟩ := only_integ.1 he
    exact only_integ.2 ⟨h1, h2, h3, h4, ih h h5 fun k hk => hr k (.integBody _ _ _ hk)⟩
  | bin op l r ihl ihr =>
    intro e' h he hr
    simp only [manipulate, symIntFunctor, Bool.false_eq_true, if_false, Res.map_eq_ok, Res.bind_eq_ok] at h
    obtain ⟨d, h1, d', h2, rfl⟩ := h
    exact only_bin.2 ⟨ihl h1 (only_bin.1 he).1 fun k hk => hr k (.left _ _ hk),
      ihr h2 (only_bin.1 he).2 fun k hk => hr k (.right _ _ hk)⟩

/-! ### Coordinate systems -/

theorem deepEq_symbol {t : Expr K} {op : UOp} {i k : Nat} (h : deepEq t (.un op (.fsym i k)) = .ok true)
    (hop : op = .grad ∨ op = .divg) : t = .un op (.fsym i k) := by
  cases t with
  | un op' e =>
    simp only [deepEq, Res.map_eq_ok, Bool.and_eq_true] at h
    obtain ⟨b, h, rfl, h'⟩ := h
    cases e with
    | fsym j l =>
      simp only [deepEq, Res.ok.injEq, Bool.and_eq_true, decide_eq_true_eq] at h
      obtain ⟨rfl, rfl⟩ := h
      rcases hop with rfl | rfl <;> cases op' <;> simp [UOp.equal] at h' <;> rfl
    | _ => simp [deepEq] at h
  | integ lo hi x e => cases e <;> simp [deepEq] at h
  | _ => simp [deepEq] at h

theorem coordsWith_only {gu gv du dv e e' : Expr K} (h : coordsWith gu gv du dv e = .ok e') (he : Only S e)
    (h1 : S .gradient → S (.sym 0 0) → Only S gu) (h2 : S .gradient → S (.sym 0 1) → Only S gv)
    (h3 : S .divergence → S (.sym 0 0) → Only S du) (h4 : S .divergence → S (.sym 0 1) → Only S dv) : Only S e' := by
  simp only [coordsWith, Res.bind_eq_ok] at h
  obtain ⟨e1, r1, e2, r2, e3, r3, r4⟩ := h
  have key : ∀ {t d : Expr K} {op : UOp} {k : Nat} {m : Item}, Only S d → SubV t d →
      deepEq t (.un op (.fsym 0 k)) = .ok true → (op = .grad ∨ op = .divg) → opItem op = some m →
      S m ∧ S (.sym 0 k) := by
    intro t d op k m hd hs ht hop hm
    have := hd.sub hs
    rw [deepEq_symbol ht hop] at this
    obtain ⟨a, b⟩ := only_un.1 this
    exact ⟨a m hm, only_fsym.1 b⟩
  have o1 := substitute_only r1 he fun t hs ht => by
    obtain ⟨a, b⟩ := key he hs ht (.inl rfl) rfl
    exact h1 a b
  have o2 := substitute_only r2 o1 fun t hs ht => by
    obtain ⟨a, b⟩ := key o1 hs ht (.inl rfl) rfl
    exact h2 a b
  have o3 := substitute_only r3 o2 fun t hs ht => by
    obtain ⟨a, b⟩ := key o2 hs ht (.inr rfl) rfl
    exact h3 a b
  exact substitute_only r4 o3 fun t hs ht => by
    obtain ⟨a, b⟩ := key o3 hs ht (.inr rfl) rfl
    exact h4 a b

theorem coords_only {d : Dim} {e e' : Expr K} (h : coords d e = .ok e') (he : Only S e)
    (hd : S .gradient ∨ S .divergence → ∀ i < d.toNat, S (.deriv i)) (hv : S .gradient → 2 ≤ d.toNat → S .vector) :
    Only S e' := by
  have key : ∀ {i k : Nat}, S (.deriv i) → S (.sym 0 k) → Only S (diffSymbol 0 k i : Expr K) := fun h1 h2 =>
    only_un.2 ⟨fun m hm => by cases hm; exact h1, only_fsym.2 h2⟩
  cases d with
  | one =>
    refine coordsWith_only h he ?_ ?_ ?_ ?_ <;> intro a b
    · exact key (hd (.inl a) 0 (by decide)) b
    · exact key (hd (.inl a) 0 (by decide)) b
    · exact key (hd (.inr a) 0 (by decide)) b
    · exact key (hd (.inr a) 0 (by decide)) b
  | two =>
    refine coordsWith_only h he ?_ ?_ ?_ ?_ <;> intro a b
    · have h := hd (.inl a)
      exact only_vec.2 ⟨hv a (by decide), by simp [key (h 0 (by decide)) b, key (h 1 (by decide)) b]⟩
    · have h := hd (.inl a)
      exact only_vec.2 ⟨hv a (by decide), by simp [key (h 0 (by decide)) b, key (h 1 (by decide)) b]⟩
    · have h := hd (.inr a)
      exact only_bin.2 ⟨key (h 0 (by decide)) b, key (h 1 (by decide)) b⟩
    · have h := hd (.inr a)
      exact only_bin.2 ⟨key (h 0 (by decide)) b, key (h 1 (by decide)) b⟩
  | three =>
    refine coordsWith_only h he ?_ ?_ ?_ ?_ <;> intro a b
    · have h := hd (.inl a)
      exact only_vec.2 ⟨hv a (by decide), by
        simp [key (h 0 (by decide)) b, key (h 1 (by decide)) b, key (h 2 (by decide)) b]⟩
    · have h := hd (.inl a)
      exact only_vec.2 ⟨hv a (by decide), by
        simp [key (h 0 (by decide)) b, key (h 1 (by decide)) b, key (h 2 (by decide)) b]⟩
    · have h := hd (.inr a)
      exact only_bin.2 ⟨only_bin.2 ⟨key (h 0 (by decide)) b, key (h 1 (by decide)) b⟩, key (h 2 (by decide)) b⟩
    · have h := hd (.inr a)
      exact only_bin.2 ⟨only_bin.2 ⟨key (h 0 (by decide)) b, key (h 1 (by decide)) b⟩, key (h 2 (by decide)) b⟩

end VM
