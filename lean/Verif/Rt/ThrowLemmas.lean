import Verif.Rt.Throw
import Verif.Spec.Throw
import Verif.Rt.EvalLemmas
import Verif.Rt.SimplifySound
import Verif.Rt.DiffLemmas
/-
Lemmas about where exceptions are thrown.
-/
namespace VM
open VM.Spec
variable {K : Type}

/-- The outcome of a call that throws at `s`, or nowhere. -/
def AtSite {α : Type} (r : Res α) : Option Site → Prop
  | none => ∃ a, r = .ok a
  | some s => r = .throw s.exc

theorem applyU_site [Num K] (op : UOp) (c : K) : AtSite (applyU op c) op.site := by
  cases op <;> first | rfl | exact ⟨_, rfl⟩

theorem applyB_site [Num K] (op : BOp) (c d : K) : AtSite (applyB op c d) op.site := by
  cases op <;> first | rfl | exact ⟨_, rfl⟩

theorem AtSite.bind {α β : Type} {r : Res α} {s t : Option Site} {f : α → Res β} (h : AtSite r s)
    (hf : ∀ a, AtSite (f a) t) : AtSite (r.bind f) (s.or t) := by
  cases s with
  | none => obtain ⟨a, rfl⟩ := h; exact hf a
  | some s => rw [show r = _ from h]; rfl

theorem AtSite.both {α β γ : Type} {r : Res α} {q : Res β} {s t u : Option Site} {f : α → β → Res γ}
    (b : Bool) (h : AtSite r s) (h' : AtSite q t) (hf : ∀ a c, AtSite (f a c) u) :
    AtSite (Res.both b r q f) (if b then (s.or t).or u else (t.or s).or u) := by
  cases b with
  | true =>
    simp only [if_true, Res.both, Option.or_assoc]
    exact h.bind fun a => h'.bind fun c => hf a c
  | false =>
    simp only [Bool.false_eq_true, if_false, Res.both, Option.or_assoc]
    exact h'.bind fun c => h.bind fun a => hf a c

theorem evalSite_spec [Num K] (o : Order K) (v : List K) (e : Expr K) : AtSite (eval o v e) (evalSite o v e) := by
  induction e using Expr.ind with
  | const c => exact ⟨c, rfl⟩
  | var i =>
    simp only [eval, evalSite]
    split
    · rename_i x hx
      rw [if_pos (List.getElem?_eq_some_iff.1 hx).1]
      exact ⟨x, rfl⟩
    · rename_i hx
      rw [if_neg (by rw [List.getElem?_eq_none_iff] at hx; omega)]
      rfl
  | fsym => rfl
  | un op e ih => exact ih.bind fun c => applyU_site op c
  | integ lo hi x e _ _ ih => exact ih.bind fun c => rfl
  | bin op l r hl hr => exact AtSite.both (o l r) hl hr fun a c => applyB_site op a c
  | vec => rfl

theorem unwrapSite_spec [Num K] (o : Order K) (e : Expr K) : AtSite (unwrap o e) (unwrapSite o e) := by
  induction e using Expr.ind with
  | const c => exact ⟨c, rfl⟩
  | un op e ih => exact ih.bind fun c => applyU_site op c
  | integ lo hi x e _ _ ih => exact ih.bind fun c => rfl
  | bin op l r hl hr => exact AtSite.both (o l r) hl hr fun a c => applyB_site op a c
  | _ => rfl

/-- The statement throws for a reason found in `e`. -/
def Site.Blames (s : Site) (e : Expr K) : Prop :=
  match s.offer with
  | .dangling => True
  | .literal t => TrueOf t e
  | .struct t => TrueOf t e
  | .cls t => TrueOf t e

theorem SubV.trans {a b c : Expr K} (h : SubV a b) (h' : SubV b c) : SubV a c := by
  induction h' with
  | refl => exact h
  | un _ ih => exact .un ih
  | integ _ ih => exact .integ ih
  | binL _ ih => exact .binL ih
  | binR _ ih => exact .binR ih
  | vec hm _ ih => exact .vec hm ih

theorem TrueOf.sub {t : String} {a b : Expr K} (h : TrueOf t a) (hs : SubV a b) : TrueOf t b := by
  obtain ⟨f, hf, h⟩ := h
  refine ⟨f, hf, ?_⟩
  cases h with
  | symbol h => exact .symbol (SubV.trans h hs)
  | vector h => exact .vector (SubV.trans h hs)
  | gradient h => exact .gradient (SubV.trans h hs)
  | divergence h => exact .divergence (SubV.trans h hs)
  | partialDeriv h => exact .partialDeriv (SubV.trans h hs)
  | integral h => exact .integral (SubV.trans h hs)
  | symbolicIntegral h => exact .symbolicIntegral (SubV.trans h hs)
  | unbound h => exact .unbound (SubV.trans h hs)
  | modulus h => exact .modulus (SubV.trans h hs)
  | malformed h => exact .malformed (SubV.trans h hs)

theorem Site.Blames.sub {s : Site} {a b : Expr K} (h : s.Blames a) (hs : SubV a b) : s.Blames b := by
  rw [Site.Blames] at h ⊢
  split <;> rename_i ho <;> rw [ho] at h
  · trivial
  all_goals exact TrueOf.sub h hs

theorem UOp.site_blames {op : UOp} {s : Site} (e : Expr K) (h : op.site = some s) : s.Blames (.un op e) := by
  cases op <;> simp only [UOp.site, Option.some.injEq, reduceCtorEq] at h <;> subst h
  · exact ⟨_, .gradient, .gradient .refl⟩
  · exact ⟨_, .divergence, .divergence .refl⟩
  · exact ⟨_, .partialDeriv, .partialDeriv .refl⟩
  · exact ⟨_, .symbolicIntegral, .symbolicIntegral .refl⟩

theorem BOp.site_blames {op : BOp} {s : Site} (l r : Expr K) (h : op.site = some s) : s.Blames (.bin op l r) := by
  cases op <;> simp only [BOp.site, Option.some.injEq, reduceCtorEq] at h
  subst h
  exact ⟨_, .malformed, .malformed .refl⟩

theorem or_cases {s t : Option Site} {u : Site} (h : s.or t = some u) : s = some u ∨ t = some u := by
  cases s with
  | none => exact .inr h
  | some s => exact .inl h

theorem evalSite_blames (o : Order K) (v : List K) (e : Expr K) (s : Site) (h : evalSite o v e = some s) :
    s.Blames e := by
  induction e using Expr.ind with
  | const c => cases h
  | var i =>
    rw [evalSite] at h
    split at h
    · cases h
    · cases h; trivial
  | fsym i t => cases h; exact ⟨_, .symbol, .symbol .refl⟩
  | un op e ih =>
    rcases or_cases h with h | h
    · exact (ih h).sub (.un .refl)
    · exact UOp.site_blames e h
  | integ lo hi x e _ _ ih =>
    rcases or_cases h with h | h
    · exact (ih h).sub (.integ .refl)
    · cases h; exact ⟨_, .integral, .integral .refl⟩
  | bin op l r hl hr =>
    rw [evalSite] at h
    split at h
    · rcases or_cases h with h | h
      · rcases or_cases h with h | h
        · exact (hl h).sub (.binL .refl)
        · exact (hr h).sub (.binR .refl)
      · exact BOp.site_blames l r h
    · rcases or_cases h with h | h
      · rcases or_cases h with h | h
        · exact (hr h).sub (.binR .refl)
        · exact (hl h).sub (.binL .refl)
      · exact BOp.site_blames l r h
  | vec es => cases h; exact ⟨_, .vector, .vector .refl⟩

theorem unwrapSite_blames (o : Order K) (e : Expr K) (s : Site) (h : unwrapSite o e = some s) :
    s.Blames e := by
  induction e using Expr.ind with
  | const c => cases h
  | var i => cases h; exact ⟨_, .unbound, .unbound .refl⟩
  | fsym i t => cases h; exact ⟨_, .symbolNumber, .symbol .refl⟩
  | un op e ih =>
    rcases or_cases h with h | h
    · exact (ih h).sub (.un .refl)
    · exact UOp.site_blames e h
  | integ lo hi x e _ _ ih =>
    rcases or_cases h with h | h
    · exact (ih h).sub (.integ .refl)
    · cases h; exact ⟨_, .integral, .integral .refl⟩
  | bin op l r hl hr =>
    rw [unwrapSite] at h
    split at h
    · rcases or_cases h with h | h
      · rcases or_cases h with h | h
        · exact (hl h).sub (.binL .refl)
        · exact (hr h).sub (.binR .refl)
      · exact BOp.site_blames l r h
    · rcases or_cases h with h | h
      · rcases or_cases h with h | h
        · exact (hr h).sub (.binR .refl)
        · exact (hl h).sub (.binL .refl)
      · exact BOp.site_blames l r h
  | vec es => cases h; exact ⟨_, .vectorNumber, .vector .refl⟩

theorem unwrapSite_ne_index (o : Order K) (e : Expr K) (s : Site) (h : unwrapSite o e = some s) :
    s.offer ≠ .dangling := by
  have hu (op : UOp) (h : op.site = some s) : s.offer ≠ .dangling := by
    cases op <;> simp only [UOp.site, Option.some.injEq, reduceCtorEq] at h <;> subst h <;> simp [Site.offer]
  have hb (op : BOp) (h : op.site = some s) : s.offer ≠ .dangling := by
    cases op <;> simp only [BOp.site, Option.some.injEq, reduceCtorEq] at h; subst h; simp [Site.offer]
  induction e using Expr.ind with
  | const c => cases h
  | un op e ih => rcases or_cases h with h | h <;> first | exact ih h | exact hu op h
  | integ lo hi x e _ _ ih =>
    rcases or_cases h with h | h
    · exact ih h
    · cases h; simp [Site.offer]
  | bin op l r hl hr =>
    rw [unwrapSite] at h
    split at h <;> rcases or_cases h with h | h <;> (try exact hb op h) <;> rcases or_cases h with h | h
    all_goals first | exact hl h | exact hr h
  | _ => cases h; simp [Site.offer]

/-! ### Differentiation -/

theorem deepEq_const_ne_ub [Num K] (d : Expr K) (c : K) : ∃ b, deepEq d (.const c) = .ok b := by
  cases d <;> exact ⟨_, rfl⟩

/-- Only whether the call throws is recorded. -/
def Throws {α : Type} (r : Res α) : Option Site → Prop
  | none => ∃ a, r = .ok a
  | some _ => ∃ x, r = .throw x

theorem Throws.map {α β : Type} {r : Res α} {s : Option Site} (f : α → β) (h : Throws r s) : Throws (r.map f) s := by
  cases s with
  | none => obtain ⟨a, rfl⟩ := h; exact ⟨_, rfl⟩
  | some s => obtain ⟨x, rfl⟩ := h; exact ⟨_, rfl⟩

theorem Throws.pair {α β γ : Type} {r : Res α} {q : Res β} {s t : Option Site} (f : α → β → γ)
    (h : Throws r s) (h' : Throws q t) : Throws (r.bind fun a => q.map fun c => f a c) (s.or t) := by
  cases s with
  | none => obtain ⟨a, rfl⟩ := h; exact h'.map _
  | some s => obtain ⟨x, rfl⟩ := h; exact ⟨_, rfl⟩

theorem Throws.swap {α : Type} {r : Res α} {s t : Option Site} (h : Throws r (s.or t)) : Throws r (t.or s) := by
  cases s <;> cases t <;> exact h

theorem diffSite_spec [Num K] (o : Order K) (x : DVar) (e : Expr K) : Throws (diffE x e) (diffSite o x e) := by
  induction e using Expr.ind with
  | const c => exact ⟨_, rfl⟩
  | var i => exact ⟨_, rfl⟩
  | fsym i t => cases x <;> exact ⟨_, rfl⟩
  | un op e ih =>
    cases op with
    | fn f => cases f <;> simp only [diffE, diffSite, diffFn] <;> first | exact ⟨_, rfl⟩ | exact ih | exact ih.map _
    | grad =>
      cases x with
      | var j => exact ⟨_, rfl⟩
      | fsym j u =>
        simp only [diffE, diffSite]
        revert ih
        cases diffSite o (.fsym j u) e with
        | none =>
          rintro ⟨d, hd⟩
          obtain ⟨b, hb⟩ := deepEq_const_ne_ub d (Num.lit 0 : K)
          rw [hd, Res.bind_ok, hb]
          exact ⟨_, rfl⟩
        | some s => rintro ⟨y, hy⟩; rw [hy]; exact ⟨y, rfl⟩
    | _ => exact ⟨_, rfl⟩
  | integ => exact ⟨_, rfl⟩
  | bin op l r hl hr =>
    cases op <;> simp only [diffE, diffSite, diffBin]
    case uid => exact ⟨_, rfl⟩
    all_goals
      split
      · exact hl.pair _ hr
      · exact (hl.pair _ hr).swap
  | vec es ih =>
    simp only [diffE, diffSite]
    refine Throws.map _ ?_
    induction es with
    | nil => exact ⟨_, rfl⟩
    | cons e es ih' =>
      simp only [diffEL, diffSites]
      exact (ih e (by simp)).pair _ (ih' fun e he => ih e (by simp [he]))

theorem diffSite_blames (o : Order K) (x : DVar) (e : Expr K) (s : Site) (h : diffSite o x e = some s) :
    s.Blames e ∧ ∃ t, (s.offer = .cls t ∨ s.offer = .struct t) := by
  induction e using Expr.ind with
  | const c => cases h
  | var i => cases h
  | fsym i t =>
    cases x with
    | var => cases h; exact ⟨⟨_, .symbolDiff, .symbol .refl⟩, _, .inl rfl⟩
    | fsym => cases h
  | un op e ih =>
    cases op with
    | fn f =>
      cases f
      case fabs => cases h; exact ⟨⟨_, .modulus, .modulus .refl⟩, _, .inl rfl⟩
      all_goals exact ⟨(ih h).1.sub (.un .refl), (ih h).2⟩
    | grad =>
      cases x with
      | var => cases h; exact ⟨⟨_, .gradientDiff, .gradient .refl⟩, _, .inl rfl⟩
      | fsym => exact ⟨(ih h).1.sub (.un .refl), (ih h).2⟩
    | divg => cases h; exact ⟨⟨_, .divergenceDiff, .divergence .refl⟩, _, .inl rfl⟩
    | pd => cases h; exact ⟨⟨_, .partialDeriv, .partialDeriv .refl⟩, _, .inl rfl⟩
    | symInt => cases h; exact ⟨⟨_, .symbolicIntegralDiff, .symbolicIntegral .refl⟩, _, .inl rfl⟩
  | integ => cases h; exact ⟨⟨_, .integralDiff, .integral .refl⟩, _, .inl rfl⟩
  | bin op l r hl hr =>
    cases op <;> simp only [diffSite] at h
    case uid => cases h; exact ⟨⟨_, .malformed, .malformed .refl⟩, _, .inr rfl⟩
    all_goals
      split at h <;> rcases or_cases h with h | h
      · exact ⟨(hl h).1.sub (.binL .refl), (hl h).2⟩
      · exact ⟨(hr h).1.sub (.binR .refl), (hr h).2⟩
      · exact ⟨(hr h).1.sub (.binR .refl), (hr h).2⟩
      · exact ⟨(hl h).1.sub (.binL .refl), (hl h).2⟩
  | vec es ih =>
    rw [diffSite] at h
    have key : ∀ fs : List (Expr K), (∀ f ∈ fs, f ∈ es) → diffSites o x fs = some s →
        s.Blames (.vec es) ∧ ∃ t, (s.offer = .cls t ∨ s.offer = .struct t) := by
      intro fs
      induction fs with
      | nil => intro _ h; cases h
      | cons f fs ih' =>
        intro hm h
        rcases or_cases h with h | h
        · have := ih f (hm f (by simp)) h
          exact ⟨this.1.sub (.vec (hm f (by simp)) .refl), this.2⟩
        · exact ih' (fun g hg => hm g (by simp [hg])) h
    exact key es (fun _ h => h) h

/-- In a well-formed expression all sites of differentiation have the same class. -/
theorem diffSite_class (o : Order K) (x : DVar) {e : Expr K} (hw : WellFormed e) (s : Site)
    (h : diffSite o x e = some s) : ∃ t, s.offer = .cls t := by
  induction e using Expr.ind with
  | const c => cases h
  | var i => cases h
  | fsym i t => cases x <;> cases h; exact ⟨_, rfl⟩
  | un op e ih =>
    cases hw with | un _ hw =>
    cases op with
    | fn f =>
      cases f
      case fabs => cases h; exact ⟨_, rfl⟩
      all_goals exact ih hw h
    | grad =>
      cases x with
      | var => cases h; exact ⟨_, rfl⟩
      | fsym => exact ih hw h
    | _ => cases h; exact ⟨_, rfl⟩
  | integ => cases h; exact ⟨_, rfl⟩
  | bin op l r hl hr =>
    cases hw with | bin ho hwl hwr =>
    cases op <;> simp only [diffSite] at h
    case uid => rcases ho with h | h | h | h <;> cases h
    all_goals
      split at h <;> rcases or_cases h with h | h
      all_goals first | exact hl hwl h | exact hr hwr h
  | vec es ih =>
    cases hw with | vec hw =>
    rw [diffSite] at h
    have key : ∀ fs : List (Expr K), (∀ f ∈ fs, f ∈ es) → diffSites o x fs = some s →
        ∃ t, s.offer = .cls t := by
      intro fs
      induction fs with
      | nil => intro _ h; cases h
      | cons f fs ih' =>
        intro hm h
        rcases or_cases h with h | h
        · exact ih f (hm f (by simp)) (hw f (hm f (by simp))) h
        · exact ih' (fun g hg => hm g (by simp [hg])) h
    exact key es (fun _ h => h) h

/-! ### Simplification of a well-formed expression does not throw -/

/-- A result or undefined behaviour. -/
def Quiet {α : Type} (r : Res α) : Prop := ∀ x, r ≠ .throw x

theorem Quiet.ok {α : Type} (a : α) : Quiet (.ok a) := fun _ h => by cases h

theorem Quiet.bind {α β : Type} {r : Res α} {f : α → Res β} (h : Quiet r) (hf : ∀ a, Quiet (f a)) :
    Quiet (r.bind f) := by
  cases r with
  | ok a => exact hf a
  | throw x => exact absurd rfl (h x)
  | ub => exact fun _ h => by cases h

theorem Quiet.map {α β : Type} {r : Res α} (f : α → β) (h : Quiet r) : Quiet (r.map f) :=
  h.bind fun _ => .ok _

theorem Quiet.unwrap [Num K] {e : Expr K} (hw : WellFormed e) (hc : isConst e = true) :
    Quiet (unwrap leftFirst e) := by
  obtain ⟨c, hc⟩ := isConst_unwrap hw hc
  rw [hc]; exact .ok c

theorem Quiet.dot (ls rs : List (Expr K)) : Quiet (dot ls rs) := by
  intro x
  cases ls <;> cases rs <;> simp only [VM.dot] <;> (try split) <;> simp

theorem Quiet.simplify [Num K] {e : Expr K} (hw : WellFormed e) : Quiet (simplify e) := by
  induction hw with
  | const | var | fsym | vec => exact .ok _
  | @un op e hw ih =>
    simp only [VM.simplify]
    split
    · refine (Quiet.unwrap hw ‹_›).bind fun c => ?_
      split
      · next h => cases op <;> simp [UOp.canSimplify] at h; exact .ok _
      · exact .ok _
    · exact ih.map _
  | @integ lo hi x e _ _ hw _ _ ih =>
    simp only [VM.simplify]
    split
    · exact (Quiet.unwrap hw ‹_›).map _
    · exact ih.map _
  | @bin op l r ho hl hr ihl ihr =>
    simp only [VM.simplify]
    split
    · next hc => exact (Quiet.unwrap (.bin ho hl hr) (by simpa [isConst] using hc)).map _
    · have hp (f : Expr K → Expr K → Expr K) :
          Quiet ((VM.simplify l).bind fun l' => (VM.simplify r).map fun r' => f l' r') :=
        ihl.bind fun _ => ihr.map _
      rcases ho with rfl | rfl | rfl | rfl <;> simp only [simpBin]
      all_goals
        split
        · refine (Quiet.unwrap hl ‹_›).bind fun c => ?_
          split
          · first | exact ihr | exact ihr.map _ | exact .ok _
          · first | exact ihr.map _ | (split; exact ihr; exact ihr.map _)
        · split
          · refine (Quiet.unwrap hr ‹_›).bind fun c => ?_
            split
            · first | exact ihl | exact ihl.map _ | exact .ok _
            · first | exact ihl.map _ | (split; exact ihl; exact ihl.map _)
          · first | exact hp _ | (split; exact .dot _ _; exact hp _)

theorem Quiet.simplified [Num K] {e : Expr K} (hw : WellFormed e) : Quiet (simplified e) := by
  have h : ∀ m, ∀ e : Expr K, weight e < m → WellFormed e → Quiet (VM.simplified e) := by
    intro m
    induction m with
    | zero => intro e h; omega
    | succ m ih =>
      intro e hm hw
      rw [simplified_eq]
      obtain ⟨b, hb⟩ := canSimplify_ok hw
      rw [hb]
      cases b with
      | false => exact .ok e
      | true =>
        simp only [Res.bind_ok, if_true]
        cases he : VM.simplify e with
        | ok e' =>
          have hp := Pass.of_simplify he
          exact ih e' (by have := hp.weight_lt hb; omega) (hp.wellFormed hw)
        | throw x => exact absurd he (Quiet.simplify hw x)
        | ub => exact fun _ h => by cases h
  exact h _ e (Nat.lt_succ_self _) hw

end VM
