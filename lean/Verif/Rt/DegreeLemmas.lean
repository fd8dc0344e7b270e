import Verif.Rt.IteratedLemmas
import Verif.Spec.Degree
/-
Lemmas for C106: differentiating lowers the degree, simplifying does not raise it.
-/
namespace VM
open Spec
variable {S : Nat → Prop} {n : ℕ} {p : Fin n → ℝ}

/-- The degree is below the number; below 0 are the expressions that are 0 by their shape. -/
inductive Below (S : Nat → Prop) : Nat → Expr XReal → Prop
  | zero {k e} : Zero e → Below S k e
  | free {k e} : Smooth e → (∀ i, S i → ¬ Occurs i e) → Below S (k + 1) e
  | var {k i} : S i → Below S (k + 2) (.var i)
  | plus {k l r} : Below S k l → Below S k r → Below S k (.bin .plus l r)
  | minus {k l r} : Below S k l → Below S k r → Below S k (.bin .minus l r)
  | mult {a b k l r} : Below S (a + 1) l → Below S (b + 1) r → a + b < k → Below S k (.bin .mult l r)
  | div {k l r} : Below S k l → Smooth r → (∀ i, S i → ¬ Occurs i r) → Below S k (.bin .div l r)

theorem Below.mono {k m : Nat} {e : Expr XReal} (h : Below S k e) (hk : k ≤ m) : Below S m e := by
  induction h generalizing m with
  | zero h => exact .zero h
  | free h1 h2 => obtain ⟨m, rfl⟩ : ∃ j, m = j + 1 := ⟨m - 1, by omega⟩; exact .free h1 h2
  | var h => obtain ⟨m, rfl⟩ : ∃ j, m = j + 2 := ⟨m - 2, by omega⟩; exact .var h
  | plus _ _ ih1 ih2 => exact .plus (ih1 hk) (ih2 hk)
  | minus _ _ ih1 ih2 => exact .minus (ih1 hk) (ih2 hk)
  | mult h1 h2 h3 => exact .mult h1 h2 (by omega)
  | div _ h1 h2 ih => exact .div (ih hk) h1 h2

theorem Below.toZero {e : Expr XReal} (h : Below S 0 e) : Zero e := by
  generalize hk : 0 = k at h
  induction h with
  | zero h => exact h
  | free => omega
  | var => omega
  | plus _ _ ih1 ih2 => exact .plus (ih1 hk) (ih2 hk)
  | minus _ _ ih1 ih2 => exact .minus (ih1 hk) (ih2 hk)
  | mult _ _ h => omega
  | div _ _ _ ih => exact .div (ih hk)

theorem Spec.DegreeIn.toBelow {m : Nat} {e : Expr XReal} (h : DegreeIn S m e) : Below S (m + 1) e := by
  induction h with
  | coef h1 h2 => exact .free h1 h2
  | var h => exact .var h
  | plus _ _ h1 h2 => exact .plus (h1.mono (by omega)) (h2.mono (by omega))
  | minus _ _ h1 h2 => exact .minus (h1.mono (by omega)) (h2.mono (by omega))
  | mult _ _ h1 h2 => exact .mult h1 h2 (by omega)
  | div _ h1 h2 ih => exact .div ih h1 h2

theorem Spec.DegreeIn.smooth {m : Nat} {e : Expr XReal} (h : DegreeIn S m e) : Smooth e := by
  induction h with
  | coef h => exact h
  | var => exact .var _
  | plus _ _ h1 h2 => exact .bin (.inl rfl) h1 h2
  | minus _ _ h1 h2 => exact .bin (.inr (.inl rfl)) h1 h2
  | mult _ _ h1 h2 => exact .bin (.inr (.inr (.inl rfl))) h1 h2
  | div _ h1 _ ih => exact .bin (.inr (.inr (.inr rfl))) ih h1

theorem Spec.DegreeIn.free {m : Nat} {e : Expr XReal} (h : DegreeIn S m e) (hm : m = 0) (i : Nat) (hi : S i) :
    ¬ Occurs i e := by
  induction h with
  | coef _ h => exact h i hi
  | var => omega
  | plus _ _ h1 h2 =>
    intro h
    cases h with
    | binL h => exact h1 (by omega) h
    | binR h => exact h2 (by omega) h
  | minus _ _ h1 h2 =>
    intro h
    cases h with
    | binL h => exact h1 (by omega) h
    | binR h => exact h2 (by omega) h
  | mult _ _ h1 h2 =>
    intro h
    cases h with
    | binL h => exact h1 (by omega) h
    | binR h => exact h2 (by omega) h
  | div _ _ h2 ih =>
    intro h
    cases h with
    | binL h => exact ih (by omega) h
    | binR h => exact h2 i hi h

/-! ### Differentiating -/

theorem Zero.diffE {x : DVar} {e d : Expr XReal} (h : Zero e) (hd : VM.diffE x e = .ok d) : Zero d := by
  induction h generalizing d with
  | const =>
    simp only [VM.diffE, Res.ok.injEq] at hd
    subst hd
    simpa [Num.lit] using Zero.const
  | plus _ _ ihl ihr =>
    simp only [VM.diffE, diffBin] at hd
    obtain ⟨l', hl', hd⟩ := Res.bind_eq_ok.1 hd
    obtain ⟨r', hr', rfl⟩ := Res.map_eq_ok.1 hd
    exact .plus (ihl hl') (ihr hr')
  | minus _ _ ihl ihr =>
    simp only [VM.diffE, diffBin] at hd
    obtain ⟨l', hl', hd⟩ := Res.bind_eq_ok.1 hd
    obtain ⟨r', hr', rfl⟩ := Res.map_eq_ok.1 hd
    exact .minus (ihl hl') (ihr hr')
  | multL hl ihl =>
    simp only [VM.diffE, diffBin] at hd
    obtain ⟨l', hl', hd⟩ := Res.bind_eq_ok.1 hd
    obtain ⟨r', hr', rfl⟩ := Res.map_eq_ok.1 hd
    exact .plus (.multL (ihl hl')) (.multL hl)
  | multR hr ihr =>
    simp only [VM.diffE, diffBin] at hd
    obtain ⟨l', hl', hd⟩ := Res.bind_eq_ok.1 hd
    obtain ⟨r', hr', rfl⟩ := Res.map_eq_ok.1 hd
    exact .plus (.multR hr) (.multR (ihr hr'))
  | div hl ihl =>
    simp only [VM.diffE, diffBin] at hd
    obtain ⟨l', hl', hd⟩ := Res.bind_eq_ok.1 hd
    obtain ⟨r', hr', rfl⟩ := Res.map_eq_ok.1 hd
    exact .div (.minus (.multL (ihl hl')) (.multL hl))

theorem free_const (c : XReal) (i : Nat) : ¬ Occurs i (.const c : Expr XReal) := nofun

theorem Below.const {k : Nat} (hk : 0 < k) (c : XReal) : Below S k (.const c) := by
  obtain ⟨k, rfl⟩ : ∃ j, k = j + 1 := ⟨k - 1, by omega⟩
  exact .free (.const c) fun i _ => free_const c i

theorem Spec.Smooth.diffE_free {i : Nat} {e d : Expr XReal} (hs : Smooth e) (hf : ¬ Occurs i e)
    (hd : VM.diffE (.var i) e = .ok d) : Zero d :=
  diffE_zero hs.sym (fun j hj => by cases hj; exact hf) (by simp) hd

theorem Below.mult' {a k : Nat} {l r : Expr XReal} (h1 : Below S a l) (h2 : Below S (k + 1) r) :
    Below S (a + k) (.bin .mult l r) := by
  cases a with
  | zero => exact .zero (.multL h1.toZero)
  | succ a => exact .mult h1 h2 (by omega)

theorem Below.diffE {i : Nat} (hi : S i) {k : Nat} {e d : Expr XReal} (h : Below S (k + 1) e)
    (hd : VM.diffE (.var i) e = .ok d) : Below S k d := by
  generalize hm : k + 1 = m at h
  induction h generalizing k d with
  | zero h => exact .zero (h.diffE hd)
  | free h1 h2 => exact .zero (h1.diffE_free (h2 i hi) hd)
  | @var m j hj =>
    simp only [VM.diffE, Res.ok.injEq] at hd
    subst hd
    exact .const (by omega) _
  | plus _ _ ihl ihr =>
    simp only [VM.diffE, diffBin] at hd
    obtain ⟨l', hl', hd⟩ := Res.bind_eq_ok.1 hd
    obtain ⟨r', hr', rfl⟩ := Res.map_eq_ok.1 hd
    exact .plus (ihl hl' hm) (ihr hr' hm)
  | minus _ _ ihl ihr =>
    simp only [VM.diffE, diffBin] at hd
    obtain ⟨l', hl', hd⟩ := Res.bind_eq_ok.1 hd
    obtain ⟨r', hr', rfl⟩ := Res.map_eq_ok.1 hd
    exact .minus (ihl hl' hm) (ihr hr' hm)
  | @mult a b m l r h1 h2 h3 ihl ihr =>
    simp only [VM.diffE, diffBin] at hd
    obtain ⟨l', hl', hd⟩ := Res.bind_eq_ok.1 hd
    obtain ⟨r', hr', rfl⟩ := Res.map_eq_ok.1 hd
    refine .plus ((ihl hl' rfl).mult' h2 |>.mono (by omega)) ?_
    have := ihr hr' rfl
    cases b with
    | zero => exact .zero (.multR this.toZero)
    | succ b => exact .mult h1 this (by omega)
  | @div m l r _ h1 h2 ih =>
    simp only [VM.diffE, diffBin] at hd
    obtain ⟨l', hl', hd⟩ := Res.bind_eq_ok.1 hd
    obtain ⟨r', hr', rfl⟩ := Res.map_eq_ok.1 hd
    have hr : ∀ i, S i → ¬ Occurs i (.bin .mult r r) := by
      intro i hi h
      cases h with
      | binL h => exact h2 i hi h
      | binR h => exact h2 i hi h
    refine .div (.minus ?_ (.zero (.multR (h1.diffE_free (h2 i hi) hr')))) (.bin (.inr (.inr (.inl rfl))) h1 h1) hr
    exact (ih hl' hm).mult' (k := 0) (.free h1 h2)

/-! ### Simplifying -/

theorem Zero.pass_reg {e e' : Expr XReal} (h : Zero e) (hr : Reg p e) (hp : Pass e e') : Zero e' :=
  h.pass hp (Val.of_eval (I := Interp.none) (hr.eval leftFirst))

theorem Below.pass {k : Nat} {e e' : Expr XReal} (h : Below S k e) (hr : Reg p e) (hp : Pass e e') : Below S k e' := by
  induction h generalizing e' with
  | zero h => exact .zero (h.pass_reg hr hp)
  | free h1 h2 => exact .free (hp.smooth h1) fun i hi h => h2 i hi (hp.occurs h)
  | var h => cases hp; exact .var h
  | @plus k l r hl hr' ihl ihr =>
    have hz := hr
    obtain ⟨g1, g2, -⟩ := hr
    rcases Nat.eq_zero_or_pos k with rfl | hk
    · exact .zero ((Zero.plus hl.toZero hr'.toZero).pass_reg hz hp)
    cases hp with
    | fold => exact .const hk _
    | plusZeroL _ _ _ _ h => exact ihr g2 h
    | plusZeroR _ _ _ _ h => exact ihl g1 h
    | constL _ _ _ _ _ h => exact .plus (.const hk _) (ihr g2 h)
    | constR _ _ _ _ _ h => exact .plus (ihl g1 h) (.const hk _)
    | cong _ _ _ _ h h' => exact .plus (ihl g1 h) (ihr g2 h')
  | @minus k l r hl hr' ihl ihr =>
    have hz := hr
    obtain ⟨g1, g2, -⟩ := hr
    rcases Nat.eq_zero_or_pos k with rfl | hk
    · exact .zero ((Zero.minus hl.toZero hr'.toZero).pass_reg hz hp)
    cases hp with
    | fold => exact .const hk _
    | minusZeroL _ _ _ _ h =>
      obtain ⟨k, rfl⟩ : ∃ j, k = j + 1 := ⟨k - 1, by omega⟩
      exact .mult (a := 0) (.const (by omega) _) (ihr g2 h) (by omega)
    | minusZeroR _ _ _ _ h => exact ihl g1 h
    | constL _ _ _ _ _ h => exact .minus (.const hk _) (ihr g2 h)
    | constR _ _ _ _ _ h => exact .minus (ihl g1 h) (.const hk _)
    | cong _ _ _ _ h h' => exact .minus (ihl g1 h) (ihr g2 h')
  | @mult a b k l r hl hr' hk ihl ihr =>
    obtain ⟨g1, g2, -⟩ := hr
    cases hp with
    | fold => exact .const (by omega) _
    | multZeroL => exact .const (by omega) _
    | multZeroR => exact .const (by omega) _
    | multOneL _ _ _ _ h => exact (ihr g2 h).mono (by omega)
    | multOneR _ _ _ _ h => exact (ihl g1 h).mono (by omega)
    | constL _ _ _ _ _ h => exact .mult (a := a) (.const (by omega) _) (ihr g2 h) hk
    | constR _ _ _ _ _ h => exact .mult (b := b) (ihl g1 h) (.const (by omega) _) hk
    | dotp => exact g1.elim
    | cong _ _ _ _ h h' => exact .mult (ihl g1 h) (ihr g2 h') hk
  | @div k l r hl hs hf ihl =>
    have hz := hr
    obtain ⟨g1, g2, -⟩ := hr
    rcases Nat.eq_zero_or_pos k with rfl | hk
    · exact .zero ((Zero.div hl.toZero).pass_reg hz hp)
    cases hp with
    | fold => exact .const hk _
    | divZeroL => exact .const hk _
    | divOneR _ _ _ _ h => exact ihl g1 h
    | constL _ _ _ _ _ h =>
      exact .div (.const hk _) (h.smooth hs) fun i hi h' => hf i hi (h.occurs h')
    | constR _ _ _ _ _ h => exact .div (ihl g1 h) (.const _) fun i _ => free_const _ i
    | cong _ _ _ _ h h' => exact .div (ihl g1 h) (h'.smooth hs) fun i hi h'' => hf i hi (h'.occurs h'')

theorem Below.simplified {k : Nat} {e e' : Expr XReal} (h : Below S k e) (hr : Reg p e)
    (hs : VM.simplified e = .ok e') : Below S k e' ∧ canSimplify e' = .ok false := by
  have := simplified_induct (P := fun e => Below S k e ∧ Reg p e)
    (fun e e' hp h => ⟨h.1.pass h.2 hp, (hp.reg h.2).1⟩) hs ⟨h, hr⟩
  exact ⟨this.1.1, this.2⟩

theorem Below.diff {i : Nat} (hi : S i) {k : Nat} {e e' : Expr XReal} (h : Below S (k + 1) e) (hr : Reg p e)
    (hd : VM.diff (.var i) e = .ok e') : Below S k e' ∧ canSimplify e' = .ok false := by
  obtain ⟨d, hd, hs⟩ := Res.bind_eq_ok.1 hd
  exact (h.diffE hi hd).simplified (hr.diffE hd) hs

/-- What is left of an expression that cannot be simplified any more has no part that is 0 by its shape. -/
theorem canSimplify_operands {op : BOp} {l r : Expr XReal} (ho : IsArithOp op) (hc : canSimplify (.bin op l r) = .ok false) :
    canSimplify l = .ok false ∧ canSimplify r = .ok false := by
  rcases ho with rfl | rfl | rfl | rfl <;> simp only [canSimplify] at hc
  · split at hc
    · cases hc
    · exact either_false (constCheck_false (constCheck_false hc))
  · split at hc
    · cases hc
    · exact either_false (constCheck_false (constCheck_false hc))
  · split at hc
    · cases hc
    · have h1 := constCheck_false (constCheck_false hc)
      split at h1
      · cases h1
      · exact either_false h1
  · split at hc
    · cases hc
    · exact either_false (constCheck_false (constCheck_false hc))

theorem Below.degree {k : Nat} {e : Expr XReal} (h : Below S k e) (hk : 0 < k) (hc : canSimplify e = .ok false) :
    ∃ m < k, DegreeIn S m e := by
  induction h with
  | zero h =>
    rw [h.final hc]
    exact ⟨0, hk, .coef (.const _) fun i _ => free_const _ i⟩
  | free h1 h2 => exact ⟨0, hk, .coef h1 h2⟩
  | var h => exact ⟨1, by omega, .var h⟩
  | plus _ _ ihl ihr =>
    obtain ⟨h1, h2⟩ := canSimplify_operands (.inl rfl) hc
    obtain ⟨a, ha, h1⟩ := ihl hk h1
    obtain ⟨b, hb, h2⟩ := ihr hk h2
    exact ⟨max a b, by omega, .plus h1 h2⟩
  | minus _ _ ihl ihr =>
    obtain ⟨h1, h2⟩ := canSimplify_operands (.inr (.inl rfl)) hc
    obtain ⟨a, ha, h1⟩ := ihl hk h1
    obtain ⟨b, hb, h2⟩ := ihr hk h2
    exact ⟨max a b, by omega, .minus h1 h2⟩
  | mult _ _ h3 ihl ihr =>
    obtain ⟨h1, h2⟩ := canSimplify_operands (.inr (.inr (.inl rfl))) hc
    obtain ⟨a, ha, h1⟩ := ihl (by omega) h1
    obtain ⟨b, hb, h2⟩ := ihr (by omega) h2
    exact ⟨a + b, by omega, .mult h1 h2⟩
  | div _ h1 h2 ih =>
    obtain ⟨h3, -⟩ := canSimplify_operands (.inr (.inr (.inr rfl))) hc
    obtain ⟨a, ha, h3⟩ := ih hk h3
    exact ⟨a, ha, .div h3 h1 h2⟩

/-! ### Again and again -/

theorem Below.diffs {is : List (Fin n)} (hi : ∀ i ∈ is, S i.val) {k : Nat} {e e' : Expr XReal}
    (h : Below S (k + is.length) e) (hr : Reg p e) (hc : is = [] → canSimplify e = .ok false)
    (hd : Spec.diffs (is.map Fin.val) e = .ok e') : Below S k e' ∧ canSimplify e' = .ok false := by
  induction is generalizing e with
  | nil =>
    simp only [List.map_nil, Spec.diffs, Res.ok.injEq] at hd
    subst hd
    exact ⟨h, hc rfl⟩
  | cons i is ih =>
    simp only [List.map_cons, Spec.diffs] at hd
    obtain ⟨d, h1, h2⟩ := Res.bind_eq_ok.1 hd
    obtain ⟨h3, h4⟩ := Below.diff (hi i (by simp)) (h.mono (m := k + is.length + 1) (by simp; omega)) hr h1
    exact ih (fun j hj => hi j (by simp [hj])) h3 (hr.diff h1) (fun _ => h4) h2

/-! ### Without functions -/

theorem Spec.NoFns.diffE {x : DVar} {e d : Expr XReal} (h : NoFns e) (hd : VM.diffE x e = .ok d) : NoFns d := by
  induction h generalizing d with
  | const => simp only [VM.diffE, Res.ok.injEq] at hd; subst hd; exact .const _
  | var => simp only [VM.diffE, Res.ok.injEq] at hd; subst hd; exact .const _
  | bin ho hl hr ihl ihr =>
    rcases ho with rfl | rfl | rfl | rfl <;> simp only [VM.diffE, diffBin] at hd
    all_goals
      obtain ⟨l', hl', hd⟩ := Res.bind_eq_ok.1 hd
      obtain ⟨r', hr', rfl⟩ := Res.map_eq_ok.1 hd
      have h1 := ihl hl'
      have h2 := ihr hr'
    · exact .bin (.inl rfl) h1 h2
    · exact .bin (.inr (.inl rfl)) h1 h2
    · exact .bin (.inl rfl) (.bin (.inr (.inr (.inl rfl))) h1 hr) (.bin (.inr (.inr (.inl rfl))) hl h2)
    · exact .bin (.inr (.inr (.inr rfl))) (.bin (.inr (.inl rfl)) (.bin (.inr (.inr (.inl rfl))) h1 hr)
        (.bin (.inr (.inr (.inl rfl))) hl h2)) (.bin (.inr (.inr (.inl rfl))) hr hr)

theorem Spec.NoFns.pass {e e' : Expr XReal} (h : NoFns e) (hp : Pass e e') : NoFns e' := by
  induction hp with
  | const | var | fsym | vec => exact h
  | unFold | fold | multZeroL | multZeroR | divZeroL => exact .const _
  | unConst | un | integConst | integ => cases h
  | plusZeroL _ _ _ _ _ ih => cases h with | bin _ h1 h2 => exact ih h2
  | plusZeroR _ _ _ _ _ ih => cases h with | bin _ h1 h2 => exact ih h1
  | minusZeroL _ _ _ _ _ ih =>
    cases h with | bin _ h1 h2 => exact .bin (.inr (.inr (.inl rfl))) (.const _) (ih h2)
  | minusZeroR _ _ _ _ _ ih => cases h with | bin _ h1 h2 => exact ih h1
  | multOneL _ _ _ _ _ ih => cases h with | bin _ h1 h2 => exact ih h2
  | multOneR _ _ _ _ _ ih => cases h with | bin _ h1 h2 => exact ih h1
  | divOneR _ _ _ _ _ ih => cases h with | bin _ h1 h2 => exact ih h1
  | constL _ _ _ _ _ _ ih => cases h with | bin ho h1 h2 => exact .bin ho (.const _) (ih h2)
  | constR _ _ _ _ _ _ ih => cases h with | bin ho h1 h2 => exact .bin ho (ih h1) (.const _)
  | dotp => cases h with | bin _ h1 _ => cases h1
  | cong _ _ _ _ _ _ ih1 ih2 => cases h with | bin ho h1 h2 => exact .bin ho (ih1 h1) (ih2 h2)
  | uid => exact h

theorem Spec.NoFns.diffs {is : List Nat} {e e' : Expr XReal} (h : NoFns e) (hd : Spec.diffs is e = .ok e') :
    NoFns e' := by
  induction is generalizing e with
  | nil => simp only [Spec.diffs, Res.ok.injEq] at hd; subst hd; exact h
  | cons i is ih =>
    obtain ⟨d, h1, h2⟩ := Res.bind_eq_ok.1 hd
    obtain ⟨d', h3, h4⟩ := Res.bind_eq_ok.1 h1
    exact ih (simplified_induct (P := NoFns) (fun _ _ hp h => h.pass hp) h4 (h.diffE h3)).1 h2

theorem Spec.NoFns.number {e : Expr XReal} (h : NoFns e) (hv : ∀ i, ¬ Occurs i e) (hc : canSimplify e = .ok false) :
    ∃ c, e = .const c := by
  induction h with
  | const c => exact ⟨c, rfl⟩
  | var i => exact absurd .var (hv i)
  | bin ho _ _ ihl ihr =>
    obtain ⟨h1, h2⟩ := canSimplify_operands ho hc
    obtain ⟨a, rfl⟩ := ihl (fun i h => hv i (.binL h)) h1
    obtain ⟨b, rfl⟩ := ihr (fun i h => hv i (.binR h)) h2
    simp [canSimplify, isConst] at hc

/-! ### Regular points -/

theorem Spec.Smooth.reg_update {e : Expr XReal} (h : Smooth e) {i : Fin n} (hi : ¬ Occurs i.val e) (t : ℝ) (hr : Reg p e) :
    Reg (Function.update p i t) e ∧ rv (Function.update p i t) e = rv p e := by
  induction h with
  | const c => exact ⟨hr, rfl⟩
  | var j =>
    have hj : j < n := hr
    have : (⟨j, hj⟩ : Fin n) ≠ i := by rintro rfl; exact hi .var
    exact ⟨hr, by simp [rv, hj, this]⟩
  | fn _ _ ih =>
    obtain ⟨h1, h2⟩ := hr
    obtain ⟨h3, h4⟩ := ih (fun h => hi (.un h)) h1
    exact ⟨⟨h3, by rw [h4]; exact h2⟩, by simp [rv, h4]⟩
  | bin _ _ _ ihl ihr =>
    obtain ⟨h1, h2, h3⟩ := hr
    obtain ⟨h4, h5⟩ := ihl (fun h => hi (.binL h)) h1
    obtain ⟨h6, h7⟩ := ihr (fun h => hi (.binR h)) h2
    exact ⟨⟨h4, h6, by rw [h7]; exact h3⟩, by simp [rv, h5, h7]⟩

theorem Spec.DegreeIn.reg_update {i : Fin n} {m : Nat} {e : Expr XReal} (h : DegreeIn (· = i.val) m e) (t : ℝ)
    (hr : Reg p e) : Reg (Function.update p i t) e := by
  induction h with
  | coef h1 h2 => exact (h1.reg_update (h2 _ rfl) t hr).1
  | var => exact hr
  | plus _ _ ihl ihr => exact ⟨ihl hr.1, ihr hr.2.1, trivial⟩
  | minus _ _ ihl ihr => exact ⟨ihl hr.1, ihr hr.2.1, trivial⟩
  | mult _ _ ihl ihr => exact ⟨ihl hr.1, ihr hr.2.1, trivial⟩
  | div _ h1 h2 ih =>
    obtain ⟨h3, h4⟩ := h1.reg_update (h2 _ rfl) t hr.2.1
    exact ⟨ih hr.1, h3, by rw [h4]; exact hr.2.2⟩

end VM
