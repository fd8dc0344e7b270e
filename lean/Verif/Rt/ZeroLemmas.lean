import Verif.Rt.DiffLemmas
/-
Derivatives of expressions that do not contain the variable, also where operations on constants are undefined, for C13.
-/
namespace VM
open Spec

/-- As `Zero`, with undefined constants. -/
inductive ZeroU : Expr XReal → Prop
  | const : ZeroU (.const (some 0))
  | undef : ZeroU (.const none)
  | plus {l r} : ZeroU l → ZeroU r → ZeroU (.bin .plus l r)
  | minus {l r} : ZeroU l → ZeroU r → ZeroU (.bin .minus l r)
  | multL {l r} : ZeroU l → ZeroU (.bin .mult l r)
  | multR {l r} : ZeroU r → ZeroU (.bin .mult l r)
  | div {l r} : ZeroU l → ZeroU (.bin .div l r)

theorem Zero.zeroU {e : Expr XReal} (h : Zero e) : ZeroU e := by
  induction h with
  | const => exact .const
  | plus _ _ h1 h2 => exact .plus h1 h2
  | minus _ _ h1 h2 => exact .minus h1 h2
  | multL _ h => exact .multL h
  | multR _ h => exact .multR h
  | div _ h => exact .div h

theorem ZeroU.zero {e : Expr XReal} (h : ZeroU e) : Zero e ∨ Spec.Sub (.const none) e := by
  induction h with
  | const => exact .inl .const
  | undef => exact .inr .refl
  | plus _ _ h1 h2 =>
    rcases h1 with h1 | h1
    · rcases h2 with h2 | h2
      · exact .inl (.plus h1 h2)
      · exact .inr (.binR h2)
    · exact .inr (.binL h1)
  | minus _ _ h1 h2 =>
    rcases h1 with h1 | h1
    · rcases h2 with h2 | h2
      · exact .inl (.minus h1 h2)
      · exact .inr (.binR h2)
    · exact .inr (.binL h1)
  | multL _ h => exact h.imp .multL .binL
  | multR _ h => exact h.imp .multR .binR
  | div _ h => exact h.imp .div .binL

theorem ZeroU.of {c : XReal} (h : c = some 0 ∨ c = none) : ZeroU (.const c) := by
  rcases h with rfl | rfl
  · exact .const
  · exact .undef

theorem ZeroU.unwrap {e : Expr XReal} (h : ZeroU e) {c : XReal} (hu : unwrap leftFirst e = .ok c) :
    c = some 0 ∨ c = none := by
  induction h generalizing c with
  | const => cases hu; exact .inl rfl
  | undef => cases hu; exact .inr rfl
  | plus _ _ h1 h2 =>
    obtain ⟨x, y, hx, hy, h⟩ := Res.both_eq_ok.1 hu
    simp only [applyB, Res.ok.injEq] at h
    subst h
    rcases h1 hx with rfl | rfl <;> rcases h2 hy with rfl | rfl <;> simp [Num.add, XReal.lift2]
  | minus _ _ h1 h2 =>
    obtain ⟨x, y, hx, hy, h⟩ := Res.both_eq_ok.1 hu
    simp only [applyB, Res.ok.injEq] at h
    subst h
    rcases h1 hx with rfl | rfl <;> rcases h2 hy with rfl | rfl <;> simp [Num.sub, XReal.lift2]
  | multL _ h1 =>
    obtain ⟨x, y, hx, hy, h⟩ := Res.both_eq_ok.1 hu
    simp only [applyB, Res.ok.injEq] at h
    subst h
    rcases h1 hx with rfl | rfl <;> cases y <;> simp [Num.mul, XReal.lift2]
  | multR _ h1 =>
    obtain ⟨x, y, hx, hy, h⟩ := Res.both_eq_ok.1 hu
    simp only [applyB, Res.ok.injEq] at h
    subst h
    rcases h1 hy with rfl | rfl <;> cases x <;> simp [Num.mul, XReal.lift2]
  | div _ h1 =>
    obtain ⟨x, y, hx, hy, h⟩ := Res.both_eq_ok.1 hu
    simp only [applyB, Res.ok.injEq] at h
    subst h
    rcases h1 hx with rfl | rfl
    · rcases y with _ | y
      · simp [Num.div, XReal.div]
      · by_cases hy : y = 0 <;> simp [Num.div, XReal.div, hy]
    · simp [Num.div, XReal.div]

theorem ZeroU.not_one {e : Expr XReal} (h : ZeroU e) {c : XReal} (hu : VM.unwrap leftFirst e = .ok c) :
    Num.eqb c (Num.lit 1) ≠ true := by
  rcases h.unwrap hu with rfl | rfl
  · rw [XReal.one_ne]; simp
  · simp [Num.eqb, XReal.eqb]

theorem ZeroU.pass {e e' : Expr XReal} (hp : Pass e e') (h : ZeroU e) : ZeroU e' := by
  have lit0 : ZeroU (.const (Num.lit 0)) := by
    simpa [Num.lit] using ZeroU.const
  induction hp with
  | const | var | fsym | vec | uid => exact h
  | unFold | unConst | un | integConst | integ => cases h
  | fold h1 h2 hu => exact .of (h.unwrap hu)
  | multZeroL | multZeroR | divZeroL => exact lit0
  | dotp hd =>
    cases h with
    | multL h => cases h
    | multR h => cases h
  | plusZeroL _ _ _ _ _ ih => cases h with | plus _ h => exact ih h
  | plusZeroR _ _ _ _ _ ih => cases h with | plus h _ => exact ih h
  | minusZeroL _ _ _ _ _ ih => cases h with | minus _ h => exact .multR (ih h)
  | minusZeroR _ _ _ _ _ ih => cases h with | minus h _ => exact ih h
  | multOneL _ _ h3 h4 _ ih =>
    cases h with
    | multL h => exact absurd h4 (h.not_one h3)
    | multR h => exact ih h
  | multOneR _ _ h3 h4 _ ih =>
    cases h with
    | multR h => exact absurd h4 (h.not_one h3)
    | multL h => exact ih h
  | divOneR _ _ _ _ _ ih => cases h with | div h => exact ih h
  | constL _ _ _ h3 _ _ ih =>
    cases h with
    | plus h h' => exact .plus (.of (h.unwrap h3)) (ih h')
    | minus h h' => exact .minus (.of (h.unwrap h3)) (ih h')
    | multL h => exact .multL (.of (h.unwrap h3))
    | multR h => exact .multR (ih h)
    | div h => exact .div (.of (h.unwrap h3))
  | constR _ _ _ h3 _ _ ih =>
    cases h with
    | plus h h' => exact .plus (ih h) (.of (h'.unwrap h3))
    | minus h h' => exact .minus (ih h) (.of (h'.unwrap h3))
    | multL h => exact .multL (ih h)
    | multR h => exact .multR (.of (h.unwrap h3))
    | div h => exact .div (ih h)
  | cong _ _ _ _ _ _ ihl ihr =>
    cases h with
    | plus h h' => exact .plus (ihl h) (ihr h')
    | minus h h' => exact .minus (ihl h) (ihr h')
    | multL h => exact .multL (ihl h)
    | multR h => exact .multR (ihr h)
    | div h => exact .div (ihl h)

theorem ZeroU.simplified {e e' : Expr XReal} (hs : simplified e = .ok e') (h : ZeroU e) :
    e' = .const (some 0) ∨ Spec.Sub (.const none) e' := by
  obtain ⟨h1, h2⟩ := simplified_induct (P := ZeroU) (fun _ _ hp h => h.pass hp) hs h
  exact h1.zero.imp_left fun h => h.final h2

/-- An undefined constant makes the value of everything around it undefined. -/
theorem undefined_of_sub {e : Expr XReal} (h : Spec.Sub (.const none) e) (o : Order XReal) (v : List XReal) (a : ℝ) :
    eval o v e ≠ .ok (some a) := by
  induction h generalizing a with
  | refl => simp [eval]
  | @un op e _ ih =>
    intro h
    obtain ⟨b, hb, h1⟩ := Res.bind_eq_ok.1 h
    cases b with
    | some b => exact ih b hb
    | none =>
      cases op <;> simp [applyU] at h1
      rename_i f
      cases f <;> simp [applyFn, Num.fn, XReal.fn] at h1
  | integ _ _ =>
    intro h
    obtain ⟨b, hb, h1⟩ := Res.bind_eq_ok.1 h
    cases h1
  | @binL op l r _ ih =>
    intro h
    obtain ⟨x, y, hx, hy, h1⟩ := Res.both_eq_ok.1 h
    cases x with
    | some x => exact ih x hx
    | none => cases op <;> simp [applyB, Num.add, Num.sub, Num.mul, Num.div, XReal.lift2, XReal.div] at h1
  | @binR op l r _ ih =>
    intro h
    obtain ⟨x, y, hx, hy, h1⟩ := Res.both_eq_ok.1 h
    cases y with
    | some y => exact ih y hy
    | none => cases op <;> cases x <;> simp [applyB, Num.add, Num.sub, Num.mul, Num.div, XReal.lift2, XReal.div] at h1

end VM
