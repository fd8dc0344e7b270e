import Verif.Rt.DiffLemmas
import Verif.Rt.ZeroLemmas
import Verif.NumRat
/-
Properties C11-C14: run-time differentiation.
-/
namespace VM.Props
open Spec Filter Topology

/-- C11.  For `e` built from constants, variables, smooth functions and `+ - * /`: `diff(e, x_i)` returns
an expression `e'`; at every point `v` where `e` is defined and no square root has argument 0, the function
`f` obtained from `e` by varying `x_i` is defined near the point and has the derivative `e'` evaluates
to. -/
theorem C11_derivative (e : Expr XReal) (i : Nat) (hs : Smooth e) :
    ∃ e', diff (.var i) e = .ok e' ∧
      ∀ (o : Order XReal) (v : List XReal) (x₀ a : ℝ), v[i]? = some (some x₀) →
        eval o v e = .ok (some a) →
        (∀ s, Sub (.un (.fn .sqrt) s) e → eval o v s ≠ .ok (some 0)) →
        ∃ (f : ℝ → ℝ) (f' : ℝ),
          (∀ᶠ t in 𝓝 x₀, eval o (v.set i (some t)) e = .ok (some (f t))) ∧
          HasDerivAt f f' x₀ ∧ eval o v e' = .ok (some f') := by
  have hd : ∃ d, diffE (.var i) e = .ok d := by
    rcases diffE_cases (i := i) hs.sym.wellFormed with ⟨h, _⟩ | ⟨_, h⟩
    · exact absurd h hs.supported
    · exact h
  obtain ⟨d, hd⟩ := hd
  obtain ⟨e', he'⟩ := simplified_ok_arith (diffE_arith hs.arith hd)
  refine ⟨e', by simp [diff, hd, he'], fun o v x₀ a hi he hq => ?_⟩
  have hlt : i < v.length := (List.getElem?_eq_some_iff.1 hi).1
  have hv : v.set i (some x₀) = v := by
    apply List.ext_getElem?
    intro j
    by_cases hj : i = j
    · subst hj; rw [hi]; simp [hlt]
    · simp [List.getElem?_set_ne hj]
  have H : Varies (.var i) (fun _ => Interp.none) (fun t => ofVec (v.set i (some t))) x₀ := by
    refine ⟨?_, ?_, ?_, ?_⟩
    · intro j hj t; cases hj; simp [ofVec, hlt]
    · intro j hj t
      have : i ≠ j := fun h => hj (by rw [h])
      simp [ofVec, List.getElem?_set_ne this]
    · intro j u hj; cases hj
    · intros; rfl
  obtain ⟨d', hd', f, f', h1, h2, h3, h4⟩ := diffE_deriv H hs.sym (.inr hs) (a := a)
    (by simp only [hv]; exact .of_eval he)
    (by
      intro s hsub hval
      simp only [hv] at hval
      refine hq s hsub (hval.eval o ?_)
      have := hs.arith
      clear * - this hsub
      induction hsub with
      | refl => cases this; assumption
      | un _ ih => cases this; exact ih ‹_›
      | integ _ ih => cases this
      | binL _ ih => cases this; exact ih ‹_›
      | binR _ ih => cases this; exact ih ‹_›)
  obtain rfl : d = d' := by simpa [hd] using hd'
  refine ⟨f, f', h1.mono fun t h => h.eval o hs.arith, h3, ?_⟩
  simp only [hv] at h4
  exact simplified_value he' o v (h4.eval o (diffE_arith hs.arith hd)) (by simp [SimpLaws.bad])

/-- `log(x0) * x1 + sqrt(x0)` at `(1, 2)` meets the hypotheses. -/
example : ∃ a : ℝ,
    let e : Expr XReal := .bin .plus (.bin .mult (.un (.fn .log) (.var 0)) (.var 1)) (.un (.fn .sqrt) (.var 0))
    Smooth e ∧ eval leftFirst [some 1, some 2] e = .ok (some a) ∧
    ∀ s, Sub (.un (.fn .sqrt) s) e → eval leftFirst [some 1, some 2] s ≠ .ok (some 0) := by
  refine ⟨1, ?_, ?_, ?_⟩
  · exact .bin (.inl rfl) (.bin (.inr (.inr (.inl rfl))) (.fn (by decide) (.var 0)) (.var 1))
      (.fn (by decide) (.var 0))
  · have h0 : ¬ ((1:ℝ) ≤ 0) := by norm_num
    have h1 : ¬ ((1:ℝ) < 0) := by norm_num
    simp [eval, applyU, applyFn, Num.fn, XReal.fn, h0, h1, applyB, Num.mul, Num.add, XReal.lift2]
  · intro s hs
    have : s = .var 0 := by
      cases hs with
      | binL h => cases h with
        | binL h => cases h with | un h => cases h
        | binR h => cases h
      | binR h => cases h with
        | refl => rfl
        | un h => cases h
    subst this
    simp [eval]

/-- C12.  `diff(e, x_i)` throws the not-differentiable exception if `e` contains an unsupported node
anywhere, and returns an expression otherwise.  All well-formed expressions whose vectors have the same
positive size. -/
theorem C12_refuses {K : Type} [Num K] (n : Nat) (hn : 0 < n) (e : Expr K) (i : Nat) (hw : WellFormed e)
    (hd : VecDim n e) :
    (Unsupported e → diff (.var i) e = .throw .notDifferentiable) ∧
    (¬ Unsupported e → ∃ e', diff (.var i) e = .ok e') := by
  rcases diffE_cases (i := i) hw with ⟨h, h'⟩ | ⟨h, d, h'⟩
  · exact ⟨fun _ => by simp [diff, h'], fun hu => absurd h hu⟩
  · refine ⟨fun hu => absurd hu h, fun _ => ?_⟩
    obtain ⟨e', he'⟩ := simplified_ok hn (diffE_wellFormed hw h') (diffE_vecDim hd h')
    exact ⟨e', by simp [diff, h', he']⟩

example : diff (.var 0) (.bin .mult (.var 1) (.un (.fn .exp) (.un (.fn .fabs) (.var 0))) : Expr XRat) =
      .throw .notDifferentiable ∧
    diff (.var 0) (.vec [.bin .mult (.var 0) (.var 0), .var 1] : Expr XRat) =
      .ok (.vec [.bin .plus (.bin .mult (.const (some 1)) (.var 0)) (.bin .mult (.var 0) (.const (some 1))),
        .const (some 0)]) := ⟨by with_unfolding_all rfl, by with_unfolding_all rfl⟩

/-- C13, the part that holds: if `x_i` does not occur in the smooth expression `e`, and there is some point
at which `e` is defined and no square root in it has argument 0, then `diff(e, x_i)` is the constant 0.

Missing from the full claim ("... `e` differentiable with finite constants" without a point as above):
false, see `C13_not_zero`. -/
theorem C13_zero_partial (e : Expr XReal) (i : Nat) (hs : Smooth e) (hi : ¬ Occurs i e)
    (o : Order XReal) (v : List XReal) (a : ℝ) (he : eval o v e = .ok (some a))
    (hq : ∀ s, Sub (.un (.fn .sqrt) s) e → eval o v s ≠ .ok (some 0)) :
    diff (.var i) e = .ok (.const (some 0)) := by
  have H : Varies (.fsym 0 0) (fun t => { (Interp.none : Interp XReal) with
      sym := fun j u => if j = 0 ∧ u = 0 then some (some t) else none }) (fun _ => ofVec v) 0 := by
    refine ⟨?_, ?_, ?_, ?_⟩
    · intro j hj; cases hj
    · intros; rfl
    · intro j u hj; cases hj; simp
    · intro j u hj t
      have : ¬ (j = 0 ∧ u = 0) := by rintro ⟨rfl, rfl⟩; exact hj rfl
      simp [this]
  obtain ⟨d', hd', f, f', _, _, _, h4⟩ := diffE_deriv H hs.sym (.inr hs) (.of_eval he)
    (by
      intro s hsub hval
      refine hq s hsub (hval.eval o ?_)
      have := hs.arith
      clear * - this hsub
      induction hsub with
      | refl => cases this; assumption
      | un _ ih => cases this; exact ih ‹_›
      | integ _ ih => cases this
      | binL _ ih => cases this; exact ih ‹_›
      | binR _ ih => cases this; exact ih ‹_›)
  have hsame : diffE (.var i) e = diffE (.fsym 0 0) e := by
    clear * - hs hi
    induction hs with
    | const => rfl
    | var j =>
      have : i ≠ j := by rintro rfl; exact hi .var
      simp [diffE, this]
    | fn _ _ ih => rw [diffE, diffE, ih fun h => hi (.un h)]
    | bin _ _ _ ihl ihr => rw [diffE, diffE, ihl fun h => hi (.binL h), ihr fun h => hi (.binR h)]
  have hz : Zero d' := diffE_zero (x := .var i) hs.sym (fun j hj => by cases hj; exact hi) (by simp)
    (hsame.trans hd')
  obtain ⟨e', he'⟩ := simplified_ok_arith (diffE_arith hs.arith hd')
  rw [diff, hsame, hd', Res.bind_ok, he', hz.simplified he' h4 (fun _ h => h.elim)]

/-- The derivative of `exp(x1) / x1` with respect to `x0` at `x1 = 1`. -/
example : Smooth (.bin .div (.un (.fn .exp) (.var 1)) (.var 1) : Expr XReal) ∧
    ¬ Occurs 0 (.bin .div (.un (.fn .exp) (.var 1)) (.var 1) : Expr XReal) ∧
    (∃ a, eval leftFirst [some 0, some 1] (.bin .div (.un (.fn .exp) (.var 1)) (.var 1) : Expr XReal) =
      .ok (some a)) ∧
    ∀ s, ¬ Sub (.un (.fn .sqrt) s) (.bin .div (.un (.fn .exp) (.var 1)) (.var 1) : Expr XReal) := by
  refine ⟨.bin (.inr (.inr (.inr rfl))) (.fn (by decide) (.var 1)) (.var 1), ?_, ?_, ?_⟩
  · intro h
    cases h with
    | binL h => cases h with | un h => cases h
    | binR h => cases h
  · simp [eval, applyU, applyFn, Num.fn, XReal.fn, applyB, Num.div, XReal.div]
  · intro s h
    cases h with
    | binL h => cases h with | un h => cases h
    | binR h => cases h

/-- C13, without any condition on the values: if `x_i` does not occur in the smooth expression `e`, then `diff(e, x_i)` is
the constant 0, or else it has an undefined constant inside and no value anywhere. -/
theorem C13_zero_or_undefined (e : Expr XReal) (i : Nat) (hs : Smooth e) (hi : ¬ Occurs i e) :
    diff (.var i) e = .ok (.const (some 0)) ∨
    ∃ d, diff (.var i) e = .ok d ∧ Sub (.const none) d ∧ ∀ o v a, eval o v d ≠ .ok (some a) := by
  obtain ⟨d, hd⟩ : ∃ d, diffE (.var i) e = .ok d := by
    clear hi
    induction hs with
    | const | var => exact ⟨_, rfl⟩
    | @fn f e hf _ ih =>
      obtain ⟨d, hd⟩ := ih
      rw [diffE, hd]
      cases f <;> first | exact absurd rfl hf | exact ⟨_, rfl⟩
    | bin hop _ _ ihl ihr =>
      obtain ⟨l', hl⟩ := ihl
      obtain ⟨r', hr⟩ := ihr
      rw [diffE, hl, hr]
      rcases hop with rfl | rfl | rfl | rfl <;> exact ⟨_, rfl⟩
  have hz : Zero d := diffE_zero (x := .var i) hs.sym (fun j hj => by cases hj; exact hi) (by simp) hd
  obtain ⟨e', he'⟩ := simplified_ok_arith (diffE_arith hs.arith hd)
  rw [diff, hd, Res.bind_ok, he']
  rcases hz.zeroU.simplified he' with rfl | h
  · exact .inl rfl
  · exact .inr ⟨e', rfl, h, undefined_of_sub h⟩

/-- C13, negation of the full claim: `sqrt(0 / x1)` has finite constants, does not contain `x0`, and is 0
wherever `x1 ≠ 0`; its derivative with respect to `x0` is the undefined constant `0/0`. -/
theorem C13_not_zero :
    let e : Expr XReal := .un (.fn .sqrt) (.bin .div (.const (some 0)) (.var 1))
    Smooth e ∧ ¬ Occurs 0 e ∧ (∀ x y : ℝ, y ≠ 0 → eval leftFirst [some x, some y] e = .ok (some 0)) ∧
    diff (.var 0) e = .ok (.const none) := by
  refine ⟨.fn (by decide) (.bin (.inr (.inr (.inr rfl))) (.const _) (.var 1)), ?_, ?_, ?_⟩
  · intro h
    cases h with | un h => cases h with
    | binL h => cases h
    | binR h => cases h
  · intro x y hy
    simp [eval, applyU, applyFn, Num.fn, XReal.fn, applyB, Num.div, XReal.div, hy]
  · simp only [diff, diffE, diffFn, diffBin, Res.bind_ok, Res.map_ok]
    iterate 4
      rw [simplified_eq]
      simp [canSimplify, canBin, constCheck, isConst, unwrap, simplify, simpBin, applyB, UOp.canSimplify,
        applyU, applyFn, Num.lit, Num.eqb, Num.mul, Num.div, Num.fn, XReal.eqb, XReal.lift2,
        XReal.div, XReal.fn]

/-- Function symbols have the values `sym`; nothing else symbolic has a value. -/
def symbols (sym : Nat → Nat → Option XReal) : Interp XReal := { (Interp.none : Interp XReal) with sym := sym }

/-- `sym` with the value of the symbol `(i, t)` changed. -/
def setSymbol (sym : Nat → Nat → Option XReal) (i t : Nat) (x : ℝ) : Nat → Nat → Option XReal :=
  fun j u => if j = i ∧ u = t then some (some x) else sym j u

theorem setSymbol_varies (sym : Nat → Nat → Option XReal) (ρ : Nat → Option XReal) (i t : Nat) (x₀ : ℝ) :
    Varies (.fsym i t) (fun x => symbols (setSymbol sym i t x)) (fun _ => ρ) x₀ := by
  refine ⟨?_, ?_, ?_, ?_⟩
  · intro j hj; cases hj
  · intros; rfl
  · intro j u hj x; cases hj; simp [symbols, setSymbol]
  · intro j u hj x
    have : ¬ (j = i ∧ u = t) := by rintro ⟨rfl, rfl⟩; exact hj rfl
    simp [symbols, setSymbol, this]

theorem setSymbol_self {sym : Nat → Nat → Option XReal} {i t : Nat} {x : ℝ} (h : sym i t = some (some x)) :
    setSymbol sym i t x = sym := by
  funext j u
  simp only [setSymbol]
  split
  · next h' => rw [h'.1, h'.2, h]
  · rfl

/-- C14.  For `e` built from constants, variables, function symbols, smooth functions and `+ - * /`:
`diff(e, u)` with respect to the function symbol `u = (i, t)` returns an expression `e'`; wherever `e` is
defined and no square root has argument 0, `e'` has the value of the derivative of `e` in the value of
`u`. -/
theorem C14_symbol_derivative (e : Expr XReal) (i t : Nat) (hs : SmoothSym e) :
    ∃ e', diff (.fsym i t) e = .ok e' ∧
      ∀ (sym : Nat → Nat → Option XReal) (ρ : Nat → Option XReal) (x₀ a : ℝ),
        sym i t = some (some x₀) → Val (symbols sym) ρ e (some a) →
        (∀ s, Sub (.un (.fn .sqrt) s) e → ¬ Val (symbols sym) ρ s (some 0)) →
        ∃ (f : ℝ → ℝ) (f' : ℝ),
          (∀ᶠ x in 𝓝 x₀, Val (symbols (setSymbol sym i t x)) ρ e (some (f x))) ∧
          HasDerivAt f f' x₀ ∧ Val (symbols sym) ρ e' (some f') := by
  obtain ⟨d, hd⟩ := diffE_fsym_ok (i := i) (t := t) hs
  obtain ⟨e', he'⟩ := simplified_ok Nat.one_pos (diffE_wellFormed hs.wellFormed hd)
    (diffE_vecDim (hs.vecDim 1) hd)
  refine ⟨e', by simp [diff, hd, he'], fun sym ρ x₀ a hx he hq => ?_⟩
  have hself := setSymbol_self hx
  obtain ⟨d', hd', f, f', h1, h2, h3, h4⟩ := diffE_deriv (setSymbol_varies sym ρ i t x₀) hs
    (.inl ⟨i, t, rfl⟩) (a := a) (by simpa only [hself] using he) (by simpa only [hself] using hq)
  obtain rfl : d = d' := by simpa [hd] using hd'
  refine ⟨f, f', h1, h3, ?_⟩
  simp only [hself] at h4
  exact simplified_val he' (I := symbols sym) (fun _ h => h.elim) h4 (by simp [SimpLaws.bad])

/-- C14, other symbols: if the symbol does not occur in `e`, the derivative is the constant 0 (under the
hypothesis of C13: there are values at which `e` is defined and no square root has argument 0). -/
theorem C14_other_symbol (e : Expr XReal) (i t : Nat) (hs : SmoothSym e) (hi : ¬ Sub (.fsym i t) e)
    (sym : Nat → Nat → Option XReal) (ρ : Nat → Option XReal) (a : ℝ)
    (he : Val (symbols sym) ρ e (some a))
    (hq : ∀ s, Sub (.un (.fn .sqrt) s) e → ¬ Val (symbols sym) ρ s (some 0)) :
    diff (.fsym i t) e = .ok (.const (some 0)) := by
  obtain ⟨d, hd⟩ := diffE_fsym_ok (i := i) (t := t) hs
  obtain ⟨e', he'⟩ := simplified_ok Nat.one_pos (diffE_wellFormed hs.wellFormed hd)
    (diffE_vecDim (hs.vecDim 1) hd)
  have key : ∀ e b, SmoothSym e → ¬ Sub (.fsym i t) e →
      (Val (symbols sym) ρ e (some b) ↔ Val (symbols (setSymbol sym i t 0)) ρ e (some b)) := by
    intro e b hs hi
    induction hs generalizing b with
    | const c => exact ⟨fun h => by cases h; exact .const, fun h => by cases h; exact .const⟩
    | var j => exact ⟨fun h => by cases h; exact .var ‹_›, fun h => by cases h; exact .var ‹_›⟩
    | fsym j u =>
      have : ¬ (j = i ∧ u = t) := by rintro ⟨rfl, rfl⟩; exact hi .refl
      have h' : (symbols (setSymbol sym i t 0)).sym j u = (symbols sym).sym j u := by
        simp [symbols, setSymbol, this]
      exact ⟨fun h => by cases h; exact .fsym (h'.trans ‹_›), fun h => by cases h; exact .fsym (h'.symm.trans ‹_›)⟩
    | fn _ _ ih =>
      constructor
      · intro h
        obtain ⟨c, hc, h⟩ := h.fn_inv
        rw [← h]; exact .fn ((ih c fun h => hi (.un h)).1 hc)
      · intro h
        obtain ⟨c, hc, h⟩ := h.fn_inv
        rw [← h]; exact .fn ((ih c fun h => hi (.un h)).2 hc)
    | @bin op l r _ hl _ ihl ihr =>
      have hnv : ∀ es, l ≠ .vec es := by rintro es rfl; cases hl
      constructor
      · intro h
        obtain ⟨y, z, hy, hz, h⟩ := h.bin_inv hnv
        obtain ⟨y, z, rfl, rfl⟩ := opVal_some h
        exact .bin ((ihl y fun h => hi (.binL h)).1 hy) ((ihr z fun h => hi (.binR h)).1 hz) h
      · intro h
        obtain ⟨y, z, hy, hz, h⟩ := h.bin_inv hnv
        obtain ⟨y, z, rfl, rfl⟩ := opVal_some h
        exact .bin ((ihl y fun h => hi (.binL h)).2 hy) ((ihr z fun h => hi (.binR h)).2 hz) h
  have hsub : ∀ {s e : Expr XReal}, SmoothSym e → Sub (.un (.fn .sqrt) s) e → SmoothSym s ∧
      (¬ Sub (.fsym i t) e → ¬ Sub (.fsym i t) s) := by
    intro s e hs h
    induction h with
    | refl => cases hs; exact ⟨‹_›, fun h h' => h (.un h')⟩
    | un _ ih => cases hs; exact ⟨(ih ‹_›).1, fun h => (ih ‹_›).2 fun h' => h (.un h')⟩
    | integ => cases hs
    | binL _ ih => cases hs; exact ⟨(ih ‹_›).1, fun h => (ih ‹_›).2 fun h' => h (.binL h')⟩
    | binR _ ih => cases hs; exact ⟨(ih ‹_›).1, fun h => (ih ‹_›).2 fun h' => h (.binR h')⟩
  obtain ⟨d', hd', f, f', _, _, _, h4⟩ := diffE_deriv (setSymbol_varies sym ρ i t 0) hs
    (.inl ⟨i, t, rfl⟩) ((key e a hs hi).1 he)
    (fun s h h' => hq s h ((key s 0 (hsub hs h).1 ((hsub hs h).2 hi)).2 h'))
  obtain rfl : d = d' := by simpa [hd] using hd'
  have hz : Zero d := diffE_zero (x := .fsym i t) hs (by simp) (fun j u hj => by cases hj; exact hi) hd
  rw [diff, hd, Res.bind_ok, he', hz.simplified he' h4 (fun _ h => h.elim)]

/-- `u * exp(v) + x0` with `u = 2`, `v = 0`, `x0 = 1` meets the hypotheses. -/
example : ∃ a : ℝ,
    let e : Expr XReal := .bin .plus (.bin .mult (.fsym 0 0) (.un (.fn .exp) (.fsym 0 1))) (.var 0)
    SmoothSym e ∧ Val (symbols fun _ t => if t = 0 then some (some 2) else some (some 0)) (fun _ => some (some 1)) e
      (some a) ∧ (∀ s, ¬ Sub (.un (.fn .sqrt) s) e) ∧ ¬ Sub (.fsym 1 0) e := by
  refine ⟨2 * Real.exp 0 + 1, ?_, ?_, ?_, ?_⟩
  · exact .bin (.inl rfl) (.bin (.inr (.inr (.inl rfl))) (.fsym 0 0) (.fn (by decide) (.fsym 0 1))) (.var 0)
  · exact .bin (.bin (.fsym rfl) (.fn (.fsym rfl)) rfl) (.var rfl) rfl
  · intro s h
    cases h with
    | binL h => cases h with
      | binL h => cases h
      | binR h => cases h with | un h => cases h
    | binR h => cases h
  · intro h
    cases h with
    | binL h => cases h with
      | binL h => cases h
      | binR h => cases h with | un h => cases h
    | binR h => cases h

end VM.Props
