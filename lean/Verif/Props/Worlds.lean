import Verif.Props.Inverse
import Verif.Props.CtConvert
import Verif.Props.CtSimplify
import Verif.Props.Simplify
import Verif.Ct.EvalFnLemmas
/-
Property C92: compile-time and run-time manipulation agree.
-/
namespace VM.Props
open Spec VM.Ct
variable {K : Type} [Num K]

/-! ### Differentiation -/

theorem diffE_image (i : Nat) {e : CtExpr} (h : NoSym e) :
    ∃ d, ctDiff i e = some d ∧ NoSym d ∧ diffE (.var i) (image e : Expr K) = .ok (image d) := by
  induction e with
  | const n => exact ⟨♯0, rfl, trivial, rfl⟩
  | var j =>
    by_cases hj : j = i
    · exact ⟨♯1, by simp [ctDiff, hj], trivial, by simp [image, diffE, hj]⟩
    · exact ⟨♯0, by simp [ctDiff, hj], trivial, by simp [image, diffE, Ne.symm hj]⟩
  | fsym t => exact h.elim
  | bin l op r ihl ihr =>
    obtain ⟨l', h1, h2, h3⟩ := ihl h.1
    obtain ⟨r', h4, h5, h6⟩ := ihr h.2
    have h7 : NoSym l ∧ NoSym r := h
    have hd : ∃ d, ctDiff i (.bin l op r) = some d ∧ (op = .plus → d = l' +' r') ∧ (op = .minus → d = l' -' r') ∧
        (op = .mult → d = (l' *' r) +' (l *' r')) ∧ (op = .div → d = ((l' *' r) -' (l *' r')) /' (r *' r)) := by
      cases op <;> simp [ctDiff, h1, h4]
    obtain ⟨d, hd, e1, e2, e3, e4⟩ := hd
    refine ⟨d, hd, ?_⟩
    cases op
    · rw [e1 rfl]; exact ⟨⟨h2, h5⟩, by simp [image, diffE, h3, h6, COp.toRt, diffBin, Res.bind, Res.map]⟩
    · rw [e2 rfl]; exact ⟨⟨h2, h5⟩, by simp [image, diffE, h3, h6, COp.toRt, diffBin, Res.bind, Res.map]⟩
    · rw [e3 rfl]
      exact ⟨⟨⟨h2, h7.2⟩, ⟨h7.1, h5⟩⟩, by simp [image, diffE, h3, h6, COp.toRt, diffBin, Res.bind, Res.map]⟩
    · rw [e4 rfl]
      exact ⟨⟨⟨⟨h2, h7.2⟩, ⟨h7.1, h5⟩⟩, ⟨h7.2, h7.2⟩⟩,
        by simp [image, diffE, h3, h6, COp.toRt, diffBin, Res.bind, Res.map]⟩

/-- C92.  Differentiating at run time is differentiating at compile time and simplifying the outcome at run time: not only
the same function but the same expression, for every numeric type. -/
theorem C92_diff (i : Nat) (e : CtExpr) (r : Expr K) (h : toRt e = some r) :
    ∃ d r', ctDiff i e = some d ∧ toRt d = some r' ∧ diff (.var i) r = simplified r' := by
  obtain ⟨hn, rfl⟩ := toRt_some h
  obtain ⟨d, h1, h2, h3⟩ := diffE_image (K := K) i hn
  exact ⟨d, image d, h1, by rw [toRt_eq, if_pos (callable_iff.2 h2)], by rw [diff, h3]; rfl⟩

/-! ### Substitution -/

/-- Comparing images finds out whether the expressions are the same, if numbers that stand for different integers differ. -/
theorem deepEq_image (hl : ∀ a b : Int, Num.eqb (Num.lit a : K) (Num.lit b) = decide (a = b)) {e s : CtExpr} (he : NoSym e)
    (hs : NoSym s) : deepEq (image e : Expr K) (image s) = .ok (decide (e = s)) := by
  induction e generalizing s with
  | const n => cases s with
    | const m => simp [image, deepEq, hl, eq_comm]
    | fsym => exact hs.elim
    | _ => simp [image, deepEq]
  | var n => cases s with
    | var m => simp [image, deepEq, eq_comm]
    | fsym => exact hs.elim
    | _ => simp [image, deepEq]
  | fsym => exact he.elim
  | bin l op r ihl ihr => cases s with
    | bin l' op' r' =>
      have ho : (op.toRt = op'.toRt) ↔ op = op' := by cases op <;> cases op' <;> simp [COp.toRt]
      have he : NoSym l ∧ NoSym r := he
      have hs : NoSym l' ∧ NoSym r' := hs
      simp only [image, deepEq, ihl he.1 hs.1, Res.bind, ihr he.2 hs.2, CtExpr.bin.injEq]
      by_cases h1 : l = l' <;> by_cases h2 : op = op' <;> simp [h1, h2, ho]
    | fsym => exact hs.elim
    | _ => simp [image, deepEq]

theorem deepEq_image_var {e : CtExpr} (he : NoSym e) (i : Nat) :
    deepEq (image e : Expr K) (.var i) = .ok (decide (e = .var i)) := by
  cases e with
  | var m => simp [image, deepEq, eq_comm]
  | fsym => exact he.elim
  | _ => simp [image, deepEq]

theorem substE_image {s : CtExpr} {s' : Expr K} {r : CtExpr} (hr : NoSym r)
    (hd : ∀ e, NoSym e → deepEq (image e : Expr K) s' = .ok (decide (e = s))) {e : CtExpr} (he : NoSym e) :
    NoSym (ctSubst s r e) ∧ substE s' (image r : Expr K) (image e) = .ok (image (ctSubst s r e)) := by
  induction e with
  | const n =>
    have h1 := hd _ he
    rw [ctSubst]
    by_cases h : (.const n : CtExpr) = s
    · simp only [if_pos h]
      exact ⟨hr, by simp only [image] at h1 ⊢; simp [substE, h1, h, Res.map]⟩
    · simp only [if_neg h]
      exact ⟨he, by simp only [image] at h1 ⊢; simp [substE, h1, h, Res.map]⟩
  | var n =>
    have h1 := hd _ he
    rw [ctSubst]
    by_cases h : (.var n : CtExpr) = s
    · simp only [if_pos h]
      exact ⟨hr, by simp only [image] at h1 ⊢; simp [substE, h1, h, Res.map]⟩
    · simp only [if_neg h]
      exact ⟨he, by simp only [image] at h1 ⊢; simp [substE, h1, h, Res.map]⟩
  | fsym => exact he.elim
  | bin l op q ihl ihr =>
    have h1 := hd _ he
    have he : NoSym l ∧ NoSym q := he
    rw [ctSubst]
    by_cases h : (.bin l op q : CtExpr) = s
    · simp only [if_pos h]
      exact ⟨hr, by simp only [image] at h1 ⊢; simp [substE, h1, h, Res.bind]⟩
    · simp only [if_neg h]
      refine ⟨⟨(ihl he.1).1, (ihr he.2).1⟩, ?_⟩
      simp only [image] at h1 ⊢
      simp [substE, h1, h, Res.bind, Res.map, (ihl he.1).2, (ihr he.2).2]

/-- C92.  Substituting for a variable at run time is doing so at compile time and simplifying the outcome at run time. -/
theorem C92_substitute_variable (i : Nat) (r e : CtExpr) (r' e' : Expr K) (hr : toRt r = some r') (he : toRt e = some e') :
    ∃ t, toRt (ctSubst (.var i) r e) = some t ∧ substitute (.var i) r' e' = simplified t := by
  obtain ⟨hn, rfl⟩ := toRt_some hr
  obtain ⟨hm, rfl⟩ := toRt_some he
  obtain ⟨h1, h2⟩ := substE_image (K := K) hn (fun e h => deepEq_image_var h i) hm
  exact ⟨_, by rw [toRt_eq, if_pos (callable_iff.2 h1)], by rw [substitute, h2]; rfl⟩

/-- C92.  The same for any searched expression, in every numeric type in which different integers are different numbers. -/
theorem C92_substitute (hl : ∀ a b : Int, Num.eqb (Num.lit a : K) (Num.lit b) = decide (a = b)) (s r e : CtExpr)
    (s' r' e' : Expr K) (hs : toRt s = some s') (hr : toRt r = some r') (he : toRt e = some e') :
    ∃ t, toRt (ctSubst s r e) = some t ∧ substitute s' r' e' = simplified t := by
  obtain ⟨hk, rfl⟩ := toRt_some hs
  obtain ⟨hn, rfl⟩ := toRt_some hr
  obtain ⟨hm, rfl⟩ := toRt_some he
  obtain ⟨h1, h2⟩ := substE_image (K := K) hn (fun e h => deepEq_image hl h hk) hm
  exact ⟨_, by rw [toRt_eq, if_pos (callable_iff.2 h1)], by rw [substitute, h2]; rfl⟩

/-! ### Simplification -/

theorem frac_noSym {cv : Conv} {x y : CExp} {e : CtExpr} (h : frac cv x y = some e) : NoSym e := by
  obtain ⟨_, _, _, _, _, _, _, _, _, _, _, _, _, _, rfl⟩ := frac_some.1 h
  simp [NoSym]

theorem spz_noSym {cv : Conv} {s : Spz} {e e' : CtExpr} (hs : s ∈ specs) (hm : s.pat.fits e = true) :
    s.type cv e = some e' → NoSym e → NoSym e' := by
  simp only [specs, List.mem_append] at hs
  obtain ((hs | hs) | hs) | hs := hs
  all_goals revert hm; revert hs
  all_goals intro _ _
  all_goals per_rule
  all_goals
    intro ht
    dsimp only at ht
    first
      | (simp at ht; done)
      | (have := frac_noSym ht; tauto)
      | (simp only [Option.some.injEq, Option.map_eq_some_iff, Option.bind_eq_some_iff] at ht
         try (casesm* _ ∧ _, Exists _)
         subst_vars
         simp only [NoSym]
         tauto)

theorem ctSimplify_noSym {cv : Conv} {e e' : CtExpr} (h : ctSimplify cv e = some e') (hn : NoSym e) : NoSym e' := by
  have impl : ∀ {e e' : CtExpr} {n : Nat}, ImplAny cv e n e' → NoSym e → NoSym e' := by
    intro e e' n h
    induction h with
    | const | var | fsym => exact id
    | general op _ _ ihl ihr => exact fun h => ⟨ihl h.1, ihr h.2⟩
    | special hs hm ht => exact spz_noSym hs hm ht
  have any : ∀ {e e' : CtExpr}, SimplifyAny cv e e' → NoSym e → NoSym e' := by
    intro e e' h
    induction h with
    | stop _ => exact id
    | turn h _ ih => exact fun hn => ih (impl h hn)
  exact any (ctSimplify_any _ le_rfl h) hn

theorem image_wellFormed {e : CtExpr} (h : NoSym e) : WellFormed (image e : Expr K) ∧ VecDim 1 (image e : Expr K) := by
  induction e with
  | const n => exact ⟨.const _, .const _⟩
  | var i => exact ⟨.var _, .var _⟩
  | fsym => exact h.elim
  | bin l op r ihl ihr =>
    exact ⟨.bin (by cases op <;> simp [IsArithOp, COp.toRt]) (ihl h.1).1 (ihr h.2).1, .bin _ (ihl h.1).2 (ihr h.2).2⟩

theorem image_smooth {e : CtExpr} (h : NoSym e) : Smooth (image e : Expr K) := by
  induction e with
  | const n => exact .const _
  | var i => exact .var _
  | fsym => exact h.elim
  | bin l op r ihl ihr => exact .bin (by cases op <;> simp [IsArithOp, COp.toRt]) (ihl h.1) (ihr h.2)

theorem image_occurs {e : CtExpr} (h : NoSym e) {j : Nat} (hj : Occurs j (image e : Expr K)) : Has j e := by
  induction e with
  | const n => cases hj
  | var i => cases hj; rfl
  | fsym => exact h.elim
  | bin l op r ihl ihr => cases hj with
    | binL hj => exact .inl (ihl h.1 hj)
    | binR hj => exact .inr (ihr h.2 hj)

theorem eval_image_real (o : Order XReal) {e : CtExpr} (h : NoSym e) {v : List XReal} {p φ : Nat → ℝ} {x : ℝ}
    (hv : ∀ i, Has i e → v[i]? = some (some (p i))) (hx : CVal p φ e x) :
    eval o v (image e) = .ok (some x) := by
  have hlen : ∀ i, Has i e → i < v.length := fun i hi => by
    have := hv i hi
    rw [List.getElem?_eq_some_iff] at this
    exact this.1
  have := ((C44_out_of_range e (image e) (by rw [toRt_eq, if_pos (callable_iff.2 h)]) (fun _ _ => true) o v).1 hlen none).2
  rw [this, ← hx.2, ← numAt_real h hx.1]
  congr 1
  exact numAt_congr fun i hi => by simp [List.getD, hv i hi]

theorem image_regular (o : Order XReal) {e : CtExpr} (h : NoSym e) {n : Nat} {p : Fin n → ℝ} {x : ℝ}
    (hx : eval o (realPoint p) (image e) = .ok (some x)) : RegularAt o p (image e) := by
  refine ⟨⟨x, hx⟩, fun s hs => ?_⟩
  exfalso
  clear hx
  induction e with
  | const n => cases hs
  | var i => cases hs
  | fsym => exact h.elim
  | bin l op r ihl ihr =>
    cases hs with
    | binL hs => exact ihl h.1 hs
    | binR hs => exact ihr h.2 hs

/-- A polynomial in one variable is defined everywhere or nowhere. -/
theorem only_defined {i : Nat} {e : CtExpr} (hp : PolyIn i e) (ho : OnlyVar i e) {v φ : Nat → ℝ} (hd : CDefined v φ e)
    (w : Nat → ℝ) : CDefined w φ e := by
  have h1 := (cdefined_poly hp v φ (w i)).2 hd
  have key : ∀ {v w : Nat → ℝ} {e : CtExpr}, (∀ k, Has k e → v k = w k) → CDefined v φ e → CDefined w φ e := by
    intro v w e
    induction e with
    | const n => exact fun _ _ => trivial
    | var n => exact fun _ _ => trivial
    | fsym => exact fun _ _ => trivial
    | bin l op r ihl ihr =>
      intro h
      have hl := ihl fun k hk => h k (.inl hk)
      have hr := ihr fun k hk => h k (.inr hk)
      have hc := cval_has (e := r) (φ := φ) fun k hk => h k (.inr hk)
      cases op <;> simp only [CDefined, hc] <;> tauto
  exact key (fun k hk => by rw [ho k hk]; simp [moved]) h1

theorem poly_integrand (o : Order XReal) {i : Nat} {e : CtExpr} (hn : NoSym e) (ho : OnlyVar i e)
    (hd : ∀ v, CDefined (F := ℝ) v (fun _ => 0) e) (t : ℝ) :
    eval o (realPoint (along i t)) (image e) = .ok (some (cval (fun _ => t) (fun _ => 0) e)) ∧
      integrandOf i (image e) t = cval (fun _ => t) (fun _ => 0) e := by
  have key : ∀ o, eval o (realPoint (along i t)) (image e) = .ok (some (cval (fun _ => t) (fun _ => 0) e)) := fun o =>
    eval_image_real o hn (p := fun _ => t) (fun k hk => by
      rw [ho k hk]; exact along_get i t) ⟨hd _, rfl⟩
  exact ⟨key o, by rw [integrandOf, denotes, key]⟩

/-- C92.  At every point where the expression is defined, simplifying at compile time (as long as no number leaves the range
of `int`), at run time, or at both, gives expressions with the value of the expression. -/
theorem C92_simplify (o : Order XReal) (e e' : CtExpr) (r : Expr XReal) (h : toRt e = some r)
    (hs : ctSimplify strict e = some e') :
    ∃ r' t t', toRt e' = some r' ∧ simplified r = .ok t ∧ simplified r' = .ok t' ∧
      ∀ (v : List XReal) (p : Nat → ℝ) (x : ℝ), (∀ i, Has i e → v[i]? = some (some (p i))) → CVal p (fun _ => 0) e x →
        eval o v r = .ok (some x) ∧ eval o v r' = .ok (some x) ∧ eval o v t = .ok (some x) ∧ eval o v t' = .ok (some x) := by
  obtain ⟨hn, rfl⟩ := toRt_some h
  have hn' := ctSimplify_noSym hs hn
  obtain ⟨t, ht⟩ := simplified_ok (K := XReal) (n := 1) (by simp) (image_wellFormed hn).1 (image_wellFormed hn).2
  obtain ⟨t', ht'⟩ := simplified_ok (K := XReal) (n := 1) (by simp) (image_wellFormed hn').1 (image_wellFormed hn').2
  refine ⟨image e', t, t', by rw [toRt_eq, if_pos (callable_iff.2 hn')], ht, ht', fun v p x hv hx => ?_⟩
  have hx' := (C34_selected_partial (F := ℝ) hs).2.2 p _ x hx
  have h1 := eval_image_real o hn hv hx
  have h2 := eval_image_real o hn' (fun i hi => hv i ((ctSimplify_has i hs).1 hi)) hx'
  exact ⟨h1, h2, C06_simplify_value _ _ (Simplifies_iff.2 ht) o v _ h1 (by simp [SimpLaws.bad]),
    C06_simplify_value _ _ (Simplifies_iff.2 ht') o v _ h2 (by simp [SimpLaws.bad])⟩

/-! ### Integration -/

/-- C92.  The compile-time integral of a polynomial in `x` between integer bounds, if it compiles and no number leaves the
range of `int`, is a number; the numerical integrals of the converted integrand over `n + 1` pieces differ from it by at most
a constant divided by the square of the number of pieces. -/
theorem C92_integrate (o : Order XReal) {i : Nat} {a b : Int} (hab : a ≤ b) {e r : CtExpr} {f : Expr XReal}
    (hp : PolyIn i e) (ho : OnlyVar i e) (hd : ∃ v, CDefined (F := ℝ) v (fun _ => 0) e)
    (hf : toRt e = some f) (h : ctIntegrate strict ♯a ♯b e (.var i) = some r) :
    ∃ q C : ℝ, (∀ v, CVal v (fun _ => 0) r q) ∧ ∀ n : ℕ, ∃ y : ℝ,
      quadOf o (gaussQuad1 o) (pieces i f (fun k => a + k * (((b : ℝ) - a) / (n + 1))) n 0) = .ok (some y) ∧
      |y - q| ≤ C / (n + 1) ^ 2 := by
  obtain ⟨hn, rfl⟩ := toRt_some hf
  obtain ⟨v₀, hv₀⟩ := hd
  have hdef : ∀ v, CDefined (F := ℝ) v (fun _ => 0) e := only_defined hp ho hv₀
  have hval := poly_integrand o hn ho hdef
  obtain ⟨C, hC⟩ := C66_converges o (image e) i a b (by exact_mod_cast hab) (image_smooth hn)
    (fun j hj => ho j (image_occurs hn hj)) fun t _ => image_regular o hn (hval t).1
  obtain ⟨-, h2⟩ := C42_single_variable_partial hp ho h
  refine ⟨_, C, fun v => ?_, hC⟩
  have h3 := h2 v (fun _ => 0) trivial trivial (hdef v)
  simp only [cval] at h3
  have : ∀ t, cval (moved v i t) (fun _ => 0) e = integrandOf i (image e) t := fun t => by
    rw [(hval t).2]
    exact cval_has fun k hk => by rw [ho k hk]; simp [moved]
  simp only [this] at h3
  exact h3

/-- C92.  If the integrand is affine in `x`, one numerical step gives exactly what integrating at compile time gives. -/
theorem C92_affine (o : Order XReal) {i : Nat} {a b : Int} {e r : CtExpr} {f : Expr XReal} (hp : PolyIn i e)
    (ho : OnlyVar i e) (hd : ∃ v, CDefined (F := ℝ) v (fun _ => 0) e) (c d : ℝ)
    (ha : ∀ v : Nat → ℝ, cval v (fun _ => 0) e = c * v i + d)
    (hf : toRt e = some f) (h : ctIntegrate strict ♯a ♯b e (.var i) = some r) :
    ∃ q : ℝ, (∀ v, CVal v (fun _ => 0) r q) ∧
      quadOver (gaussQuad1 o) (.const (Num.lit a)) (.const (Num.lit b)) i f = .ok (some q) := by
  obtain ⟨hn, rfl⟩ := toRt_some hf
  obtain ⟨v₀, hv₀⟩ := hd
  have hdef : ∀ v, CDefined (F := ℝ) v (fun _ => 0) e := only_defined hp ho hv₀
  obtain ⟨-, h2⟩ := C42_single_variable_partial hp ho h
  refine ⟨∫ t in (a : ℝ)..b, (c * t + d), fun v => ?_, ?_⟩
  · have h3 := h2 v (fun _ => 0) trivial trivial (hdef v)
    simp only [cval, ha, moved, if_true] at h3
    exact h3
  · refine C27_affine o _ _ _ i a b c d (.const _) (.const _) rfl rfl (fun j hj => ho j (image_occurs hn hj))
      fun t _ w hw => ?_
    refine eval_image_real o hn (p := fun _ => t) (fun k hk => by rw [ho k hk]; exact hw) ⟨hdef _, ha _⟩

/-! ### The hypotheses can be met -/

/-- `x*x` from 0 to 1. -/
example : (ctIntegrate strict ♯0 ♯1 (.var 0 *' .var 0) (.var 0)).isSome ∧ PolyIn 0 (.var 0 *' .var 0) ∧
    OnlyVar 0 (.var 0 *' .var 0) := by
  refine ⟨?_, ⟨trivial, trivial⟩, fun j hj => by cases hj <;> rename_i h <;> exact h.symm ▸ rfl⟩
  simp only [ctIntegrate]
  rw [show expand (.bin (.var 0) .mult (.var 0)) = .var 0 *' .var 0 by simp [expand_mul, expandProduct, hasPM]]
  decide +kernel

/-- `x*x + 3` and `(2*x)/(x+0)`. -/
example : (toRt (K := K) ((♯2 *' .var 0) /' (.var 0 +' ♯0))).isSome ∧
    (ctSimplify strict (♯2 *' (.var 0 +' ♯0))).isSome := ⟨rfl, by decide +kernel⟩

example : (toRt (K := K) (.var 0 *' .var 0 +' ♯3)).isSome := rfl

example (o : Order XReal) : ∃ q : ℝ, quadOver (gaussQuad1 o) (.const (Num.lit 0)) (.const (Num.lit 2)) 0 (.var 0) = .ok (some q) := by
  obtain ⟨q, -, h⟩ := C92_affine o (i := 0) (a := 0) (b := 2) (e := .var 0) (by trivial) (fun j hj => hj.symm ▸ rfl)
    ⟨fun _ => 0, trivial⟩ 1 0 (fun v => by simp [cval]) rfl rfl
  exact ⟨q, h⟩

end VM.Props
