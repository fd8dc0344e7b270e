import Verif.Rt.DiffLemmas
import Verif.Rt.Subst
import Verif.Rt.VectorLemmas
/-
Differentiation and substitution in vectors.
-/
namespace VM
open Spec Filter Topology
variable {K : Type} [Num K]

theorem simplified_vec (es : List (Expr K)) : simplified (.vec es) = .ok (.vec es) := by
  rw [simplified_eq]; rfl

theorem diff_vec (x : DVar) (es : List (Expr K)) : diff x (.vec es) = (diffEL x es).map .vec := by
  rw [diff, diffE]
  cases diffEL x es with
  | ok ds => exact simplified_vec ds
  | throw y => rfl
  | ub => rfl

theorem diffEL_ok {x : DVar} {es ds : List (Expr K)} :
    diffEL x es = .ok ds ↔ List.Forall₂ (fun e d => diffE x e = .ok d) es ds := by
  induction es generalizing ds with
  | nil => cases ds <;> simp [diffEL]
  | cons e es ih =>
    simp only [diffEL, Res.bind_eq_ok, Res.map_eq_ok]
    constructor
    · rintro ⟨d, hd, ds', hds, rfl⟩
      exact .cons hd (ih.1 hds)
    · rintro (_ | ⟨hd, hds⟩)
      exact ⟨_, hd, _, ih.2 hds, rfl⟩

theorem diffEL_not_ok {x : DVar} {es : List (Expr K)} :
    (∀ y, diffEL x es = .throw y → ∃ e ∈ es, diffE x e = .throw y) ∧
    (diffEL x es = .ub → ∃ e ∈ es, diffE x e = .ub) := by
  induction es with
  | nil => simp [diffEL]
  | cons e es ih =>
    simp only [diffEL]
    cases h : diffE x e with
    | ok d =>
      cases h' : diffEL x es with
      | ok ds => simp
      | throw y =>
        obtain ⟨f, hf, hy⟩ := ih.1 y h'
        refine ⟨fun z hz => ?_, by simp⟩
        simp at hz; subst hz
        exact ⟨f, by simp [hf], hy⟩
      | ub =>
        obtain ⟨f, hf, hy⟩ := ih.2 h'
        exact ⟨by simp, fun _ => ⟨f, by simp [hf], hy⟩⟩
    | throw y => simp only [Res.bind_throw]; exact ⟨fun z hz => ⟨e, by simp, by rw [h]; cases hz; rfl⟩, by simp⟩
    | ub => exact ⟨by simp, fun _ => ⟨e, by simp, h⟩⟩

theorem substEL_ok {s r : Expr K} {es ds : List (Expr K)} :
    substEL s r es = .ok ds ↔ List.Forall₂ (fun e d => substE s r e = .ok d) es ds := by
  induction es generalizing ds with
  | nil => cases ds <;> simp [substEL]
  | cons e es ih =>
    simp only [substEL, Res.bind_eq_ok, Res.map_eq_ok]
    constructor
    · rintro ⟨d, hd, ds', hds, rfl⟩
      exact .cons hd (ih.1 hds)
    · rintro (_ | ⟨hd, hds⟩)
      exact ⟨_, hd, _, ih.2 hds, rfl⟩

theorem substEL_not_ok {s r : Expr K} {es : List (Expr K)} :
    (∀ y, substEL s r es = .throw y → ∃ e ∈ es, substE s r e = .throw y) ∧
    (substEL s r es = .ub → ∃ e ∈ es, substE s r e = .ub) := by
  induction es with
  | nil => simp [substEL]
  | cons e es ih =>
    simp only [substEL]
    cases h : substE s r e with
    | ok d =>
      cases h' : substEL s r es with
      | ok ds => simp
      | throw y =>
        obtain ⟨f, hf, hy⟩ := ih.1 y h'
        refine ⟨fun z hz => ?_, by simp⟩
        simp at hz; subst hz
        exact ⟨f, by simp [hf], hy⟩
      | ub =>
        obtain ⟨f, hf, hy⟩ := ih.2 h'
        exact ⟨by simp, fun _ => ⟨f, by simp [hf], hy⟩⟩
    | throw y => simp only [Res.bind_throw]; exact ⟨fun z hz => ⟨e, by simp, by rw [h]; cases hz; rfl⟩, by simp⟩
    | ub => exact ⟨by simp, fun _ => ⟨e, by simp, h⟩⟩

theorem deepEq_vec_not {s : Expr K} (hs : ∀ fs, s ≠ .vec fs) (es : List (Expr K)) :
    deepEq (.vec es) s = .ok false := by
  cases s <;> first | rfl | exact absurd rfl (hs _)

theorem substitute_vec {s : Expr K} (hs : ∀ fs, s ≠ .vec fs) (r : Expr K) (es : List (Expr K)) :
    substitute s r (.vec es) = (substEL s r es).map .vec := by
  rw [substitute, substE, deepEq_vec_not hs]
  simp only [Res.bind_ok, Bool.false_eq_true, if_false]
  cases substEL s r es with
  | ok ds => exact simplified_vec ds
  | throw y => rfl
  | ub => rfl

/-! ### Values -/

/-- The derivative before simplification. -/
theorem raw_derivative {e : Expr XReal} (i : Nat) (hs : Smooth e) :
    ∃ d, diffE (.var i) e = .ok d ∧ Arith d ∧
      ∀ (o : Order XReal) (v : List XReal) (x₀ a : ℝ), v[i]? = some (some x₀) →
        eval o v e = .ok (some a) →
        (∀ s, Sub (.un (.fn .sqrt) s) e → eval o v s ≠ .ok (some 0)) →
        ∃ (f : ℝ → ℝ) (f' : ℝ),
          (∀ᶠ t in 𝓝 x₀, eval o (v.set i (some t)) e = .ok (some (f t))) ∧
          HasDerivAt f f' x₀ ∧ eval o v d = .ok (some f') := by
  have hd : ∃ d, diffE (.var i) e = .ok d := by
    rcases diffE_cases (i := i) hs.sym.wellFormed with ⟨h, _⟩ | ⟨_, h⟩
    · exact absurd h hs.supported
    · exact h
  obtain ⟨d, hd⟩ := hd
  refine ⟨d, hd, diffE_arith hs.arith hd, fun o v x₀ a hi he hq => ?_⟩
  have hlt : i < v.length := (List.getElem?_eq_some_iff.1 hi).1
  have hv : v.set i (some x₀) = v := by
    apply List.ext_getElem?
    intro j
    by_cases hj : i = j
    · subst hj; rw [hi]; simp [hlt]
    · simp [List.getElem?_set_ne hj]
  have H : Varies (.var i) (fun _ => Interp.none) (fun t => ofVec (v.set i (some t))) x₀ := by
    refine ⟨?_, ?_, ?_, ?_⟩
    · intro j hj t; cases hj; simp [ofVec, hlt]
    · intro j hj t
      have : i ≠ j := fun h => hj (by rw [h])
      simp [ofVec, List.getElem?_set_ne this]
    · intro j u hj; cases hj
    · intros; rfl
  obtain ⟨d', hd', f, f', h1, h2, h3, h4⟩ := diffE_deriv H hs.sym (.inr hs) (a := a)
    (by simp only [hv]; exact .of_eval he)
    (by
      intro s hsub hval
      simp only [hv] at hval
      refine hq s hsub (hval.eval o ?_)
      have := hs.arith
      clear * - this hsub
      induction hsub with
      | refl => cases this; assumption
      | un _ ih => cases this; exact ih ‹_›
      | integ _ ih => cases this
      | binL _ ih => cases this; exact ih ‹_›
      | binR _ ih => cases this; exact ih ‹_›)
  obtain rfl : d = d' := by simpa [hd] using hd'
  refine ⟨f, f', h1.mono fun t h => h.eval o hs.arith, h3, ?_⟩
  simp only [hv] at h4
  exact h4.eval o (diffE_arith hs.arith hd)

theorem eval_plus {o : Order XReal} {v : List XReal} {l r : Expr XReal} {a b : ℝ}
    (hl : eval o v l = .ok (some a)) (hr : eval o v r = .ok (some b)) :
    eval o v (.bin .plus l r) = .ok (some (a + b)) := eval_bin_ok hl hr rfl

theorem eval_mult {o : Order XReal} {v : List XReal} {l r : Expr XReal} {a b : ℝ}
    (hl : eval o v l = .ok (some a)) (hr : eval o v r = .ok (some b)) :
    eval o v (.bin .mult l r) = .ok (some (a * b)) := eval_bin_ok hl hr rfl

/-- The derivative of a sum of products, split into two sums. -/
theorem dotFrom_split {i : Nat} {o : Order XReal} {v : List XReal} {ls rs dls drs : List (Expr XReal)}
    (hdl : List.Forall₂ (fun e d => diffE (.var i) e = .ok d) ls dls)
    (hdr : List.Forall₂ (fun e d => diffE (.var i) e = .ok d) rs drs)
    (hlen : ls.length = rs.length)
    (hv : ∀ e ∈ ls ++ rs ++ dls ++ drs, ∃ c : ℝ, eval o v e = .ok (some c))
    {acc dacc acc1 acc2 : Expr XReal} {p1 p2 q : ℝ} (hacc : diffE (.var i) acc = .ok dacc)
    (h0 : eval o v dacc = .ok (some (p1 + p2))) (h1 : eval o v acc1 = .ok (some p1))
    (h2 : eval o v acc2 = .ok (some p2)) {d : Expr XReal}
    (hd : diffE (.var i) (dotFrom acc ls rs) = .ok d) (hq : eval o v d = .ok (some q)) :
    eval o v (.bin .plus (dotFrom acc1 dls rs) (dotFrom acc2 ls drs)) = .ok (some q) := by
  induction hdl generalizing rs drs acc dacc acc1 acc2 p1 p2 with
  | nil =>
    cases hdr with
    | nil =>
      simp only [dotFrom] at hd ⊢
      rw [hacc] at hd; cases hd
      rw [h0] at hq; cases hq
      exact eval_plus h1 h2
    | cons => simp at hlen
  | @cons l dl ls dls hl hdl ih =>
    cases hdr with
    | nil => simp at hlen
    | @cons r dr rs drs hr hdr =>
      obtain ⟨a, ha⟩ := hv l (by simp)
      obtain ⟨b, hb⟩ := hv r (by simp)
      obtain ⟨a', ha'⟩ := hv dl (by simp)
      obtain ⟨b', hb'⟩ := hv dr (by simp)
      simp only [dotFrom] at hd ⊢
      refine ih hdr (by simpa using hlen) (fun e he => hv e ?_)
        (dacc := .bin .plus dacc (.bin .plus (.bin .mult dl r) (.bin .mult l dr)))
        (p1 := p1 + a' * b) (p2 := p2 + a * b') ?_ ?_ ?_ ?_ hd
      · simp only [List.mem_append, List.mem_cons] at he ⊢; tauto
      · simp [diffE, diffBin, hacc, hl, hr]
      · rw [show p1 + a' * b + (p2 + a * b') = (p1 + p2) + (a' * b + a * b') by ring]
        exact eval_plus h0 (eval_plus (eval_mult ha' hb) (eval_mult ha hb'))
      · exact eval_plus h1 (eval_mult ha' hb)
      · exact eval_plus h2 (eval_mult ha hb')

omit [Num K] in
theorem Spec.Smooth.dotFrom {acc : Expr K} {ls rs : List (Expr K)} (ha : Smooth acc)
    (h : ∀ e ∈ ls ++ rs, Smooth e) : Smooth (dotFrom acc ls rs) := by
  induction ls generalizing acc rs with
  | nil => exact ha
  | cons l ls ih =>
    cases rs with
    | nil => exact ha
    | cons r rs =>
      refine ih (.bin (.inl rfl) ha (.bin (.inr (.inr (.inl rfl))) (h l (by simp)) (h r (by simp)))) ?_
      intro e he
      refine h e ?_
      simp only [List.mem_append, List.mem_cons] at he ⊢; tauto

omit [Num K] in
theorem Spec.Arith.dotFrom {acc : Expr K} {ls rs : List (Expr K)} (ha : Arith acc)
    (h : ∀ e ∈ ls ++ rs, Arith e) : Arith (dotFrom acc ls rs) := by
  induction ls generalizing acc rs with
  | nil => exact ha
  | cons l ls ih =>
    cases rs with
    | nil => exact ha
    | cons r rs =>
      refine ih (.bin (.inl rfl) ha (.bin (.inr (.inr (.inl rfl))) (h l (by simp)) (h r (by simp)))) ?_
      intro e he
      refine h e ?_
      simp only [List.mem_append, List.mem_cons] at he ⊢; tauto

/-- A sum of two products of vectors is simplified to the sum of their expansions first. -/
theorem simplified_two_dots {a b c d : List (Expr K)} {s t : Expr K} (hs : dot a b = .ok s) (ht : dot c d = .ok t) :
    simplified (.bin .plus (.bin .mult (.vec a) (.vec b)) (.bin .mult (.vec c) (.vec d))) =
      simplified (.bin .plus s t) := by
  rw [simplified_eq]
  simp [canSimplify, canBin, constCheck, isConst, simplify, simpBin, hs, ht]

theorem forall₂_raw (i : Nat) (es : List (Expr XReal)) (hs : ∀ e ∈ es, Smooth e) :
    ∃ ds, List.Forall₂ (fun e d => diffE (.var i) e = .ok d) es ds := by
  induction es with
  | nil => exact ⟨[], .nil⟩
  | cons e es ih =>
    obtain ⟨ds, hds⟩ := ih fun e he => hs e (by simp [he])
    obtain ⟨d, hd, -⟩ := raw_derivative i (hs e (by simp))
    exact ⟨d :: ds, .cons hd hds⟩

omit [Num K] in
theorem forall₂_get {α β : Type} {R : α → β → Prop} {as : List α} {bs : List β} (h : List.Forall₂ R as bs)
    {k : Nat} {a : α} {b : β} (ha : as[k]? = some a) (hb : bs[k]? = some b) : R a b := by
  induction h generalizing k with
  | nil => simp at ha
  | cons h _ ih =>
    cases k with
    | zero => simp at ha hb; subst ha; subst hb; exact h
    | succ k => exact ih (by simpa using ha) (by simpa using hb)

theorem forall₂_mem {α β : Type} {R : α → β → Prop} {as : List α} {bs : List β} (h : List.Forall₂ R as bs)
    {b : β} (hb : b ∈ bs) : ∃ a ∈ as, R a b := by
  induction h with
  | nil => simp at hb
  | cons h _ ih =>
    rcases List.mem_cons.1 hb with rfl | hb
    · exact ⟨_, by simp, h⟩
    · obtain ⟨a, ha, hr⟩ := ih hb
      exact ⟨a, by simp [ha], hr⟩

theorem eventually_values {o : Order XReal} {g : ℝ → List XReal} {x₀ : ℝ} (es : List (Expr XReal))
    (h : ∀ e ∈ es, ∃ f : ℝ → ℝ, ∀ᶠ t in 𝓝 x₀, eval o (g t) e = .ok (some (f t))) :
    ∀ᶠ t in 𝓝 x₀, ∃ xs : List ℝ, es.map (eval o (g t)) = xs.map fun x => .ok (some x) := by
  induction es with
  | nil => exact .of_forall fun _ => ⟨[], rfl⟩
  | cons e es ih =>
    obtain ⟨f, hf⟩ := h e (by simp)
    filter_upwards [hf, ih fun e he => h e (by simp [he])] with t h1 h2
    obtain ⟨xs, hx⟩ := h2
    exact ⟨f t :: xs, by simp [h1, hx]⟩

theorem values_of {o : Order XReal} {v : List XReal} (es : List (Expr XReal))
    (h : ∀ e ∈ es, ∃ c : ℝ, eval o v e = .ok (some c)) :
    ∃ xs : List ℝ, es.map (eval o v) = xs.map fun x => .ok (some x) := by
  induction es with
  | nil => exact ⟨[], rfl⟩
  | cons e es ih =>
    obtain ⟨c, hc⟩ := h e (by simp)
    obtain ⟨xs, hx⟩ := ih fun e he => h e (by simp [he])
    exact ⟨c :: xs, by simp [hc, hx]⟩

omit [Num K] in
theorem Spec.Sub.of_dotFrom {s acc : Expr K} {f : Fn} {ls rs : List (Expr K)}
    (h : Sub (.un (.fn f) s) (dotFrom acc ls rs)) :
    Sub (.un (.fn f) s) acc ∨ ∃ e ∈ ls ++ rs, Sub (.un (.fn f) s) e := by
  induction ls generalizing acc rs with
  | nil => exact .inl h
  | cons l ls ih =>
    cases rs with
    | nil => exact .inl h
    | cons r rs =>
      rcases ih h with h | ⟨e, he, h⟩
      · cases h with
        | binL h => exact .inl h
        | binR h => cases h with
          | binL h => exact .inr ⟨l, by simp, h⟩
          | binR h => exact .inr ⟨r, by simp, h⟩
      · refine .inr ⟨e, ?_, h⟩
        simp only [List.mem_append, List.mem_cons] at he ⊢; tauto

end VM
