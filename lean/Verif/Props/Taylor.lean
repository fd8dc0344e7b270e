import Verif.Rt.TaylorLemmas
/-
Property C85: derivatives belong to the function, not to the way it is written, and tell how values change.
-/
namespace VM.Props
open Spec Filter Topology
open scoped Nat
variable {n : ℕ}

/-- C85.  Two smooth expressions that have the same values near a point where none of their square roots has
argument 0: their derivatives of any order, by any variables, have the same value there. -/
theorem C85_same_function (e f : Expr XReal) (is : List (Fin n)) (he : Smooth e) (hf : Smooth f) :
    ∃ d d', diffs (is.map Fin.val) e = .ok d ∧ diffs (is.map Fin.val) f = .ok d' ∧
      ∀ (o o' : Order XReal) (p : Fin n → ℝ), RegularAt o p e → RegularAt o' p f →
        (∀ᶠ q : Fin n → ℝ in 𝓝 p, ∃ a : ℝ, eval o (realPoint q) e = .ok (some a) ∧
          eval o' (realPoint q) f = .ok (some a)) →
        ∃ a : ℝ, eval o (realPoint p) d = .ok (some a) ∧ eval o' (realPoint p) d' = .ok (some a) := by
  obtain ⟨d, h1, h2⟩ := diffs_smooth (is.map Fin.val) he
  obtain ⟨d', h3, h4⟩ := diffs_smooth (is.map Fin.val) hf
  refine ⟨d, d', h1, h3, fun o o' p hp hp' heq => ?_⟩
  have hr := (regularAt_iff he o).1 hp
  have hr' := (regularAt_iff hf o').1 hp'
  obtain ⟨h5, h6⟩ := diffs_reg is hr h1
  obtain ⟨h7, h8⟩ := diffs_reg is hr' h3
  refine ⟨rv p d, h5.eval o, ?_⟩
  rw [h7.eval o']
  have h9 : (fun q => rv q e) =ᶠ[𝓝 p] fun q => rv q f := by
    filter_upwards [heq, hr.eventually, hr'.eventually] with q hq k1 k2
    obtain ⟨a, k3, k4⟩ := hq
    rw [k1.eval] at k3
    rw [k2.eval] at k4
    simp only [Res.ok.injEq, Option.some.injEq] at k3 k4
    exact k3.trans k4.symm
  have := (h6.trans ((partialDerivs_congr is h9).trans h8.symm)).eq_of_nhds
  rw [this]

/-- `(x0 + 1) * (x0 - 1)` and `x0 * x0 - 1` meet the hypotheses at every point. -/
example (p : Fin 1 → ℝ) : ∃ e f : Expr XReal, e ≠ f ∧ Smooth e ∧ Smooth f ∧ RegularAt leftFirst p e ∧
    RegularAt leftFirst p f ∧ ∀ᶠ q : Fin 1 → ℝ in 𝓝 p, ∃ a : ℝ,
      eval leftFirst (realPoint q) e = .ok (some a) ∧ eval leftFirst (realPoint q) f = .ok (some a) := by
  have A : IsArithOp .plus := .inl rfl
  have S : IsArithOp .minus := .inr (.inl rfl)
  have M : IsArithOp .mult := .inr (.inr (.inl rfl))
  have he : Smooth (.bin .mult (.bin .plus (.var 0) (.const (some 1))) (.bin .minus (.var 0) (.const (some 1))) :
    Expr XReal) := .bin M (.bin A (.var 0) (.const _)) (.bin S (.var 0) (.const _))
  have hf : Smooth (.bin .minus (.bin .mult (.var 0) (.var 0)) (.const (some 1)) : Expr XReal) :=
    .bin S (.bin M (.var 0) (.var 0)) (.const _)
  have h1 : ∀ q : Fin 1 → ℝ, Reg q (.bin .mult (.bin .plus (.var 0) (.const (some 1)))
    (.bin .minus (.var 0) (.const (some 1))) : Expr XReal) := fun q => by simp [Reg, opOk]
  have h2 : ∀ q : Fin 1 → ℝ, Reg q (.bin .minus (.bin .mult (.var 0) (.var 0)) (.const (some 1)) : Expr XReal) :=
    fun q => by simp [Reg, opOk]
  refine ⟨_, _, by simp, he, hf, (regularAt_iff he _).2 (h1 p), (regularAt_iff hf _).2 (h2 p), .of_forall fun q => ?_⟩
  refine ⟨q 0 * q 0 - 1, ?_, ?_⟩
  · rw [(h1 q).eval]; simp [rv, opR]; ring
  · rw [(h2 q).eval]; simp [rv, opR]

/-- C85.  Simplifying any parts of a smooth expression, any number of times, before differentiating: wherever the
expression has a value and none of its square roots has argument 0, this holds for what it has become too, and the
derivatives have the same value. -/
theorem C85_simplified_first (e e' : Expr XReal) (is : List (Fin n)) (he : Smooth e)
    (h : PartsSimplified (fun a b => Simplifies a (.ok b)) e e') :
    ∃ d d', diffs (is.map Fin.val) e = .ok d ∧ diffs (is.map Fin.val) e' = .ok d' ∧
      ∀ (o o' : Order XReal) (p : Fin n → ℝ), RegularAt o p e → RegularAt o' p e' ∧
        ∃ a : ℝ, eval o (realPoint p) d = .ok (some a) ∧ eval o' (realPoint p) d' = .ok (some a) := by
  have hs := h.smooth he
  obtain ⟨d, d', h1, h2, h3⟩ := C85_same_function e e' is he hs
  refine ⟨d, d', h1, h2, fun o o' p hp => ?_⟩
  have hr := (regularAt_iff he o).1 hp
  have hp' := (regularAt_iff hs o').2 (h.reg hr).1
  refine ⟨hp', h3 o o' p hp hp' ?_⟩
  filter_upwards [hr.eventually] with q hq
  exact ⟨_, hq.eval o, by rw [(h.reg hq).1.eval o', (h.reg hq).2]⟩

/-- `sqrt(x0 * 1)` with its argument simplified to `x0`, at 4. -/
example : ∃ (e e' : Expr XReal), e ≠ e' ∧ Smooth e ∧ RegularAt leftFirst ![4] e ∧
    PartsSimplified (fun a b => Simplifies a (.ok b)) e e' := by
  have he : Smooth (.un (.fn .sqrt) (.bin .mult (.var 0) (.const (some 1))) : Expr XReal) :=
    .fn (by decide) (.bin (.inr (.inr (.inl rfl))) (.var 0) (.const _))
  refine ⟨_, .un (.fn .sqrt) (.var 0), by simp, he, (regularAt_iff he _).2 ?_, .un _ (.here ?_)⟩
  · simp [Reg, fnOk, opOk, rv, opR]
  · exact ⟨2, by
      simp [simplifyLoop, simplify, canSimplify, isConst, unwrap, simpBin, canBin, constCheck, Num.eqb, XReal.eqb, Num.lit]⟩

/-- C85.  Taylor's formula.  `d k` is what differentiating `k` times by `x_i` returns.  If `e` is regular all the way
from `p` to the point with `x` in place of `p i`, then its value at that point is the sum of the values of `d k` at `p`
times `(x - p i)^k / k!`, and a remainder that is given by the value of `d (m+1)` somewhere between. -/
theorem C85_taylor (e : Expr XReal) (i : Fin n) (hs : Smooth e) :
    ∃ d : ℕ → Expr XReal, (∀ k, diffs (List.replicate k i.1) e = .ok (d k)) ∧
      ∀ (o : Order XReal) (p : Fin n → ℝ) (x : ℝ), x ≠ p i →
        (∀ t ∈ Set.uIcc (p i) x, RegularAt o (Function.update p i t) e) →
        ∀ m : ℕ, ∃ (c : ℕ → ℝ) (r : ℝ), ∃ ξ ∈ Set.uIoo (p i) x,
          (∀ k ≤ m, eval o (realPoint p) (d k) = .ok (some (c k))) ∧
          eval o (realPoint (Function.update p i ξ)) (d (m + 1)) = .ok (some r) ∧
          eval o (realPoint (Function.update p i x)) e = .ok (some
            (∑ k ∈ Finset.range (m + 1), c k * (x - p i) ^ k / k ! + r * (x - p i) ^ (m + 1) / (m + 1)!)) := by
  choose d hd _ using fun k => diffs_smooth (List.replicate k i.1) hs
  refine ⟨d, hd, fun o p x hx hr m => ?_⟩
  have hr' : ∀ t ∈ Set.uIcc (p i) x, Reg (Function.update p i t) e := fun t ht => (regularAt_iff hs o).1 (hr t ht)
  have hp : Reg p e := by simpa using hr' (p i) Set.left_mem_uIcc
  obtain ⟨ξ, hξ, h⟩ := taylor_mean_remainder_lagrange_iteratedDeriv (f := fun s => rv (Function.update p i s) e)
    (n := m) hx.symm (fun t ht => (hr' t ht).contDiffAt_update.contDiffWithinAt)
  have hξ' := hr' ξ (Set.uIoo_subset_uIcc_self hξ)
  have h0 : Reg (Function.update p i (p i)) e := by simpa using hp
  refine ⟨fun k => rv p (d k), rv (Function.update p i ξ) (d (m + 1)), ξ, hξ, fun k _ => ?_, ?_, ?_⟩
  · have := (h0.iteratedDeriv hd k).1.eval o
    simpa using this
  · exact (hξ'.iteratedDeriv hd (m + 1)).1.eval o
  · rw [(hr' x Set.right_mem_uIcc).eval]
    rw [(hξ'.iteratedDeriv hd (m + 1)).2.eq_of_nhds, taylor_within_apply] at h
    have hsum : ∀ k ∈ Finset.range (m + 1),
        ((k ! : ℝ)⁻¹ * (x - p i) ^ k) • iteratedDerivWithin k (fun s => rv (Function.update p i s) e)
          (Set.uIcc (p i) x) (p i) = rv p (d k) * (x - p i) ^ k / k ! := by
      intro k _
      rw [iteratedDerivWithin_eq_iteratedDeriv (uniqueDiffOn_uIcc hx.symm) h0.contDiffAt_update Set.left_mem_uIcc,
        (h0.iteratedDeriv hd k).2.eq_of_nhds]
      simp only [Function.update_eq_self, smul_eq_mul]
      ring
    rw [Finset.sum_congr rfl hsum] at h
    congr 2
    linarith

/-- `exp(x0) / x1` from `(0, 1)` to `(2, 1)`. -/
example : ∃ (e : Expr XReal) (p : Fin 2 → ℝ), Smooth e ∧ (2 : ℝ) ≠ p 0 ∧
    ∀ t ∈ Set.uIcc (p 0) 2, RegularAt leftFirst (Function.update p 0 t) e := by
  have he : Smooth (.bin .div (.un (.fn .exp) (.var 0)) (.var 1) : Expr XReal) :=
    .bin (.inr (.inr (.inr rfl))) (.fn (by decide) (.var 0)) (.var 1)
  refine ⟨_, ![0, 1], he, by norm_num, fun t _ => (regularAt_iff he _).2 ?_⟩
  simp [Reg, fnOk, opOk, rv]

/-- C85.  Mean value theorem in several variables.  If `e` is regular on the segment from `p` to `q`, then its values
at the ends differ by the sum of the values that `diff(e, x_i)` has at some point between, times `q i - p i`. -/
theorem C85_mean_value (e : Expr XReal) (hs : Smooth e) :
    ∃ d : Fin n → Expr XReal, (∀ i : Fin n, diff (.var i.1) e = .ok (d i)) ∧
      ∀ (o : Order XReal) (p q : Fin n → ℝ),
        (∀ t ∈ Set.Icc (0 : ℝ) 1, RegularAt o (p + t • (q - p)) e) →
        ∃ (a b : ℝ) (c : Fin n → ℝ), ∃ t ∈ Set.Ioo (0 : ℝ) 1,
          eval o (realPoint p) e = .ok (some a) ∧ eval o (realPoint q) e = .ok (some b) ∧
          (∀ i, eval o (realPoint (p + t • (q - p))) (d i) = .ok (some (c i))) ∧
          b - a = ∑ i, c i * (q i - p i) := by
  choose d hd _ using fun i : Fin n => C11_derivative e i.1 hs
  refine ⟨d, hd, fun o p q hr => ?_⟩
  have hr' : ∀ t ∈ Set.Icc (0 : ℝ) 1, Reg (p + t • (q - p)) e := fun t ht => (regularAt_iff hs o).1 (hr t ht)
  have h0 : Reg p e := by simpa using hr' 0 (by simp)
  have h1 : Reg q e := by simpa using hr' 1 (by simp)
  have hda := fun t ht => (hr' t ht).hasDerivAt_line hd
  obtain ⟨t, ht, h⟩ := exists_hasDerivAt_eq_slope (fun s : ℝ => rv (p + s • (q - p)) e)
    (fun t => ∑ i, rv (p + t • (q - p)) (d i) * (q i - p i)) zero_lt_one
    (fun t ht => (hda t ht).continuousAt.continuousWithinAt) (fun t ht => hda t (Set.Ioo_subset_Icc_self ht))
  refine ⟨rv p e, rv q e, fun i => rv (p + t • (q - p)) (d i), t, ht, h0.eval o, h1.eval o,
    fun i => ((hr' t (Set.Ioo_subset_Icc_self ht)).diff (hd i)).eval o, ?_⟩
  simpa using h.symm

/-- `x0 / x1` from `(1, 1)` to `(3, 2)`. -/
example : ∃ (e : Expr XReal) (p q : Fin 2 → ℝ), Smooth e ∧
    ∀ t ∈ Set.Icc (0 : ℝ) 1, RegularAt leftFirst (p + t • (q - p)) e := by
  have he : Smooth (.bin .div (.var 0) (.var 1) : Expr XReal) := .bin (.inr (.inr (.inr rfl))) (.var 0) (.var 1)
  refine ⟨_, ![1, 1], ![3, 2], he, fun t ht => (regularAt_iff he _).2 ?_⟩
  have := ht.1
  simp only [Reg, opOk, rv]
  norm_num
  linarith

/-- C85.  If every derivative of `e` evaluates to 0 wherever `e` is regular, then `e` has the same value at the two ends
of every segment on which it is regular. -/
theorem C85_constant (e : Expr XReal) (hs : Smooth e) (o : Order XReal)
    (h0 : ∀ (i : Fin n) d, diff (.var i.1) e = .ok d → ∀ p : Fin n → ℝ, RegularAt o p e →
      eval o (realPoint p) d = .ok (some 0))
    (p q : Fin n → ℝ) (hr : ∀ t ∈ Set.Icc (0 : ℝ) 1, RegularAt o (p + t • (q - p)) e) :
    ∃ a : ℝ, eval o (realPoint p) e = .ok (some a) ∧ eval o (realPoint q) e = .ok (some a) := by
  obtain ⟨d, hd, h⟩ := C85_mean_value (n := n) e hs
  obtain ⟨a, b, c, t, ht, h1, h2, h3, h4⟩ := h o p q hr
  have hc : ∀ i, c i = 0 := by
    intro i
    have := h0 i (d i) (hd i) _ (hr t (Set.Ioo_subset_Icc_self ht))
    rw [h3 i] at this
    simpa using this
  simp only [hc, zero_mul, Finset.sum_const_zero] at h4
  exact ⟨a, h1, by rw [h2, sub_eq_zero.1 h4]⟩

/-- `sin(x0)*sin(x0) + cos(x0)*cos(x0)`: its derivative has the value 0 everywhere. -/
example : ∃ e : Expr XReal, Smooth e ∧ (∀ p : Fin 1 → ℝ, RegularAt leftFirst p e) ∧
    ∀ (i : Fin 1) d, diff (.var i.1) e = .ok d → ∀ p : Fin 1 → ℝ, RegularAt leftFirst p e →
      eval leftFirst (realPoint p) d = .ok (some 0) := by
  have A : IsArithOp .plus := .inl rfl
  have M : IsArithOp .mult := .inr (.inr (.inl rfl))
  have s : Smooth (.un (.fn .sin) (.var 0) : Expr XReal) := .fn (by decide) (.var 0)
  have c : Smooth (.un (.fn .cos) (.var 0) : Expr XReal) := .fn (by decide) (.var 0)
  have he := Smooth.bin A (.bin M s s) (.bin M c c)
  have hr : ∀ p : Fin 1 → ℝ, Reg p (.bin .plus (.bin .mult (.un (.fn .sin) (.var 0)) (.un (.fn .sin) (.var 0)))
      (.bin .mult (.un (.fn .cos) (.var 0)) (.un (.fn .cos) (.var 0))) : Expr XReal) := by
    intro p; simp [Reg, fnOk, opOk]
  refine ⟨_, he, fun p => (regularAt_iff he _).2 (hr p), fun i d hd p _ => ?_⟩
  have h1 := (hr p).hasDerivAt hd
  have h2 : (fun t => rv (Function.update p i t) (.bin .plus (.bin .mult (.un (.fn .sin) (.var 0))
      (.un (.fn .sin) (.var 0))) (.bin .mult (.un (.fn .cos) (.var 0)) (.un (.fn .cos) (.var 0))) : Expr XReal)) =
      fun _ => 1 := by
    funext t
    simp only [rv, opR, fnR]
    nlinarith [Real.sin_sq_add_cos_sq (if h : 0 < 1 then Function.update p i t ⟨0, h⟩ else 0)]
  rw [h2] at h1
  rw [((hr p).diff hd).eval, h1.unique (hasDerivAt_const _ _)]

/-- Values that agree at the point only are not enough: `x0` and `x0 * x0` at 1. -/
example : ∃ (e f d d' : Expr XReal) (p : Fin 1 → ℝ), Smooth e ∧ Smooth f ∧ RegularAt leftFirst p e ∧
    RegularAt leftFirst p f ∧ eval leftFirst (realPoint p) e = eval leftFirst (realPoint p) f ∧
    diffs [0] e = .ok d ∧ diffs [0] f = .ok d' ∧
    eval leftFirst (realPoint p) d ≠ eval leftFirst (realPoint p) d' := by
  have hf : Smooth (.bin .mult (.var 0) (.var 0) : Expr XReal) := .bin (.inr (.inr (.inl rfl))) (.var 0) (.var 0)
  have hr : Reg ![1] (.bin .mult (.var 0) (.var 0) : Expr XReal) := by simp [Reg, opOk]
  have hr' : Reg ![1] (.var 0 : Expr XReal) := by simp [Reg]
  obtain ⟨d, h1, -⟩ := C11_derivative _ 0 (Smooth.var 0)
  obtain ⟨d', h2, -⟩ := C11_derivative _ 0 hf
  have k1 := hr'.hasDerivAt (i := 0) h1
  have k2 := hr.hasDerivAt (i := 0) h2
  refine ⟨_, _, d, d', ![1], .var 0, hf, (regularAt_iff (.var 0) _).2 hr', (regularAt_iff hf _).2 hr, ?_,
    by simp [diffs, h1], by simp [diffs, h2], ?_⟩
  · rw [hr.eval, hr'.eval]; simp [rv, opR]
  · rw [(hr'.diff h1).eval, (hr.diff h2).eval]
    simp only [rv, opR] at k1 k2
    have e1 : HasDerivAt (fun t : ℝ => t) 1 1 := hasDerivAt_id (1 : ℝ)
    have e2 : HasDerivAt (fun t : ℝ => t * t) 2 1 := by
      have := (hasDerivAt_id (1 : ℝ)).mul (hasDerivAt_id (1 : ℝ))
      refine this.congr_deriv ?_
      norm_num
    rw [k1.unique (by simpa using e1), k2.unique (by simpa using e2)]
    norm_num

end VM.Props
