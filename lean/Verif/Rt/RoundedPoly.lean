import Verif.Rt.RoundedDiff
/-
C68: explicit error bounds for polynomial expressions.
-/
namespace VM
open Spec
variable {R : Rounding}

theorem Spec.NearNum.exact {c : XReal} {d : Fl R} (h : NearNum 0 R c d) : d.val = c := by
  obtain ⟨x, y, rfl, h2, h3⟩ := h
  have : y = x := by
    rw [zero_mul] at h3
    exact sub_eq_zero.1 (abs_nonpos_iff.1 h3)
  rw [h2, this]

theorem getD_of {v : List XReal} {i : Nat} {a : ℝ} (h : v[i]? = some (some a)) : (v.getD i none).getD 0 = a := by
  simp [List.getD, h]

theorem eval_var_eq {K : Type} [Num K] {o : Order K} {v : List K} {i : Nat} {a : K} (h : eval o v (.var i) = .ok a) :
    v[i]? = some a := by
  rw [eval] at h
  split at h
  · rename_i hi; cases h; exact hi
  · cases h

theorem eval_bin_eq {K : Type} [Num K] {o : Order K} {v : List K} {op : BOp} {l r : Expr K} {a : K}
    (h : eval o v (.bin op l r) = .ok a) :
    ∃ x y, eval o v l = .ok x ∧ eval o v r = .ok y ∧ applyB op x y = .ok a := by
  rw [eval, Res.both_eq_ok] at h
  exact h

theorem arith_none {op : BOp} (hop : IsArithOp op) {x y : Fl R} (h : x.val = none ∨ y.val = none) :
    (arith op x y).val = none := by
  rcases hop with rfl | rfl | rfl | rfl
  · exact SimpLaws.bad_add (x := x) (y := y) h
  · exact SimpLaws.bad_sub (x := x) (y := y) h
  · exact SimpLaws.bad_mul (x := x) (y := y) h
  · exact SimpLaws.bad_div (x := x) (y := y) h

theorem round_err {z y b E m : ℝ} (he : 0 ≤ R.eps) (hy : (Fl.of R z).val = some y) (hz : |z - b| ≤ E) (hb : |b| ≤ m) :
    |y - b| ≤ (1 + R.eps) * E + R.eps * m + R.eta := by
  rw [Fl.val_of] at hy
  have h1 := R.round_near hy
  have h2 : |z| ≤ m + E := by
    have := abs_sub_abs_le_abs_sub z b; linarith
  have h3 : |y - b| ≤ |y - z| + |z - b| := abs_sub_le _ _ _
  have h4 : R.eps * |z| ≤ R.eps * (m + E) := mul_le_mul_of_nonneg_left h2 he
  nlinarith

theorem prod_err {x y a b X Y m k : ℝ} (hx : |x - a| ≤ X) (hy : |y - b| ≤ Y) (ha : |a| ≤ m) (hb : |b| ≤ k) :
    |x * y - a * b| ≤ m * Y + X * k + X * Y := by
  have h0 : x * y - a * b = a * (y - b) + (x - a) * b + (x - a) * (y - b) := by ring
  have hX := (abs_nonneg _).trans hx
  have hm := (abs_nonneg _).trans ha
  rw [h0]
  refine (abs_add_le _ _).trans (add_le_add ((abs_add_le _ _).trans (add_le_add ?_ ?_)) ?_) <;> rw [abs_mul]
  · exact mul_le_mul ha hy (abs_nonneg _) hm
  · exact mul_le_mul hx hb (abs_nonneg _) hX
  · exact mul_le_mul hx hy (abs_nonneg _) hX

theorem poly_error {e : Expr XReal} {d : Expr (Fl R)} (hR : 0 ≤ R.eps) (hn : NearExpr 0 R e d) (hp : Poly e)
    {v : List XReal} {w : List (Fl R)} (hv : NearVals 0 R v w) (o : Order XReal) (o' : Order (Fl R)) :
    ∀ {x : Fl R} {y a : ℝ}, eval o v e = .ok (some a) → eval o' w d = .ok x → x.val = some y →
      |y - a| ≤ errorBound R.eps R.eta v e ∧ |a| ≤ magnitude v e := by
  induction hn with
  | @const c d hn =>
    intro x y a h1 h2 h3
    cases h1; cases h2
    rw [hn.exact] at h3; cases h3
    simp [errorBound, magnitude]
  | var i =>
    intro x y a h1 h2 h3
    have h1' := eval_var_eq h1
    have h2' := eval_var_eq h2
    obtain ⟨x', y', h4, h5, h6⟩ := nearVals_get hv h1'
    rw [h2'] at h4; cases h4
    rw [h3] at h5; cases h5
    rw [zero_mul] at h6
    refine ⟨h6, ?_⟩
    rw [magnitude, getD_of h1']
  | fn _ _ => cases hp
  | @bin op l r m s hop hl hr ihl ihr =>
    intro x y a h1 h2 h3
    cases hp with
    | bin hop' hpl hpr =>
      obtain ⟨al, ar, g1, g2, g3⟩ := eval_bin_eq h1
      obtain ⟨xl, xr, k1, k2, k3⟩ := eval_bin_eq h2
      rw [applyB_eq_arith hop] at g3 k3
      have g3 := Res.ok.inj g3
      have k3 := Res.ok.inj k3
      cases hxl : xl.val with
      | none => exact absurd h3 (by rw [← k3, arith_none hop (.inl hxl)]; exact nofun)
      | some yl =>
      cases hxr : xr.val with
      | none => exact absurd h3 (by rw [← k3, arith_none hop (.inr hxr)]; exact nofun)
      | some yr =>
      cases al with
      | none => rcases hop' with rfl | rfl | rfl <;> cases g3
      | some al =>
      cases ar with
      | none => rcases hop' with rfl | rfl | rfl <;> cases g3
      | some ar =>
      obtain ⟨p1, p2⟩ := ihl hpl g1 k1 hxl
      obtain ⟨q1, q2⟩ := ihr hpr g2 k2 hxr
      rcases hop' with rfl | rfl | rfl
      · cases g3; subst k3
        simp only [arith, Num.add, hxl, hxr, XReal.lift2, Fl.lift] at h3
        refine ⟨round_err hR h3 ?_ ?_, ?_⟩
        · rw [add_sub_add_comm]; exact (abs_add_le _ _).trans (add_le_add p1 q1)
        · exact (abs_add_le _ _).trans (add_le_add p2 q2)
        · exact (abs_add_le _ _).trans (add_le_add p2 q2)
      · cases g3; subst k3
        simp only [arith, Num.sub, hxl, hxr, XReal.lift2, Fl.lift] at h3
        refine ⟨round_err hR h3 ?_ ?_, ?_⟩
        · rw [sub_sub_sub_comm]; exact (abs_sub _ _).trans (add_le_add p1 q1)
        · exact (abs_sub _ _).trans (add_le_add p2 q2)
        · exact (abs_sub _ _).trans (add_le_add p2 q2)
      · cases g3; subst k3
        simp only [arith, Num.mul, hxl, hxr, XReal.lift2, Fl.lift] at h3
        have hm : |al * ar| ≤ magnitude v l * magnitude v r := by
          rw [abs_mul]; exact mul_le_mul p2 q2 (abs_nonneg _) ((abs_nonneg _).trans p2)
        exact ⟨round_err hR h3 (prod_err p1 q1 p2 q2) hm, hm⟩

theorem magnitude_nonneg (v : List XReal) {e : Expr XReal} (hp : Poly e) : 0 ≤ magnitude v e := by
  induction hp with
  | const c => exact abs_nonneg _
  | var i => exact abs_nonneg _
  | bin h _ _ ihl ihr =>
    rcases h with rfl | rfl | rfl
    · exact add_nonneg ihl ihr
    · exact add_nonneg ihl ihr
    · exact mul_nonneg ihl ihr

theorem errorBound_nonneg {ε η : ℝ} (h : 0 ≤ ε) (h' : 0 ≤ η) (v : List XReal) {e : Expr XReal} (hp : Poly e) :
    0 ≤ errorBound ε η v e := by
  induction hp with
  | const c => exact le_rfl
  | var i => exact le_rfl
  | bin hop hl hr ihl ihr =>
    have m1 := magnitude_nonneg v hl
    have m2 := magnitude_nonneg v hr
    rcases hop with rfl | rfl | rfl <;> simp only [errorBound] <;> positivity

theorem errorBound_le {ε : ℝ} (h : 0 ≤ ε) (v : List XReal) {e : Expr XReal} (hp : Poly e) :
    errorBound ε 0 v e ≤ ((1 + ε) ^ rounds e - 1) * magnitude v e := by
  have key : ∀ {l r : Expr XReal}, Poly l → Poly r →
      errorBound ε 0 v l ≤ ((1 + ε) ^ rounds l - 1) * magnitude v l →
      errorBound ε 0 v r ≤ ((1 + ε) ^ rounds r - 1) * magnitude v r →
      (1 + ε) * (errorBound ε 0 v l + errorBound ε 0 v r) + ε * (magnitude v l + magnitude v r) + 0 ≤
      ((1 + ε) ^ (max (rounds l) (rounds r) + 1) - 1) * (magnitude v l + magnitude v r) := by
    intro l r hl hr ihl ihr
    have m1 := magnitude_nonneg v hl
    have m2 := magnitude_nonneg v hr
    have p1 : (1 + ε) ^ rounds l ≤ (1 + ε) ^ max (rounds l) (rounds r) := pow_le_pow_right₀ (by linarith) (le_max_left _ _)
    have p2 : (1 + ε) ^ rounds r ≤ (1 + ε) ^ max (rounds l) (rounds r) := pow_le_pow_right₀ (by linarith) (le_max_right _ _)
    rw [pow_succ]
    generalize (1 + ε) ^ max (rounds l) (rounds r) = P at *
    have q1 : errorBound ε 0 v l ≤ (P - 1) * magnitude v l := ihl.trans (mul_le_mul_of_nonneg_right (by linarith) m1)
    have q2 : errorBound ε 0 v r ≤ (P - 1) * magnitude v r := ihr.trans (mul_le_mul_of_nonneg_right (by linarith) m2)
    have := mul_le_mul_of_nonneg_left (add_le_add q1 q2) (show 0 ≤ 1 + ε by linarith)
    linarith
  induction hp with
  | const c => simp [errorBound, rounds]
  | var i => simp [errorBound, rounds]
  | @bin op l r hop hl hr ihl ihr =>
    rcases hop with rfl | rfl | rfl
    · exact key hl hr ihl ihr
    · exact key hl hr ihl ihr
    · have m1 := magnitude_nonneg v hl
      have m2 := magnitude_nonneg v hr
      simp only [errorBound, rounds, magnitude]
      rw [pow_succ, pow_add]
      have g1 : 1 ≤ (1 + ε) ^ rounds l := one_le_pow₀ (by linarith)
      have g2 : 1 ≤ (1 + ε) ^ rounds r := one_le_pow₀ (by linarith)
      generalize (1 + ε) ^ rounds l = P at *
      generalize (1 + ε) ^ rounds r = Q at *
      have a1 : magnitude v l * errorBound ε 0 v r ≤ magnitude v l * ((Q - 1) * magnitude v r) :=
        mul_le_mul_of_nonneg_left ihr m1
      have a2 : errorBound ε 0 v l * (magnitude v r + errorBound ε 0 v r) ≤
          ((P - 1) * magnitude v l) * (Q * magnitude v r) := by
        refine mul_le_mul ihl (by linarith) ?_ (mul_nonneg (by linarith) m1)
        have : 0 ≤ errorBound ε 0 v r := errorBound_nonneg h le_rfl v hr
        linarith
      have := mul_le_mul_of_nonneg_left (add_le_add a1 a2) (show 0 ≤ 1 + ε by linarith)
      nlinarith

theorem Spec.Positive.poly {v : List XReal} {e : Expr XReal} (h : Positive v e) : Poly e := by
  induction h with
  | const _ => exact .const _
  | var _ _ => exact .var _
  | bin hop _ _ ihl ihr => exact .bin (hop.imp id .inr) ihl ihr

theorem Spec.Positive.magnitude {v : List XReal} {e : Expr XReal} (h : Positive v e) (o : Order XReal) {a : ℝ}
    (ha : eval o v e = .ok (some a)) : Spec.magnitude v e = a := by
  induction h generalizing a with
  | const h => cases ha; exact abs_of_nonneg h
  | var hi h =>
    have := eval_var_eq ha
    rw [hi] at this; cases this
    rw [Spec.magnitude, getD_of hi, abs_of_nonneg h]
  | @bin op l r hop _ _ ihl ihr =>
    obtain ⟨x, y, h1, h2, h3⟩ := eval_bin_eq ha
    cases x with
    | none => rcases hop with rfl | rfl <;> cases h3
    | some x =>
    cases y with
    | none => rcases hop with rfl | rfl <;> cases h3
    | some y => rcases hop with rfl | rfl <;> cases h3 <;> (rw [Spec.magnitude, ihl h1, ihr h2]; try exact nofun)

end VM
