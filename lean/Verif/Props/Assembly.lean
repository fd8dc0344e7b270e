import Verif.Spec.Assembly
import Verif.Props.Weak
import Verif.Props.QuadError
/-
Property C74: weak forms integrated element by element.
-/
namespace VM.Props
open Spec MeasureTheory

/-- Midpoint values are near true integrals. -/
theorem form_midpoint {a b M : ℝ} (hab : a ≤ b) {F : Nat → Expr XReal} {k : Nat} {e : Expr XReal} {c : ℝ}
    (h : FormOn a b (BoundedBy a b M) F k e c) :
    ∃ v, WeakForm (fun t : Fin 2 => denotes (F t)) k (fun p : Fin 1 → ℝ => p = fun _ => (a + b) / 2)
      (fun g c => c = g (fun _ => (a + b) / 2) * (b - a)) e v ∧ |v - c| ≤ integrals e * (M * (b - a) ^ 3 / 24) := by
  have hm : (a + b) / 2 ∈ Set.Icc a b := ⟨by linarith, by linarith⟩
  unfold FormOn at h
  induction h with
  | integral g hg hc =>
    obtain ⟨⟨g2, ⟨g1, h1⟩, h2⟩, rfl⟩ := hc
    refine ⟨_, .integral g (fun p hp => hg p (by rw [hp]; exact hm)) rfl, ?_⟩
    simp only [integrals, Nat.cast_one, one_mul]
    exact midpoint_error hab (fun t ht => (h1 t ht).1) (fun t ht => (h1 t ht).2) h2
  | plus _ _ ihl ihr =>
    obtain ⟨v, hv, hv'⟩ := ihl
    obtain ⟨w, hw, hw'⟩ := ihr
    refine ⟨_, .plus hv hw, ?_⟩
    rw [add_sub_add_comm]
    refine (abs_add_le _ _).trans ((add_le_add hv' hw').trans (le_of_eq ?_))
    simp only [integrals]; push_cast; ring
  | minus _ _ ihl ihr =>
    obtain ⟨v, hv, hv'⟩ := ihl
    obtain ⟨w, hw, hw'⟩ := ihr
    refine ⟨_, .minus hv hw, ?_⟩
    rw [sub_sub_sub_comm]
    refine (abs_sub _ _).trans ((add_le_add hv' hw').trans (le_of_eq ?_))
    simp only [integrals]; push_cast; ring

/-- C74.  One element: the user's program returns a number that differs from the value of the form with true integrals
and true derivatives by at most `M (b - a)^3 / 24` for each integral in the form, `M` being a bound for the second
derivatives of the integrands. -/
theorem C74_element (o : Order XReal) (F : Nat → Expr XReal) (l : List (Nat × Nat))
    (hl : ∀ t x, (t, x) ∈ l ↔ t < 2 ∧ x < 1) (k : Nat) (e : Expr XReal) (a b c M : ℝ) (hab : a ≤ b)
    (hF : ∀ t : Fin 2, Smooth (F t) ∧ RegularAt leftFirst (fun _ : Fin 1 => (a + b) / 2) (F t))
    (h : FormOn a b (BoundedBy a b M) F k e c) :
    ∃ v : ℝ, element o F l k a b e = .ok (some v) ∧ |v - c| ≤ integrals e * (M * (b - a) ^ 3 / 24) := by
  obtain ⟨v, h1, h2⟩ := form_midpoint hab h
  obtain ⟨e1, e2, e3, h3, h4, h5, h6⟩ := C63_midpoint o F l hl k e (.const (some a)) (.const (some b)) a b v
    (.const _) (.const _) rfl rfl hF h1
  exact ⟨v, by simp only [element, h3, h4, h5, Res.bind]; exact h6, h2⟩

/-- C74.  Elements with expressions of their own: the sum of the numbers the user's program returns for the elements
`[knot j, knot (j + 1)]`, none longer than `h`, differs from the sum of the true values by at most `M (b - a) h^2 / 24`
for each integral in the form. -/
theorem C74_assembly (o : Order XReal) (F : Nat → Nat → Expr XReal) (l : List (Nat × Nat))
    (hl : ∀ t x, (t, x) ∈ l ↔ t < 2 ∧ x < 1) (k : Nat) (e : Expr XReal) (knot c : Nat → ℝ) (n : Nat) (h M : ℝ)
    (hk : ∀ j, knot j ≤ knot (j + 1)) (hh : ∀ j, knot (j + 1) - knot j ≤ h) (hM : 0 ≤ M)
    (hF : ∀ j < n, ∀ t : Fin 2, Smooth (F j t) ∧
      RegularAt leftFirst (fun _ : Fin 1 => (knot j + knot (j + 1)) / 2) (F j t))
    (he : ∀ j < n, FormOn (knot j) (knot (j + 1)) (BoundedBy (knot j) (knot (j + 1)) M) (F j) k e (c j)) :
    ∃ v : Nat → ℝ, (∀ j < n, element o (F j) l k (knot j) (knot (j + 1)) e = .ok (some (v j))) ∧
      |∑ j ∈ Finset.range n, v j - ∑ j ∈ Finset.range n, c j| ≤
        integrals e * (M * (knot n - knot 0) * h ^ 2 / 24) := by
  have := fun j (hj : j < n) => C74_element o (F j) l hl k e (knot j) (knot (j + 1)) (c j) M (hk j) (hF j hj) (he j hj)
  choose! v hv hv' using this
  refine ⟨v, hv, ?_⟩
  rw [← Finset.sum_sub_distrib]
  refine (Finset.abs_sum_le_sum_abs _ _).trans ?_
  have step : ∀ j ∈ Finset.range n, |v j - c j| ≤ integrals e * (M * (knot (j + 1) - knot j) * h ^ 2 / 24) := by
    intro j hj
    refine (hv' j (Finset.mem_range.1 hj)).trans (mul_le_mul_of_nonneg_left ?_ (Nat.cast_nonneg _))
    have h0 := sub_nonneg.2 (hk j)
    have h2 : (knot (j + 1) - knot j) ^ 2 ≤ h ^ 2 := pow_le_pow_left₀ h0 (hh j) 2
    have := mul_le_mul_of_nonneg_left h2 (mul_nonneg hM h0)
    have e3 : M * (knot (j + 1) - knot j) * (knot (j + 1) - knot j) ^ 2 = M * (knot (j + 1) - knot j) ^ 3 := by ring
    linarith
  refine (Finset.sum_le_sum step).trans (le_of_eq ?_)
  rw [← Finset.mul_sum, ← Finset.sum_div, ← Finset.sum_mul, ← Finset.mul_sum, Finset.sum_range_sub]

/-- The conditions on the second derivatives may be weakened. -/
theorem FormOn.mono {a b : ℝ} {P Q : (ℝ → ℝ) → Prop} (hPQ : ∀ g, P g → Q g) {F : Nat → Expr XReal} {k : Nat}
    {e : Expr XReal} {c : ℝ} (h : FormOn a b P F k e c) : FormOn a b Q F k e c := by
  unfold FormOn at h ⊢
  induction h with
  | integral g hg hc =>
    obtain ⟨⟨g2, h1, h2⟩, h3⟩ := hc
    exact .integral g hg ⟨⟨g2, h1, hPQ _ h2⟩, h3⟩
  | plus _ _ ihl ihr => exact .plus ihl ihr
  | minus _ _ ihl ihr => exact .minus ihl ihr

/-- Continuous second derivatives have one bound. -/
theorem form_bounded {a b : ℝ} {F : Nat → Expr XReal} {k : Nat} {e : Expr XReal} {c : ℝ}
    (h : FormOn a b (fun g => ContinuousOn g (Set.Icc a b)) F k e c) :
    ∃ M : ℝ, 0 ≤ M ∧ FormOn a b (BoundedBy a b M) F k e c := by
  have big : ∀ {M N : ℝ}, M ≤ N → ∀ g, BoundedBy a b M g → BoundedBy a b N g :=
    fun h g hg t ht => (hg t ht).trans h
  unfold FormOn at h
  induction h with
  | integral g hg hc =>
    obtain ⟨⟨g2, h1, h2⟩, h3⟩ := hc
    obtain ⟨M, hM⟩ := isCompact_Icc.exists_bound_of_continuousOn h2
    exact ⟨max M 0, le_max_right _ _, .integral g hg ⟨⟨g2, h1, big (le_max_left _ _) _ hM⟩, h3⟩⟩
  | plus _ _ ihl ihr =>
    obtain ⟨M, hM, h1⟩ := ihl
    obtain ⟨N, hN, h2⟩ := ihr
    exact ⟨max M N, le_max_of_le_left hM, .plus (FormOn.mono (big (le_max_left _ _)) h1)
      (FormOn.mono (big (le_max_right _ _)) h2)⟩
  | minus _ _ ihl ihr =>
    obtain ⟨M, hM, h1⟩ := ihl
    obtain ⟨N, hN, h2⟩ := ihr
    exact ⟨max M N, le_max_of_le_left hM, .minus (FormOn.mono (big (le_max_left _ _)) h1)
      (FormOn.mono (big (le_max_right _ _)) h2)⟩

/-- A form over an interval is the sum of the forms over its pieces. -/
theorem form_split {F : Nat → Expr XReal} {k : Nat} {e : Expr XReal} {c M : ℝ} {knot : Nat → ℝ} {n : Nat}
    (hk : ∀ j, knot j ≤ knot (j + 1)) (h : FormOn (knot 0) (knot n) (BoundedBy (knot 0) (knot n) M) F k e c) :
    ∃ d : Nat → ℝ, ∑ j ∈ Finset.range n, d j = c ∧
      ∀ j < n, FormOn (knot j) (knot (j + 1)) (BoundedBy (knot j) (knot (j + 1)) M) F k e (d j) := by
  have mono : Monotone knot := monotone_nat_of_le_succ hk
  have sub : ∀ j < n, Set.Icc (knot j) (knot (j + 1)) ⊆ Set.Icc (knot 0) (knot n) :=
    fun j hj => Set.Icc_subset_Icc (mono (Nat.zero_le j)) (mono hj)
  unfold FormOn at h
  induction h with
  | integral g hg hc =>
    obtain ⟨⟨g2, ⟨g1, h1⟩, h2⟩, rfl⟩ := hc
    refine ⟨fun j => ∫ t in knot j..knot (j + 1), g fun _ => t, ?_, fun j hj => .integral g
      (fun p hp => hg p (sub j hj hp)) ⟨⟨g2, ⟨g1, fun t ht => h1 t (sub j hj ht)⟩, fun t ht => h2 t (sub j hj ht)⟩, rfl⟩⟩
    exact intervalIntegral.sum_integral_adjacent_intervals fun j hj =>
      ContinuousOn.intervalIntegrable_of_Icc (hk j) fun t ht =>
        (h1 t (sub j hj ht)).1.continuousAt.continuousWithinAt
  | plus _ _ ihl ihr =>
    obtain ⟨d, hd, h1⟩ := ihl
    obtain ⟨f, hf, h2⟩ := ihr
    exact ⟨fun j => d j + f j, by rw [Finset.sum_add_distrib, hd, hf], fun j hj => .plus (h1 j hj) (h2 j hj)⟩
  | minus _ _ ihl ihr =>
    obtain ⟨d, hd, h1⟩ := ihl
    obtain ⟨f, hf, h2⟩ := ihr
    exact ⟨fun j => d j - f j, by rw [Finset.sum_sub_distrib, hd, hf], fun j hj => .minus (h1 j hj) (h2 j hj)⟩

/-- C74.  With `n + 1` elements of one length the sum differs from the value of the form over `[a, b]` by at most a
constant divided by the square of the number of elements, if the second derivatives of the integrands are
continuous. -/
theorem C74_converges (o : Order XReal) (F : Nat → Expr XReal) (l : List (Nat × Nat))
    (hl : ∀ t x, (t, x) ∈ l ↔ t < 2 ∧ x < 1) (k : Nat) (e : Expr XReal) (a b c : ℝ) (hab : a ≤ b)
    (hF : ∀ t : Fin 2, Smooth (F t) ∧ ∀ s ∈ Set.Icc a b, RegularAt leftFirst (fun _ : Fin 1 => s) (F t))
    (h : FormOn a b (fun g => ContinuousOn g (Set.Icc a b)) F k e c) :
    ∃ C : ℝ, ∀ n : ℕ, ∃ v : Nat → ℝ,
      (∀ j < n + 1, element o F l k (a + j * ((b - a) / (n + 1))) (a + (j + 1 : ℕ) * ((b - a) / (n + 1))) e =
        .ok (some (v j))) ∧
      |∑ j ∈ Finset.range (n + 1), v j - c| ≤ C / (n + 1) ^ 2 := by
  obtain ⟨M, hM, h⟩ := form_bounded h
  refine ⟨integrals e * (M * (b - a) ^ 3 / 24), fun n => ?_⟩
  have hn : (0 : ℝ) < n + 1 := by positivity
  have hw : 0 ≤ (b - a) / (n + 1) := div_nonneg (by linarith) hn.le
  have e0 : a + ((0 : ℕ) : ℝ) * ((b - a) / (n + 1)) = a := by simp
  have e1 : a + ((n + 1 : ℕ) : ℝ) * ((b - a) / (n + 1)) = b := by push_cast; field_simp; ring
  have hk : ∀ j : ℕ, a + (j : ℝ) * ((b - a) / (n + 1)) ≤ a + ((j + 1 : ℕ) : ℝ) * ((b - a) / (n + 1)) :=
    fun j => by push_cast; linarith
  have mono : Monotone fun j : ℕ => a + (j : ℝ) * ((b - a) / (n + 1)) := monotone_nat_of_le_succ hk
  obtain ⟨d, hd, hd'⟩ := form_split (knot := fun j : ℕ => a + (j : ℝ) * ((b - a) / (n + 1))) (n := n + 1) (M := M) hk
    (by simp only [e0, e1]; exact h)
  obtain ⟨v, hv, hv'⟩ := C74_assembly o (fun _ => F) l hl k e (fun j => a + j * ((b - a) / (n + 1))) d (n + 1)
    ((b - a) / (n + 1)) M hk (fun j => by push_cast; linarith) hM (fun j hj t => ⟨(hF t).1, (hF t).2 _ (by
      have h1 := mono (Nat.zero_le j)
      have h2 := mono (show j + 1 ≤ n + 1 from hj)
      have h3 := hk j
      simp only [e0, e1] at h1 h2
      constructor <;> linarith)⟩) hd'
  refine ⟨v, hv, ?_⟩
  simp only [e0, e1] at hv'
  rw [hd] at hv'
  refine hv'.trans (le_of_eq ?_)
  field_simp

/-! ### The hypotheses can be met -/

/-- `∫ u * v - ∫ u` over the interval from 0 to 1 for `u = x`, `v = 1 - x`: the first integrand has the second
derivative `-2`, the other one 0. -/
example : FormOn 0 1 (fun g => ContinuousOn g (Set.Icc 0 1)) exF1 7
      (.bin .minus (.un (.symInt 7) (.bin .mult symU symV)) (.un (.symInt 7) symU)) (1 / 6 - 1 / 2) ∧
    FormOn 0 1 (BoundedBy 0 1 2) exF1 7
      (.bin .minus (.un (.symInt 7) (.bin .mult symU symV)) (.un (.symInt 7) symU)) (1 / 6 - 1 / 2) := by
  have key : ∀ P : (ℝ → ℝ) → Prop, P (fun _ => -2) → P (fun _ => 0) → FormOn 0 1 P exF1 7
      (.bin .minus (.un (.symInt 7) (.bin .mult symU symV)) (.un (.symInt 7) symU)) (1 / 6 - 1 / 2) := by
    intro P h1 h2
    refine .minus (.integral (fun q : Fin 1 → ℝ => denotes (exF1 0) q * denotes (exF1 1) q)
      (fun p _ => .op (.sym 0) (.sym 1) rfl) ⟨⟨_, ⟨fun t => 1 - 2 * t, fun t _ => ?_⟩, h1⟩, ?_⟩)
      (.integral (denotes (exF1 0)) (fun p _ => .sym 0) ⟨⟨_, ⟨fun _ => 1, fun t _ => ?_⟩, h2⟩, ?_⟩)
    · simp only [exF1_value]
      constructor
      · exact ((hasDerivAt_id t).mul ((hasDerivAt_const t (1 : ℝ)).sub (hasDerivAt_id t))).congr_deriv (by simp; ring)
      · exact ((hasDerivAt_const t (1 : ℝ)).sub ((hasDerivAt_id t).const_mul 2)).congr_deriv (by simp)
    · simp only [exF1_value]
      have : (fun t : ℝ => t * (1 - t)) = fun t => t - t ^ 2 := by funext t; ring
      rw [this, intervalIntegral.integral_sub (Continuous.intervalIntegrable (by fun_prop) _ _)
        (Continuous.intervalIntegrable (by fun_prop) _ _), integral_id, integral_pow]
      norm_num
    · simp only [exF1_value]
      exact ⟨hasDerivAt_id t, hasDerivAt_const t 1⟩
    · simp [exF1_value]
  exact ⟨key _ continuousOn_const continuousOn_const, key _ (fun t _ => by norm_num) (fun t _ => by norm_num)⟩

example (s : ℝ) (t : Fin 2) : Smooth (exF1 t) ∧ RegularAt leftFirst (fun _ : Fin 1 => s) (exF1 t) := by
  have hs : ∀ t, Smooth (exF1 t) := fun t => by
    cases t with
    | zero => exact .var _
    | succ => exact .bin (.inr (.inl rfl)) (.const _) (.var _)
  refine ⟨hs t, (regularAt_iff (hs t) leftFirst).2 ?_⟩
  obtain rfl | rfl : t = 0 ∨ t = 1 := by omega
  · simp [exF1, Reg]
  · simp [exF1, Reg, opOk]

end VM.Props
