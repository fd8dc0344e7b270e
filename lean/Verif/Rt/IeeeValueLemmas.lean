import Verif.Spec.Ieee
/-
The arithmetic of IEEE numbers as arithmetic of extended real numbers.
-/
namespace VM
open Spec
variable {R : Rounding}

theorem roundedTo_coe (x : ℝ) : roundedTo R (x : EReal) =
    match R.round x with
    | some y => (y : EReal)
    | none => if x < 0 then ⊥ else ⊤ := by
  have h : ¬ ((x : EReal) = ⊤ ∨ (x : EReal) = ⊥) := by simp
  rw [roundedTo, if_neg h, EReal.toReal_coe]
  cases R.round x <;> simp

@[simp] theorem roundedTo_top : roundedTo R ⊤ = ⊤ := by simp [roundedTo]
@[simp] theorem roundedTo_bot : roundedTo R ⊥ = ⊥ := by simp [roundedTo]
@[simp] theorem roundedTo_zero : roundedTo R 0 = 0 := by
  have := roundedTo_coe (R := R) 0
  rw [R.round_self R.zero] at this
  simpa using this

theorem roundedTo_mem {x : ℝ} (h : R.mem x) : roundedTo R (x : EReal) = x := by
  rw [roundedTo_coe, R.round_self h]

theorem extended_of (x : ℝ) (s : Bool) : extended (Ieee.of R x s) = some (roundedTo R (x : EReal)) := by
  rw [roundedTo_coe, Ieee.of]
  split <;> rename_i h <;> simp only [h]
  · by_cases h0 : x < 0 <;> simp [extended, h0]
  · split <;> rename_i h0 <;> simp [extended, h0]

theorem minus_of {x : ℝ} {s : Bool} (h0 : x ≠ 0) (h : Extreme (Ieee.of R x s)) :
    Minus (Ieee.of R x s) ↔ x < 0 := by
  rw [Ieee.of] at h ⊢
  split at h
  · simp [Minus]
  · split at h <;> rename_i h1
    · simp [Minus, h1, h0]
    · rcases h with ⟨s, h⟩ | ⟨s, h⟩ <;> cases h

theorem extended_neg (a : Ieee R) : extended a.neg = (extended a).map fun x => -x := by
  cases a with
  | nan => rfl
  | inf s => cases s <;> simp [extended, Ieee.neg]
  | zero s => simp [extended, Ieee.neg]
  | num x h h0 => simp [extended, Ieee.neg]

theorem extended_add (a b : Ieee R) (x y : EReal) (ha : extended a = some x) (hb : extended b = some y) :
    extended (Ieee.add a b) = if x = ⊤ ∧ y = ⊥ ∨ x = ⊥ ∧ y = ⊤ then none else some (roundedTo R (x + y)) := by
  cases a with
  | nan => cases ha
  | inf s =>
    cases b with
    | nan => cases hb
    | inf t => simp only [extended, Option.some.injEq] at ha hb; subst ha; subst hb; cases s <;> cases t <;> simp [extended, Ieee.add]
    | zero t => simp only [extended, Option.some.injEq] at ha hb; subst ha; subst hb; cases s <;> simp [extended, Ieee.add]
    | num y' h h0 => simp only [extended, Option.some.injEq] at ha hb; subst ha; subst hb; cases s <;> simp [extended, Ieee.add]
  | zero s =>
    cases b with
    | nan => cases hb
    | inf t => simp only [extended, Option.some.injEq] at ha hb; subst ha; subst hb; cases t <;> simp [extended, Ieee.add]
    | zero t => simp only [extended, Option.some.injEq] at ha hb; subst ha; subst hb; simp [extended, Ieee.add]
    | num y' h h0 => simp only [extended, Option.some.injEq] at ha hb; subst ha; subst hb; simp [extended, Ieee.add, roundedTo_mem h]
  | num x' h h0 =>
    cases b with
    | nan => cases hb
    | inf t => simp only [extended, Option.some.injEq] at ha hb; subst ha; subst hb; cases t <;> simp [extended, Ieee.add]
    | zero t => simp only [extended, Option.some.injEq] at ha hb; subst ha; subst hb; simp [extended, Ieee.add, roundedTo_mem h]
    | num y' h' h0' =>
      simp only [extended, Option.some.injEq] at ha hb; subst ha; subst hb
      rw [Ieee.add, extended_of]; simp [EReal.coe_add]

theorem extended_mul (a b : Ieee R) (x y : EReal) (ha : extended a = some x) (hb : extended b = some y) :
    extended (Ieee.mul a b) =
      if x = 0 ∧ (y = ⊤ ∨ y = ⊥) ∨ (x = ⊤ ∨ x = ⊥) ∧ y = 0 then none else some (roundedTo R (x * y)) := by
  cases a with
  | nan => cases ha
  | inf s =>
    cases b with
    | nan => cases hb
    | inf t => simp only [extended, Option.some.injEq] at ha hb; subst ha; subst hb; cases s <;> cases t <;> simp [extended, Ieee.mul, Ieee.sign]
    | zero t => simp only [extended, Option.some.injEq] at ha hb; subst ha; subst hb; cases s <;> simp [extended, Ieee.mul]
    | num y' h h0 =>
      simp only [extended, Option.some.injEq] at ha hb; subst ha; subst hb
      rcases lt_or_gt_of_ne h0 with h1 | h1 <;> cases s <;>
        simp [Ieee.mul, extended, Ieee.sign, h0, h1, h1.not_gt, EReal.top_mul_coe_of_neg, EReal.bot_mul_coe_of_neg,
          EReal.top_mul_coe_of_pos, EReal.bot_mul_coe_of_pos]
  | zero s =>
    cases b with
    | nan => cases hb
    | inf t => simp only [extended, Option.some.injEq] at ha hb; subst ha; subst hb; cases t <;> simp [extended, Ieee.mul]
    | zero t => simp only [extended, Option.some.injEq] at ha hb; subst ha; subst hb; simp [extended, Ieee.mul]
    | num y' h h0 => simp only [extended, Option.some.injEq] at ha hb; subst ha; subst hb; simp [extended, Ieee.mul]
  | num x' h h0 =>
    cases b with
    | nan => cases hb
    | inf t =>
      simp only [extended, Option.some.injEq] at ha hb; subst ha; subst hb
      rcases lt_or_gt_of_ne h0 with h1 | h1 <;> cases t <;>
        simp [Ieee.mul, extended, Ieee.sign, h0, h1, h1.not_gt, EReal.coe_mul_top_of_neg, EReal.coe_mul_bot_of_neg,
          EReal.coe_mul_top_of_pos, EReal.coe_mul_bot_of_pos]
    | zero t => simp only [extended, Option.some.injEq] at ha hb; subst ha; subst hb; simp [extended, Ieee.mul]
    | num y' h' h0' =>
      simp only [extended, Option.some.injEq] at ha hb; subst ha; subst hb
      rw [Ieee.mul, extended_of, if_neg]
      · simp [EReal.coe_mul]
      · simp

theorem extended_div (a b : Ieee R) (x y : EReal) (ha : extended a = some x) (hb : extended b = some y) (hy : y ≠ 0) :
    extended (Ieee.div a b) =
      if (x = ⊤ ∨ x = ⊥) ∧ (y = ⊤ ∨ y = ⊥) then none else some (roundedTo R (x / y)) := by
  cases a with
  | nan => cases ha
  | inf s =>
    cases b with
    | nan => cases hb
    | inf t => simp only [extended, Option.some.injEq] at ha hb; subst ha; subst hb; cases s <;> cases t <;> simp [extended, Ieee.div]
    | zero t => simp_all [extended]
    | num y' h h0 =>
      simp only [extended, Option.some.injEq] at ha hb; subst ha; subst hb
      rcases lt_or_gt_of_ne h0 with h1 | h1
      · have h2 : (y' : EReal) < 0 := by exact_mod_cast h1
        cases s <;> simp [Ieee.div, extended, Ieee.sign, h1, EReal.top_div_of_neg_ne_bot h2,
          EReal.bot_div_of_neg_ne_bot h2]
      · have h2 : (0 : EReal) < y' := by exact_mod_cast h1
        cases s <;> simp [Ieee.div, extended, Ieee.sign, h1.not_gt, EReal.top_div_of_pos_ne_top h2,
          EReal.bot_div_of_pos_ne_top h2]
  | zero s =>
    cases b with
    | nan => cases hb
    | inf t => simp only [extended, Option.some.injEq] at ha hb; subst ha; subst hb; cases t <;> simp [extended, Ieee.div]
    | zero t => simp_all [extended]
    | num y' h h0 => simp only [extended, Option.some.injEq] at ha hb; subst ha; subst hb; simp [extended, Ieee.div]
  | num x' h h0 =>
    cases b with
    | nan => cases hb
    | inf t => simp only [extended, Option.some.injEq] at ha hb; subst ha; subst hb; cases t <;> simp [extended, Ieee.div]
    | zero t => simp_all [extended]
    | num y' h' h0' =>
      simp only [extended, Option.some.injEq] at ha hb; subst ha; subst hb
      rw [Ieee.div, extended_of, if_neg]
      · simp [EReal.coe_div]
      · simp

theorem minus_mul (a b : Ieee R) (x y : EReal) (ha : extended a = some x) (hb : extended b = some y)
    (h : Extreme (Ieee.mul a b)) : Minus (Ieee.mul a b) ↔ (Minus a ↔ ¬ Minus b) := by
  have nn : ¬ Extreme (.nan : Ieee R) := by rintro (⟨s, h⟩ | ⟨s, h⟩) <;> cases h
  cases a with
  | nan => cases ha
  | inf s =>
    cases b with
    | nan => cases hb
    | inf t => cases s <;> cases t <;> simp [Ieee.mul, Minus, Ieee.sign]
    | zero t => exact absurd h nn
    | num y' h h0 => cases s <;> simp [Ieee.mul, Minus, Ieee.sign]
  | zero s =>
    cases b with
    | nan => cases hb
    | inf t => exact absurd h nn
    | zero t => cases s <;> cases t <;> simp [Ieee.mul, Minus, Ieee.sign]
    | num y' h h0 => cases s <;> simp [Ieee.mul, Minus, Ieee.sign]
  | num x' h1 h0 =>
    cases b with
    | nan => cases hb
    | inf t => cases t <;> simp [Ieee.mul, Minus, Ieee.sign]
    | zero t => cases t <;> simp [Ieee.mul, Minus, Ieee.sign]
    | num y' h1' h0' =>
      rw [Ieee.mul] at h ⊢
      rw [minus_of (mul_ne_zero h0 h0') h, Minus, Minus, mul_neg_iff]
      rcases lt_or_gt_of_ne h0 with h2 | h2 <;> rcases lt_or_gt_of_ne h0' with h3 | h3 <;>
        simp [h2, h3, h2.not_gt, h3.not_gt]

theorem minus_div (a b : Ieee R) (x y : EReal) (ha : extended a = some x) (hb : extended b = some y)
    (h : Extreme (Ieee.div a b)) : Minus (Ieee.div a b) ↔ (Minus a ↔ ¬ Minus b) := by
  have nn : ¬ Extreme (.nan : Ieee R) := by rintro (⟨s, h⟩ | ⟨s, h⟩) <;> cases h
  cases a with
  | nan => cases ha
  | inf s =>
    cases b with
    | nan => cases hb
    | inf t => exact absurd h nn
    | zero t => cases s <;> cases t <;> simp [Ieee.div, Minus, Ieee.sign]
    | num y' h h0 => cases s <;> simp [Ieee.div, Minus, Ieee.sign]
  | zero s =>
    cases b with
    | nan => cases hb
    | inf t => cases s <;> cases t <;> simp [Ieee.div, Minus, Ieee.sign]
    | zero t => exact absurd h nn
    | num y' h h0 => cases s <;> simp [Ieee.div, Minus, Ieee.sign]
  | num x' h1 h0 =>
    cases b with
    | nan => cases hb
    | inf t => cases t <;> simp [Ieee.div, Minus, Ieee.sign]
    | zero t => cases t <;> simp [Ieee.div, Minus, Ieee.sign]
    | num y' h1' h0' =>
      rw [Ieee.div] at h ⊢
      rw [minus_of (div_ne_zero h0 h0') h, Minus, Minus, div_neg_iff]
      rcases lt_or_gt_of_ne h0 with h2 | h2 <;> rcases lt_or_gt_of_ne h0' with h3 | h3 <;>
        simp [h2, h3, h2.not_gt, h3.not_gt]

theorem minus_add (a b : Ieee R) (x y : EReal) (ha : extended a = some x) (hb : extended b = some y)
    (h0 : x + y = 0) (h : ∃ s, Ieee.add a b = .zero s) : Minus (Ieee.add a b) ↔ Minus a ∧ Minus b := by
  obtain ⟨s0, h⟩ := h
  cases a with
  | nan => cases ha
  | inf s =>
    cases b with
    | nan => cases hb
    | inf t => simp only [Ieee.add] at h; split at h <;> cases h
    | zero t => cases h
    | num y' h h0 => cases h
  | zero s =>
    cases b with
    | nan => cases hb
    | inf t => cases h
    | zero t => simp [Ieee.add, Minus]
    | num y' h h0 => cases h
  | num x' h1 h1' =>
    cases b with
    | nan => cases hb
    | inf t => cases h
    | zero t => cases h
    | num y' h2 h2' =>
      simp only [extended, Option.some.injEq] at ha hb; subst ha; subst hb
      have h3 : x' + y' = 0 := by exact_mod_cast h0
      rw [Ieee.add, h3, Ieee.of_zero]
      simp only [Minus, Bool.false_eq_true, false_iff, not_and, not_lt]
      intro h; linarith

theorem extended_eqb (a b : Ieee R) (x y : EReal) (ha : extended a = some x) (hb : extended b = some y) :
    Ieee.eqb a b = true ↔ x = y := by
  cases a with
  | nan => cases ha
  | inf s =>
    cases b with
    | nan => cases hb
    | inf t => simp only [extended, Option.some.injEq] at ha hb; subst ha; subst hb; cases s <;> cases t <;> simp [Ieee.eqb]
    | zero t => simp only [extended, Option.some.injEq] at ha hb; subst ha; subst hb; cases s <;> simp [Ieee.eqb]
    | num y' h h0 => simp only [extended, Option.some.injEq] at ha hb; subst ha; subst hb; cases s <;> simp [Ieee.eqb]
  | zero s =>
    cases b with
    | nan => cases hb
    | inf t => simp only [extended, Option.some.injEq] at ha hb; subst ha; subst hb; cases t <;> simp [Ieee.eqb]
    | zero t => simp only [extended, Option.some.injEq] at ha hb; subst ha; subst hb; simp [Ieee.eqb]
    | num y' h h0 => simp only [extended, Option.some.injEq] at ha hb; subst ha; subst hb; simp [Ieee.eqb]; exact fun h => h0 (by exact_mod_cast h.symm)
  | num x' h h0 =>
    cases b with
    | nan => cases hb
    | inf t => simp only [extended, Option.some.injEq] at ha hb; subst ha; subst hb; cases t <;> simp [Ieee.eqb]
    | zero t => simp only [extended, Option.some.injEq] at ha hb; subst ha; subst hb; simpa [Ieee.eqb] using h0
    | num y' h' h0' => simp only [extended, Option.some.injEq] at ha hb; subst ha; subst hb; simp [Ieee.eqb]

open Filter Topology

theorem limit_unique {f : Fn} {l : Filter ℝ} [l.NeBot] {g : ℝ → ℝ} {L L' : EReal}
    (hg : ∀ᶠ x in l, XReal.fn f (some x) = some (g x)) (ht : Tendsto (fun x => (g x : EReal)) l (𝓝 L))
    (h : LimitOf f l L') : L' = L := by
  obtain ⟨g', hg', ht'⟩ := h
  refine tendsto_nhds_unique (ht'.congr' ?_) ht
  filter_upwards [hg, hg'] with x h1 h2
  rw [h1, Option.some.injEq] at h2; rw [h2]

theorem limit_none {f : Fn} {l : Filter ℝ} [l.NeBot] (hn : ∃ᶠ x in l, XReal.fn f (some x) = none) {L : EReal} :
    ¬ LimitOf f l L := by
  rintro ⟨g, hg, _⟩
  obtain ⟨x, h1, h2⟩ := (hn.and_eventually hg).exists
  rw [h1] at h2; cases h2

/-- A function that takes two values again and again has no limit. -/
theorem limit_two {f : Fn} {l : Filter ℝ} {u v : ℕ → ℝ} (hu : Tendsto u atTop l) (hv : Tendsto v atTop l) {a b : ℝ}
    (ha : ∀ n, XReal.fn f (some (u n)) = some a) (hb : ∀ n, XReal.fn f (some (v n)) = some b) (hab : a ≠ b)
    {L : EReal} : ¬ LimitOf f l L := by
  rintro ⟨g, hg, ht⟩
  have h1 : L = a := by
    refine tendsto_nhds_unique ((ht.comp hu).congr' ?_) tendsto_const_nhds
    filter_upwards [hu.eventually hg] with n h
    rw [ha, Option.some.injEq] at h; simp [h]
  have h2 : L = b := by
    refine tendsto_nhds_unique ((ht.comp hv).congr' ?_) tendsto_const_nhds
    filter_upwards [hv.eventually hg] with n h
    rw [hb, Option.some.injEq] at h; simp [h]
  rw [h1] at h2
  exact hab (by exact_mod_cast h2)

theorem sin_turn (n : ℕ) (c : ℝ) : Real.sin ((n : ℝ) * (2 * Real.pi) + c) = Real.sin c := by
  rw [add_comm, Real.sin_add_nat_mul_two_pi]

theorem cos_turn (n : ℕ) (c : ℝ) : Real.cos ((n : ℝ) * (2 * Real.pi) + c) = Real.cos c := by
  rw [add_comm, Real.cos_add_nat_mul_two_pi]

theorem turns (c : ℝ) : Tendsto (fun n : ℕ => (n : ℝ) * (2 * Real.pi) + c) atTop atTop :=
  tendsto_atTop_add_const_right _ c
    (tendsto_natCast_atTop_atTop.atTop_mul_const (by positivity))

theorem turns' (c : ℝ) : Tendsto (fun n : ℕ => -((n : ℝ) * (2 * Real.pi) + c)) atTop atBot :=
  tendsto_neg_atTop_atBot.comp (turns c)

theorem fn_top (f : Fn) (L : EReal) (h : LimitOf f atTop L) :
    extended (Ieee.fn f (.inf false : Ieee R)) = some L := by
  cases f with
  | id => rw [limit_unique (g := id) (.of_forall fun x => rfl) EReal.tendsto_coe_atTop h]; rfl
  | exp =>
    rw [limit_unique (g := Real.exp) (.of_forall fun x => rfl)
      (EReal.tendsto_coe_nhds_top_iff.2 Real.tendsto_exp_atTop) h]; rfl
  | sin =>
    refine absurd h (limit_two (turns 0) (turns (Real.pi / 2)) (a := 0) (b := 1) (fun n => ?_) (fun n => ?_) (by simp))
    · simp only [XReal.fn, sin_turn]; simp
    · simp only [XReal.fn, sin_turn]; simp
  | cos =>
    refine absurd h (limit_two (turns 0) (turns Real.pi) (a := 1) (b := -1) (fun n => ?_) (fun n => ?_) (by norm_num))
    · simp only [XReal.fn, cos_turn]; simp
    · simp only [XReal.fn, cos_turn]; simp
  | tan =>
    refine absurd h (limit_none ?_)
    refine (turns (Real.pi / 2)).frequently (.of_forall fun n => ?_)
    simp only [XReal.fn, cos_turn]; simp
  | fabs =>
    rw [limit_unique (g := fun x => |x|) (.of_forall fun x => rfl)
      (EReal.tendsto_coe_nhds_top_iff.2 tendsto_abs_atTop_atTop) h]; rfl
  | sqrt =>
    rw [limit_unique (g := Real.sqrt) ?_ (EReal.tendsto_coe_nhds_top_iff.2 Real.tendsto_sqrt_atTop) h]; · rfl
    filter_upwards [eventually_ge_atTop 0] with x hx
    simp [XReal.fn, hx.not_gt]
  | log =>
    rw [limit_unique (g := Real.log) ?_ (EReal.tendsto_coe_nhds_top_iff.2 Real.tendsto_log_atTop) h]; · rfl
    filter_upwards [eventually_gt_atTop 0] with x hx
    simp [XReal.fn, hx.not_ge]
  | log10 =>
    rw [limit_unique (g := fun x => Real.log x / Real.log 10) ?_ (EReal.tendsto_coe_nhds_top_iff.2
      (Real.tendsto_log_atTop.atTop_div_const (Real.log_pos (by norm_num)))) h]; · rfl
    filter_upwards [eventually_gt_atTop 0] with x hx
    simp [XReal.fn, hx.not_ge]

theorem fn_bot (f : Fn) (L : EReal) (h : LimitOf f atBot L) :
    extended (Ieee.fn f (.inf true : Ieee R)) = some L := by
  cases f with
  | id => rw [limit_unique (g := id) (.of_forall fun x => rfl) EReal.tendsto_coe_atBot h]; rfl
  | exp =>
    rw [limit_unique (g := Real.exp) (.of_forall fun x => rfl)
      (EReal.tendsto_coe.2 Real.tendsto_exp_atBot) h]; rfl
  | sin =>
    refine absurd h (limit_two (turns' 0) (turns' (Real.pi / 2)) (a := 0) (b := -1) (fun n => ?_) (fun n => ?_)
      (by norm_num))
    · simp only [XReal.fn, Real.sin_neg, sin_turn]; simp
    · simp only [XReal.fn, Real.sin_neg, sin_turn]; simp
  | cos =>
    refine absurd h (limit_two (turns' 0) (turns' Real.pi) (a := 1) (b := -1) (fun n => ?_) (fun n => ?_) (by norm_num))
    · simp only [XReal.fn, Real.cos_neg, cos_turn]; simp
    · simp only [XReal.fn, Real.cos_neg, cos_turn]; simp
  | tan =>
    refine absurd h (limit_none ?_)
    refine (turns' (Real.pi / 2)).frequently (.of_forall fun n => ?_)
    simp only [XReal.fn, Real.cos_neg, cos_turn]; simp
  | fabs =>
    rw [limit_unique (g := fun x => |x|) (.of_forall fun x => rfl)
      (EReal.tendsto_coe_nhds_top_iff.2 tendsto_abs_atBot_atTop) h]; rfl
  | sqrt =>
    refine absurd h (limit_none (Eventually.frequently ?_))
    filter_upwards [eventually_lt_atBot 0] with x hx
    simp [XReal.fn, hx]
  | log | log10 =>
    refine absurd h (limit_none (Eventually.frequently ?_))
    filter_upwards [eventually_lt_atBot 0] with x hx
    simp [XReal.fn, hx.le]

theorem fn_top_none (f : Fn) (h : ¬ ∃ L, LimitOf f atTop L) : Ieee.fn f (.inf false : Ieee R) = .nan := by
  cases f with
  | sin | cos | tan => rfl
  | id => exact absurd ⟨_, id, .of_forall fun x => rfl, EReal.tendsto_coe_atTop⟩ h
  | exp => exact absurd ⟨_, Real.exp, .of_forall fun x => rfl,
      EReal.tendsto_coe_nhds_top_iff.2 Real.tendsto_exp_atTop⟩ h
  | fabs => exact absurd ⟨_, fun x => |x|, .of_forall fun x => rfl,
      EReal.tendsto_coe_nhds_top_iff.2 tendsto_abs_atTop_atTop⟩ h
  | sqrt =>
    refine absurd ⟨_, Real.sqrt, ?_, EReal.tendsto_coe_nhds_top_iff.2 Real.tendsto_sqrt_atTop⟩ h
    filter_upwards [eventually_ge_atTop 0] with x hx
    simp [XReal.fn, hx.not_gt]
  | log =>
    refine absurd ⟨_, Real.log, ?_, EReal.tendsto_coe_nhds_top_iff.2 Real.tendsto_log_atTop⟩ h
    filter_upwards [eventually_gt_atTop 0] with x hx
    simp [XReal.fn, hx.not_ge]
  | log10 =>
    refine absurd ⟨_, fun x => Real.log x / Real.log 10, ?_, EReal.tendsto_coe_nhds_top_iff.2
      (Real.tendsto_log_atTop.atTop_div_const (Real.log_pos (by norm_num)))⟩ h
    filter_upwards [eventually_gt_atTop 0] with x hx
    simp [XReal.fn, hx.not_ge]

theorem fn_bot_none (f : Fn) (h : ¬ ∃ L, LimitOf f atBot L) : Ieee.fn f (.inf true : Ieee R) = .nan := by
  cases f with
  | sin | cos | tan | sqrt | log | log10 => rfl
  | id => exact absurd ⟨_, id, .of_forall fun x => rfl, EReal.tendsto_coe_atBot⟩ h
  | exp => exact absurd ⟨_, Real.exp, .of_forall fun x => rfl, EReal.tendsto_coe.2 Real.tendsto_exp_atBot⟩ h
  | fabs => exact absurd ⟨_, fun x => |x|, .of_forall fun x => rfl,
      EReal.tendsto_coe_nhds_top_iff.2 tendsto_abs_atBot_atTop⟩ h

theorem fn_pole (f : Fn) (s : Bool) (L : EReal) (hf : XReal.fn f (some 0) = none) (h : LimitOf f (𝓝[>] 0) L) :
    extended (Ieee.fn f (.zero s : Ieee R)) = some L := by
  have hp : ∀ᶠ x : ℝ in 𝓝[>] 0, 0 < x := eventually_mem_nhdsWithin
  cases f with
  | log =>
    rw [limit_unique (g := Real.log) ?_ (EReal.tendsto_coe_nhds_bot_iff.2 Real.tendsto_log_nhdsGT_zero) h]; · rfl
    filter_upwards [hp] with x hx
    simp [XReal.fn, hx.not_ge]
  | log10 =>
    rw [limit_unique (g := fun x => Real.log x / Real.log 10) ?_ (EReal.tendsto_coe_nhds_bot_iff.2
      (Real.tendsto_log_nhdsGT_zero.atBot_div_const (Real.log_pos (by norm_num)))) h]; · rfl
    filter_upwards [hp] with x hx
    simp [XReal.fn, hx.not_ge]
  | tan => simp [XReal.fn] at hf
  | sqrt => simp [XReal.fn] at hf
  | _ => simp [XReal.fn] at hf

theorem fn_number (f : Fn) (x y : ℝ) (a : Ieee R) (ha : extended a = some x) (hf : XReal.fn f (some x) = some y) :
    extended (Ieee.fn f a) = some (if f = .id then (x : EReal) else roundedTo R (R.lib f x : ℝ)) := by
  cases a with
  | nan => cases ha
  | inf s => cases s <;> simp [extended] at ha
  | zero s =>
    have : x = 0 := by simp [extended] at ha; exact_mod_cast ha.symm
    subst this
    cases f with
    | id => rw [if_pos rfl]; simp [Ieee.fn, extended]
    | log | log10 => simp [XReal.fn] at hf
    | _ => rw [Ieee.fn, extended_of, if_neg (by simp)]
  | num x' h h0 =>
    have : x' = x := by simp [extended] at ha; exact_mod_cast ha
    subst this
    cases f with
    | id => rw [if_pos rfl]; simp [Ieee.fn, extended]
    | sqrt =>
      have h1 : ¬ x' < 0 := by intro h1; simp [XReal.fn, h1] at hf
      rw [Ieee.fn, if_neg h1, extended_of, if_neg (by simp)]
    | log | log10 =>
      have h1 : ¬ x' < 0 := by intro h1; simp [XReal.fn, h1.le] at hf
      rw [Ieee.fn, if_neg h1, extended_of, if_neg (by simp)]
    | _ => rw [Ieee.fn, extended_of, if_neg (by simp)]

theorem fn_undefined (f : Fn) (x : ℝ) (a : Ieee R) (ha : extended a = some x) (h0 : x ≠ 0) (ht : f ≠ .tan)
    (hf : XReal.fn f (some x) = none) : Ieee.fn f a = .nan := by
  cases a with
  | nan => rfl
  | inf s => cases s <;> simp [extended] at ha
  | zero s => simp [extended] at ha; exact absurd (by exact_mod_cast ha.symm) h0
  | num x' h h0' =>
    have : x' = x := by simp [extended] at ha; exact_mod_cast ha
    subst this
    cases f with
    | tan => exact absurd rfl ht
    | sqrt => simp [XReal.fn] at hf; simp [Ieee.fn, hf]
    | log | log10 =>
      simp [XReal.fn] at hf; simp [Ieee.fn, lt_of_le_of_ne hf h0]
    | _ => simp [XReal.fn] at hf

end VM
