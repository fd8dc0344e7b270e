import Verif.Rt.BottomUpLemmas
/-
The passes compute the outcome of the sweep from the leaves up, products of vectors included (C82).
-/
namespace VM
open Spec
variable {K : Type} [Num K]

omit [Num K] in
theorem dotFrom_eq (a : Expr K) (us vs : List (Expr K)) :
    dotFrom a us vs = (us.zip vs).foldl (fun s p => .bin .plus s (.bin .mult p.1 p.2)) a := by
  induction us generalizing a vs with
  | nil => simp [dotFrom]
  | cons u us ih =>
    cases vs with
    | nil => simp [dotFrom]
    | cons v vs => simp [dotFrom, ih]

omit [Num K] in
theorem dot_eq {us vs : List (Expr K)} {d : Expr K} : dot us vs = .ok d ↔ scalar us vs = some d := by
  cases us <;> cases vs <;> simp only [dot, scalar, reduceCtorEq]
  split <;> simp [dotFrom_eq]

omit [Num K] in
theorem dotFrom_bin {a : Expr K} (h : ∃ op l r, a = .bin op l r) (us vs : List (Expr K)) :
    ∃ op l r, dotFrom a us vs = .bin op l r := by
  induction us generalizing a vs with
  | nil => simpa [dotFrom] using h
  | cons u us ih =>
    cases vs with
    | nil => simpa [dotFrom] using h
    | cons v vs => exact ih ⟨_, _, _, rfl⟩ vs

omit [Num K] in
theorem scalar_bin {us vs : List (Expr K)} {d : Expr K} (h : scalar us vs = some d) :
    ∃ op l r, d = .bin op l r := by
  rw [← dot_eq] at h
  cases us <;> cases vs <;> simp only [dot, reduceCtorEq] at h
  split at h <;> cases h
  exact dotFrom_bin ⟨_, _, _, rfl⟩ _ _

section
variable [SimpLaws K]
open SimpLaws (bad)

/-- How an operation ends whose operands ended with `y` and `z`. -/
def Joins (op : BOp) (y z x : Expr K) : Prop :=
  ((∀ us vs, op = .mult → y = .vec us → z ≠ .vec vs) ∧ x = combine op y z ∧ ∀ c, x = .const c → ¬ bad c) ∨
  (op = .mult ∧ ∃ us vs d, y = .vec us ∧ z = .vec vs ∧ scalar us vs = some d ∧ Sweeps d x)

theorem Joins.sweeps {op : BOp} {l r y z x : Expr K} (h : Joins op y z x) (hl : Sweeps l y) (hr : Sweeps r z) :
    Sweeps (.bin op l r) x := by
  rcases h with ⟨h1, h2, h3⟩ | ⟨rfl, us, vs, d, rfl, rfl, h1, h2⟩
  · exact .bin hl hr h1 h2 h3
  · exact .dot hl hr h1 h2

theorem Spec.Sweeps.joins {op : BOp} {l r x : Expr K} (h : Sweeps (.bin op l r) x) :
    ∃ y z, Sweeps l y ∧ Sweeps r z ∧ Joins op y z x := by
  cases h with
  | bin hl hr h1 h2 h3 => exact ⟨_, _, hl, hr, .inl ⟨h1, h2, h3⟩⟩
  | dot hl hr h1 h2 => exact ⟨_, _, hl, hr, .inr ⟨rfl, _, _, _, rfl, rfl, h1, h2⟩⟩

/-- Constants that come out of an operation are not undefined. -/
theorem Spec.Sweeps.good {e x : Expr K} (h : Sweeps e x) : (∃ op l r, e = .bin op l r) → ∀ c, x = .const c → ¬ bad c := by
  induction h with
  | const | var | fsym | vec | un | integ => rintro ⟨_, _, _, h⟩; cases h
  | bin _ _ _ _ h3 => intro _; exact h3
  | dot _ _ h1 _ _ _ ih => intro _; exact ih (scalar_bin h1)

theorem Joins.good {op : BOp} {y z x : Expr K} (h : Joins op y z x) : ∀ c, x = .const c → ¬ bad c := by
  rcases h with ⟨-, -, h⟩ | ⟨-, us, vs, d, -, -, h1, h2⟩
  · exact h
  · exact h2.good (scalar_bin h1)

theorem Joins.constL {op : BOp} {a : K} {z x : Expr K} (h : Joins op (.const a) z x) : x = combine op (.const a) z := by
  rcases h with ⟨-, h, -⟩ | ⟨-, us, vs, d, h, -⟩
  · exact h
  · cases h

theorem Joins.constR {op : BOp} {a : K} {y x : Expr K} (h : Joins op y (.const a) x) : x = combine op y (.const a) := by
  rcases h with ⟨-, h, -⟩ | ⟨-, us, vs, d, -, h, -⟩
  · exact h
  · cases h

theorem Joins.ofL {op : BOp} {a : K} {z x : Expr K} (h : x = combine op (.const a) z) (hg : ∀ c, x = .const c → ¬ bad c) :
    Joins op (.const a) z x := .inl ⟨(fun _ _ _ h => by cases h), h, hg⟩

theorem sweeps_const {e x : Expr K} (hw : WellFormed e) (hc : isConst e = true) {c : K}
    (hu : unwrap leftFirst e = .ok c) (h : Sweeps e x) : x = .const c := by
  induction hw generalizing c x with
  | const a => cases hu; cases h; rfl
  | var | fsym | un | integ | vec => cases hc
  | @bin op l r ho _ _ ihl ihr =>
    simp only [isConst, Bool.and_eq_true] at hc
    simp only [unwrap, leftFirst, Res.both, if_true, Res.bind_eq_ok] at hu
    obtain ⟨a, ha, b, hb, hu⟩ := hu
    obtain ⟨y, z, h1, h2, h3⟩ := h.joins
    obtain rfl := ihl hc.1 ha h1
    obtain rfl := ihr hc.2 hb h2
    rw [h3.constL]
    rcases ho with rfl | rfl | rfl | rfl <;> cases hu <;> rfl

/-- A pass keeps the outcome of the sweep. -/
theorem Pass.sweeps [EqbPER K] (h01 : Num.eqb (Num.lit 0 : K) (Num.lit 1) = false) {e e' x : Expr K}
    (h : Pass e e') (hw : WellFormed e) (hs : Sweeps e x) : Sweeps e' x := by
  induction h generalizing x with
  | const | var | fsym | vec | uid => exact hs
  | @unFold f e c hk hu =>
    cases hw with | un _ hw =>
    cases hs with | un hs hf => exact absurd (sweeps_const hw hk hu hs) (hf f c rfl)
  | @unConst op e c hk hu ho =>
    cases hw with | un _ hw =>
    cases hs with | un hs hf =>
    obtain rfl := sweeps_const hw hk hu hs
    exact .un (.const c) hf
  | un hk _ ih =>
    cases hw with | un _ hw =>
    cases hs with | un hs hf => exact .un (ih hw hs) hf
  | integConst hk hu =>
    cases hw with | integ _ _ _ hw =>
    cases hs with | integ _ _ _ hs =>
    obtain rfl := sweeps_const hw hk hu hs
    exact .integ _ _ _ (.const _)
  | integ _ _ ih =>
    cases hw with | integ _ _ _ hw =>
    cases hs with | integ _ _ _ hs => exact .integ _ _ _ (ih hw hs)
  | fold hl hr hu =>
    rw [sweeps_const hw (by simp [isConst, hl, hr]) hu hs]
    exact .const _
  | plusZeroL hl _ hu hz _ ih =>
    cases hw with | bin _ hwl hwr =>
    obtain ⟨y, z, h1, h2, h3⟩ := hs.joins
    obtain rfl := sweeps_const hwl hl hu h1
    rw [h3.constL, combine_plusZeroL hz]
    exact ih hwr h2
  | plusZeroR _ hr hu hz _ ih =>
    cases hw with | bin _ hwl hwr =>
    obtain ⟨y, z, h1, h2, h3⟩ := hs.joins
    obtain rfl := sweeps_const hwr hr hu h2
    rw [h3.constR, combine_plusZeroR hz]
    exact ih hwl h1
  | minusZeroL hl _ hu hz _ ih =>
    cases hw with | bin _ hwl hwr =>
    obtain ⟨y, z, h1, h2, h3⟩ := hs.joins
    obtain rfl := sweeps_const hwl hl hu h1
    have h4 := h3.constL
    rw [combine_minusZeroL hz] at h4
    exact (Joins.ofL h4 h3.good).sweeps (.const _) (ih hwr h2)
  | minusZeroR _ hr hu hz _ ih =>
    cases hw with | bin _ hwl hwr =>
    obtain ⟨y, z, h1, h2, h3⟩ := hs.joins
    obtain rfl := sweeps_const hwr hr hu h2
    rw [h3.constR, combine_minusZeroR hz]
    exact ih hwl h1
  | multZeroL hl _ hu hz =>
    cases hw with | bin _ hwl hwr =>
    obtain ⟨y, z, h1, h2, h3⟩ := hs.joins
    obtain rfl := sweeps_const hwl hl hu h1
    have h4 := h3.constL
    rw [h4, combine_multZeroL hz _ fun b hb => h3.good b (h4.trans hb)]
    exact .const _
  | multZeroR _ hr hu hz =>
    cases hw with | bin _ hwl hwr =>
    obtain ⟨y, z, h1, h2, h3⟩ := hs.joins
    obtain rfl := sweeps_const hwr hr hu h2
    have h4 := h3.constR
    rw [h4, combine_multZeroR hz _ fun b hb => h3.good b (h4.trans hb)]
    exact .const _
  | multOneL hl _ hu hz _ ih =>
    cases hw with | bin _ hwl hwr =>
    obtain ⟨y, z, h1, h2, h3⟩ := hs.joins
    obtain rfl := sweeps_const hwl hl hu h1
    rw [h3.constL, combine_multOneL (not_zero_of_one h01 hz) hz]
    exact ih hwr h2
  | multOneR _ hr hu hz _ ih =>
    cases hw with | bin _ hwl hwr =>
    obtain ⟨y, z, h1, h2, h3⟩ := hs.joins
    obtain rfl := sweeps_const hwr hr hu h2
    rw [h3.constR, combine_multOneR (not_zero_of_one h01 hz) hz]
    exact ih hwl h1
  | divZeroL hl _ hu hz =>
    cases hw with | bin _ hwl hwr =>
    obtain ⟨y, z, h1, h2, h3⟩ := hs.joins
    obtain rfl := sweeps_const hwl hl hu h1
    have h4 := h3.constL
    rw [h4, combine_divZeroL hz _ fun b hb => h3.good b (h4.trans hb)]
    exact .const _
  | divOneR _ hr hu hz _ ih =>
    cases hw with | bin _ hwl hwr =>
    obtain ⟨y, z, h1, h2, h3⟩ := hs.joins
    obtain rfl := sweeps_const hwr hr hu h2
    rw [h3.constR, combine_divOneR hz]
    exact ih hwl h1
  | constL _ hl _ hu _ _ ih =>
    cases hw with | bin _ hwl hwr =>
    obtain ⟨y, z, h1, h2, h3⟩ := hs.joins
    obtain rfl := sweeps_const hwl hl hu h1
    exact h3.sweeps (.const _) (ih hwr h2)
  | constR _ _ hr hu _ _ ih =>
    cases hw with | bin _ hwl hwr =>
    obtain ⟨y, z, h1, h2, h3⟩ := hs.joins
    obtain rfl := sweeps_const hwr hr hu h2
    exact h3.sweeps (ih hwl h1) (.const _)
  | dotp hd =>
    obtain ⟨y, z, h1, h2, h3⟩ := hs.joins
    cases h1
    cases h2
    rcases h3 with ⟨h3, -, -⟩ | ⟨-, us, vs, d, h4, h5, h6, h7⟩
    · exact absurd rfl (h3 _ _ rfl rfl)
    · cases h4
      cases h5
      rw [dot_eq.1 hd] at h6
      cases h6
      exact h7
  | cong _ _ _ _ _ _ ihl ihr =>
    cases hw with | bin _ hwl hwr =>
    obtain ⟨y, z, h1, h2, h3⟩ := hs.joins
    exact h3.sweeps (ihl hwl h1) (ihr hwr h2)

theorem sweeps_of_not_trivial {e x : Expr K} (h : ∀ s, Sub s e → ¬ Trivial s)
    (hd : ∀ us vs, ¬ Sub (.bin .mult (.vec us) (.vec vs)) e) (hs : Sweeps e x) : x = e := by
  induction e using Expr.ind generalizing x with
  | const | var | fsym | vec => cases hs; rfl
  | un op e ih =>
    cases hs with | un hs _ =>
    rw [ih (fun s hs => h s (.un hs)) (fun us vs hs => hd us vs (.un hs)) hs]
  | integ lo hi i e _ _ ih =>
    cases hs with | integ _ _ _ hs =>
    rw [ih (fun s hs => h s (.integ hs)) (fun us vs hs => hd us vs (.integ hs)) hs]
  | bin op l r ihl ihr =>
    obtain ⟨y, z, h1, h2, h3⟩ := hs.joins
    obtain rfl := ihl (fun s hs => h s (.binL hs)) (fun us vs hs => hd us vs (.binL hs)) h1
    obtain rfl := ihr (fun s hs => h s (.binR hs)) (fun us vs hs => hd us vs (.binR hs)) h2
    rcases h3 with ⟨-, rfl, -⟩ | ⟨rfl, us, vs, d, rfl, rfl, -⟩
    · exact combine_of_not_trivial (h _ .refl)
    · exact absurd .refl (hd us vs)

/-- Without products of vectors the sweep is the function `bottomUp`. -/
theorem Clean.sweeps {e : Expr K} (h : Clean e) : Sweeps e (bottomUp e) := by
  induction e using Expr.ind with
  | const | var | fsym | vec => constructor
  | un op e ih =>
    refine .un (ih h.un') ?_
    rintro f c rfl
    exact h.2 c
  | integ lo hi i e _ _ ih => exact .integ _ _ _ (ih h)
  | bin op l r ihl ihr =>
    exact .bin (ihl h.1) (ihr h.2.1) (fun us vs ho => h.2.2.2 ho us vs) rfl h.2.2.1

end
end VM
