import Verif.Spec.Ieee
import Verif.Rt.ValLemmas
import Verif.Rt.SubstLemmas
/-
Helper lemmas about evaluation with IEEE numbers.
-/
namespace VM
open Spec
variable {R : Rounding}

namespace Ieee

theorem same_refl (x : Ieee R) : SameNum x x := .inl rfl
theorem same_symm {x y : Ieee R} (h : SameNum x y) : SameNum y x := by
  rcases h with h | ⟨h, h'⟩
  · exact .inl h.symm
  · exact .inr ⟨h', h⟩
theorem same_trans {x y z : Ieee R} (h : SameNum x y) (h' : SameNum y z) : SameNum x z := by
  rcases h with rfl | ⟨h1, h2⟩
  · exact h'
  · rcases h' with rfl | ⟨_, h4⟩
    · exact .inr ⟨h1, h2⟩
    · exact .inr ⟨h1, h4⟩
theorem same_zero (s t : Bool) : SameNum (zero s : Ieee R) (zero t) := .inr ⟨⟨s, rfl⟩, ⟨t, rfl⟩⟩

theorem same_of (x : ℝ) (s t : Bool) : SameNum (of R x s) (of R x t) := by
  by_cases h : x = 0
  · subst h; rw [of_zero, of_zero]; exact same_zero s t
  · left; rw [of, of]; split
    · rfl
    · simp only [h, if_false]

theorem nan_add {x y : Ieee R} (h : x = nan ∨ y = nan) : add x y = nan := by
  rcases h with rfl | rfl
  · rfl
  · cases x <;> rfl
theorem nan_mul {x y : Ieee R} (h : x = nan ∨ y = nan) : mul x y = nan := by
  rcases h with rfl | rfl
  · rfl
  · cases x <;> rfl
theorem nan_div {x y : Ieee R} (h : x = nan ∨ y = nan) : div x y = nan := by
  rcases h with rfl | rfl
  · rfl
  · cases x <;> rfl
theorem nan_neg {x : Ieee R} (h : x = nan) : neg x = nan := by subst h; rfl
theorem nan_fn {f : Fn} {x : Ieee R} (h : x = nan) : fn f x = nan := by subst h; cases f <;> rfl

theorem nan_op {op : BOp} {x y z : Ieee R} (h : opVal op x y = some z) (hn : x = nan ∨ y = nan) : z = nan := by
  cases op <;> simp only [opVal, Option.some.injEq, reduceCtorEq] at h <;> subst h
  · exact nan_add hn
  · exact nan_add (hn.imp_right nan_neg)
  · exact nan_mul hn
  · exact nan_div hn

theorem nan_applyFn {f : Fn} {x : Ieee R} (h : x = nan) : applyFn f x = nan := by
  cases f <;> first | exact h | exact nan_fn h

theorem add_same {x x' y y' : Ieee R} (hx : SameNum x x') (hy : SameNum y y') : SameNum (add x y) (add x' y') := by
  rcases hx with rfl | ⟨⟨s, rfl⟩, ⟨s', rfl⟩⟩ <;> rcases hy with rfl | ⟨⟨t, rfl⟩, ⟨t', rfl⟩⟩
  · exact same_refl _
  · cases x <;> first | exact same_refl _ | exact same_zero _ _
  · cases y <;> first | exact same_refl _ | exact same_zero _ _
  · exact same_zero _ _
theorem neg_same {x x' : Ieee R} (hx : SameNum x x') : SameNum (neg x) (neg x') := by
  rcases hx with rfl | ⟨⟨s, rfl⟩, ⟨s', rfl⟩⟩
  · exact same_refl _
  · exact same_zero _ _
theorem mul_same {x x' y y' : Ieee R} (hx : SameNum x x') (hy : SameNum y y') : SameNum (mul x y) (mul x' y') := by
  rcases hx with rfl | ⟨⟨s, rfl⟩, ⟨s', rfl⟩⟩ <;> rcases hy with rfl | ⟨⟨t, rfl⟩, ⟨t', rfl⟩⟩
  · exact same_refl _
  · cases x <;> first | exact same_refl _ | exact same_zero _ _
  · cases y <;> first | exact same_refl _ | exact same_zero _ _
  · exact same_zero _ _
theorem div_same {x x' y y' : Ieee R} (hx : SameNum x x') (hy : SameNum y y') (h0 : ∀ s, y ≠ zero s) :
    SameNum (div x y) (div x' y') := by
  rcases hy with rfl | ⟨⟨t, rfl⟩, _⟩
  · rcases hx with rfl | ⟨⟨s, rfl⟩, ⟨s', rfl⟩⟩
    · exact same_refl _
    · cases y <;> first | exact same_refl _ | exact same_zero _ _
  · exact absurd rfl (h0 t)
theorem fn_same (f : Fn) {x x' : Ieee R} (hx : SameNum x x') : SameNum (fn f x) (fn f x') := by
  rcases hx with rfl | ⟨⟨s, rfl⟩, ⟨s', rfl⟩⟩
  · exact same_refl _
  · cases f <;> first | exact same_refl _ | exact same_zero _ _ | exact same_of _ _ _
theorem applyFn_same (f : Fn) {x x' : Ieee R} (hx : SameNum x x') : SameNum (applyFn f x) (applyFn f x') := by
  cases f <;> first | exact hx | exact fn_same _ hx

theorem op_same {op : BOp} {x x' y y' z : Ieee R} (h : opVal op x y = some z) (hx : SameNum x x') (hy : SameNum y y')
    (h0 : op = .div → ∀ s, y ≠ zero s) : ∃ z', opVal op x' y' = some z' ∧ SameNum z z' := by
  cases op <;> simp only [opVal, Option.some.injEq, reduceCtorEq] at h <;> subst h
  · exact ⟨_, rfl, add_same hx hy⟩
  · exact ⟨_, rfl, add_same hx (neg_same hy)⟩
  · exact ⟨_, rfl, mul_same hx hy⟩
  · exact ⟨_, rfl, div_same hx hy (h0 rfl)⟩

theorem not_zero_same {y y' : Ieee R} (h : SameNum y y') (h0 : ∀ s, y ≠ zero s) : ∀ s, y' ≠ zero s := by
  rcases h with rfl | ⟨⟨t, rfl⟩, _⟩
  · exact h0
  · exact absurd rfl (h0 t)

theorem of_eqb_zero {c : Ieee R} (h : Num.eqb c (Num.lit 0) = true) : ∃ s, c = zero s := by
  rw [lit_zero] at h
  change eqb c _ = true at h
  cases c <;> simp [eqb] at h ⊢
theorem of_eqb_one {c : Ieee R} (h : Num.eqb c (Num.lit 1) = true) : c = num 1 R.one one_ne_zero := by
  rw [lit_one] at h
  change eqb c _ = true at h
  cases c <;> simp [eqb] at h ⊢
  exact h

theorem zero_add {s : Bool} {x : Ieee R} : SameNum (add (zero s) x) x := by
  cases x <;> first | exact same_refl _ | exact same_zero _ _
theorem add_zero {s : Bool} {x : Ieee R} : SameNum (add x (zero s)) x := by
  cases x <;> first | exact same_refl _ | exact same_zero _ _
theorem zero_sub {s : Bool} {x : Ieee R} : SameNum (add (zero s) (neg x)) (mul (Num.lit (-1)) x) := by
  rw [lit_neg_one]
  cases x with
  | nan => exact same_refl _
  | inf t => exact .inl (by simp [add, neg, mul, sign])
  | zero t => exact same_zero _ _
  | num x h h0 =>
    refine .inl ?_
    change num (-x) _ _ = of R (-1 * x) false
    rw [neg_one_mul, of_mem (R.neg h) (neg_ne_zero.2 h0)]
theorem one_mul {x : Ieee R} : mul (num 1 R.one one_ne_zero) x = x := by
  cases x with
  | num x h h0 => change of R (1 * x) false = _; rw [_root_.one_mul, of_mem h h0]
  | _ => simp [mul, sign, zero_le_one.not_gt]
theorem mul_one {x : Ieee R} : mul x (num 1 R.one one_ne_zero) = x := by
  cases x with
  | num x h h0 => change of R (x * 1) false = _; rw [_root_.mul_one, of_mem h h0]
  | _ => simp [mul, sign, zero_le_one.not_gt]
theorem div_one {x : Ieee R} : div x (num 1 R.one one_ne_zero) = x := by
  cases x with
  | num x h h0 => change of R (x / 1) false = _; rw [_root_.div_one, of_mem h h0]
  | _ => simp [div, sign, zero_le_one.not_gt]
theorem zero_mul {s : Bool} {x : Ieee R} : (∃ t, mul (zero s) x = zero t) ∨ mul (zero s) x = nan := by
  cases x <;> simp [mul]
theorem mul_zero {s : Bool} {x : Ieee R} : (∃ t, mul x (zero s) = zero t) ∨ mul x (zero s) = nan := by
  cases x <;> simp [mul]
theorem zero_div {s : Bool} {x : Ieee R} : (∃ t, div (zero s) x = zero t) ∨ div (zero s) x = nan := by
  cases x <;> simp [div]

end Ieee

open Ieee

/-- Evaluation without division by zero. -/
inductive RunZ (v : List (Ieee R)) : Expr (Ieee R) → Ieee R → Prop
  | const {c} : RunZ v (.const c) c
  | var {i a} : v[i]? = some a → RunZ v (.var i) a
  | fn {f e a} : RunZ v e a → RunZ v (.un (.fn f) e) (applyFn f a)
  | bin {op l r a b c} : RunZ v l a → RunZ v r b → opVal op a b = some c → (op = .div → ∀ s, b ≠ .zero s) →
      RunZ v (.bin op l r) c

theorem RunZ.val {v : List (Ieee R)} {e : Expr (Ieee R)} {a : Ieee R} (h : RunZ v e a) :
    Val .none (fun i => v[i]?) e a := by
  induction h with
  | const => exact .const
  | var h => exact .var h
  | fn _ ih => exact .fn ih
  | bin _ _ h _ ih1 ih2 => exact .bin ih1 ih2 h

theorem RunZ.arith {v : List (Ieee R)} {e : Expr (Ieee R)} {a : Ieee R} (h : RunZ v e a) : Arith e := by
  induction h with
  | const => exact .const _
  | var h => exact .var _
  | fn _ ih => exact .fn _ ih
  | @bin op _ _ _ _ _ _ _ h _ ih1 ih2 =>
    refine .bin ?_ ih1 ih2
    cases op <;> simp [opVal, IsArithOp] at h ⊢

theorem RunZ.eval {v : List (Ieee R)} {e : Expr (Ieee R)} {a : Ieee R} (h : RunZ v e a) (o : Order (Ieee R)) :
    eval o v e = .ok a := h.val.eval o h.arith

theorem RunZ.noZeroDiv {v : List (Ieee R)} {e : Expr (Ieee R)} {a : Ieee R} (h : RunZ v e a) (o : Order (Ieee R)) :
    NoZeroDiv o v e := by
  induction h with
  | const => intro l r h; cases h
  | var _ => intro l r h; cases h
  | fn _ ih =>
    intro l r h
    cases h with | un h => exact ih l r h
  | bin hl hr hz h0 ih1 ih2 =>
    intro l r h
    cases h with
    | refl => intro s h; rw [hr.eval o] at h; cases h; exact h0 rfl s rfl
    | binL h => exact ih1 l r h
    | binR h => exact ih2 l r h

theorem RunZ.of_eval {o : Order (Ieee R)} {v : List (Ieee R)} {e : Expr (Ieee R)} {a : Ieee R} (h : VM.eval o v e = .ok a)
    (hz : NoZeroDiv o v e) : RunZ v e a := by
  have har := Arith.of_eval h
  induction har generalizing a with
  | const c => cases h; exact .const
  | var i =>
    simp only [VM.eval] at h
    split at h
    · rename_i hx; cases h; exact .var hx
    · cases h
  | fn f _ ih =>
    simp only [VM.eval, Res.bind_eq_ok] at h
    obtain ⟨b, hb, h⟩ := h
    simp only [applyU, Res.ok.injEq] at h; subst h
    exact .fn (ih hb fun l r hs => hz l r (.un hs))
  | @bin op l r ho _ _ ih1 ih2 =>
    simp only [VM.eval] at h
    obtain ⟨x, y, hx, hy, h⟩ := Res.both_eq_ok.1 h
    refine .bin (ih1 hx fun l r hs => hz l r (.binL hs)) (ih2 hy fun l r hs => hz l r (.binR hs)) ?_ ?_
    · cases op <;> simp [applyB, opVal] at h ⊢ <;> exact h
    · rintro rfl s rfl; exact hz l r .refl s hy

theorem RunZ.of_isConst {v : List (Ieee R)} {e : Expr (Ieee R)} {a c : Ieee R} (h : RunZ v e a) (hc : isConst e = true)
    (hu : unwrap leftFirst e = .ok c) : a = c := h.val.of_isConst hc hu

/-- One pass of the simplifier. -/
theorem Pass.run {e e' : Expr (Ieee R)} (hp : Pass e e') {v : List (Ieee R)} {a : Ieee R} (he : RunZ v e a)
    (hn : a ≠ .nan) : ∃ a', RunZ v e' a' ∧ SameNum a a' := by
  induction hp generalizing a with
  | const | var | fsym | vec | uid => exact ⟨a, he, same_refl a⟩
  | unFold hc hu =>
    cases he with | fn h => rw [h.of_isConst hc hu]; exact ⟨_, .const, same_refl _⟩
  | unConst hc hu ho => cases he with | fn h => simp [UOp.canSimplify] at ho
  | un _ _ ih =>
    cases he with | fn h =>
    obtain ⟨b, hb, hs⟩ := ih h fun h' => hn (nan_applyFn h')
    exact ⟨_, .fn hb, applyFn_same _ hs⟩
  | integConst | integ => cases he
  | dotp => cases he with | bin hx => cases hx
  | fold hc1 hc2 hu =>
    rw [he.of_isConst (by simp [isConst, hc1, hc2]) hu]; exact ⟨_, .const, same_refl _⟩
  | plusZeroL h1 h2 h3 h4 h5 ih =>
    cases he with | bin hx hy h h0 =>
    rw [hx.of_isConst h1 h3] at h
    obtain ⟨s, rfl⟩ := of_eqb_zero h4
    obtain ⟨b, hb, hs⟩ := ih hy fun h' => hn (nan_op h (.inr h'))
    simp only [opVal, Option.some.injEq] at h; subst h
    exact ⟨b, hb, same_trans zero_add hs⟩
  | plusZeroR h1 h2 h3 h4 h5 ih =>
    cases he with | bin hx hy h h0 =>
    rw [hy.of_isConst h2 h3] at h
    obtain ⟨s, rfl⟩ := of_eqb_zero h4
    obtain ⟨b, hb, hs⟩ := ih hx fun h' => hn (nan_op h (.inl h'))
    simp only [opVal, Option.some.injEq] at h; subst h
    exact ⟨b, hb, same_trans add_zero hs⟩
  | minusZeroL h1 h2 h3 h4 h5 ih =>
    cases he with | bin hx hy h h0 =>
    rw [hx.of_isConst h1 h3] at h
    obtain ⟨s, rfl⟩ := of_eqb_zero h4
    obtain ⟨b, hb, hs⟩ := ih hy fun h' => hn (nan_op h (.inr h'))
    simp only [opVal, Option.some.injEq] at h; subst h
    exact ⟨_, .bin .const hb rfl (by simp), same_trans zero_sub (mul_same (same_refl _) hs)⟩
  | minusZeroR h1 h2 h3 h4 h5 ih =>
    cases he with | bin hx hy h h0 =>
    rw [hy.of_isConst h2 h3] at h
    obtain ⟨s, rfl⟩ := of_eqb_zero h4
    obtain ⟨b, hb, hs⟩ := ih hx fun h' => hn (nan_op h (.inl h'))
    simp only [opVal, Option.some.injEq] at h; subst h
    exact ⟨b, hb, same_trans add_zero hs⟩
  | multZeroL h1 h2 h3 h4 =>
    cases he with | @bin _ _ _ _ y _ hx hy h h0 =>
    rw [hx.of_isConst h1 h3] at h
    obtain ⟨s, rfl⟩ := of_eqb_zero h4
    simp only [opVal, Option.some.injEq] at h; subst h
    rcases zero_mul (s := s) (x := y) with ⟨t, h'⟩ | h'
    · exact ⟨_, .const, by rw [lit_zero]; exact .inr ⟨⟨t, h'⟩, ⟨false, rfl⟩⟩⟩
    · exact absurd h' hn
  | multZeroR h1 h2 h3 h4 =>
    cases he with | @bin _ _ _ x _ _ hx hy h h0 =>
    rw [hy.of_isConst h2 h3] at h
    obtain ⟨s, rfl⟩ := of_eqb_zero h4
    simp only [opVal, Option.some.injEq] at h; subst h
    rcases mul_zero (s := s) (x := x) with ⟨t, h'⟩ | h'
    · exact ⟨_, .const, by rw [lit_zero]; exact .inr ⟨⟨t, h'⟩, ⟨false, rfl⟩⟩⟩
    · exact absurd h' hn
  | multOneL h1 h2 h3 h4 h5 ih =>
    cases he with | bin hx hy h h0 =>
    rw [hx.of_isConst h1 h3, of_eqb_one h4] at h
    simp only [opVal, Option.some.injEq] at h
    rw [← h, show Num.mul _ _ = _ from one_mul] at hn ⊢
    exact ih hy hn
  | multOneR h1 h2 h3 h4 h5 ih =>
    cases he with | bin hx hy h h0 =>
    rw [hy.of_isConst h2 h3, of_eqb_one h4] at h
    simp only [opVal, Option.some.injEq] at h
    rw [← h, show Num.mul _ _ = _ from mul_one] at hn ⊢
    exact ih hx hn
  | divZeroL h1 h2 h3 h4 =>
    cases he with | @bin _ _ _ _ y _ hx hy h h0 =>
    rw [hx.of_isConst h1 h3] at h
    obtain ⟨s, rfl⟩ := of_eqb_zero h4
    simp only [opVal, Option.some.injEq] at h; subst h
    rcases zero_div (s := s) (x := y) with ⟨t, h'⟩ | h'
    · exact ⟨_, .const, by rw [lit_zero]; exact .inr ⟨⟨t, h'⟩, ⟨false, rfl⟩⟩⟩
    · exact absurd h' hn
  | divOneR h1 h2 h3 h4 h5 ih =>
    cases he with | bin hx hy h h0 =>
    rw [hy.of_isConst h2 h3, of_eqb_one h4] at h
    simp only [opVal, Option.some.injEq] at h
    rw [← h, show Num.div _ _ = _ from div_one] at hn ⊢
    exact ih hx hn
  | constL _ h1 _ h3 _ _ ih =>
    cases he with | bin hx hy h h0 =>
    obtain ⟨b, hb, hs⟩ := ih hy fun h' => hn (nan_op h (.inr h'))
    rw [hx.of_isConst h1 h3] at h
    obtain ⟨z, hz, hs'⟩ := op_same h (same_refl _) hs h0
    exact ⟨z, .bin .const hb hz fun ho => not_zero_same hs (h0 ho), hs'⟩
  | constR _ _ h2 h3 _ _ ih =>
    cases he with | bin hx hy h h0 =>
    obtain ⟨b, hb, hs⟩ := ih hx fun h' => hn (nan_op h (.inl h'))
    rw [hy.of_isConst h2 h3] at h h0
    obtain ⟨z, hz, hs'⟩ := op_same h hs (same_refl _) h0
    exact ⟨z, .bin hb .const hz h0, hs'⟩
  | cong _ _ _ hv _ _ ihl ihr =>
    cases he with | bin hx hy h h0 =>
    obtain ⟨b, hb, hs⟩ := ihl hx fun h' => hn (nan_op h (.inl h'))
    obtain ⟨c, hc, ht⟩ := ihr hy fun h' => hn (nan_op h (.inr h'))
    obtain ⟨z, hz, hs'⟩ := op_same h hs ht h0
    exact ⟨z, .bin hb hc hz fun ho => not_zero_same ht (h0 ho), hs'⟩

theorem same_nan {x y : Ieee R} (h : SameNum x y) (hn : x ≠ .nan) : y ≠ .nan := by
  rcases h with rfl | ⟨_, ⟨t, rfl⟩⟩
  · exact hn
  · simp

theorem simplified_run {e e' : Expr (Ieee R)} (h : simplified e = .ok e') {v : List (Ieee R)} {a : Ieee R}
    (he : RunZ v e a) (hn : a ≠ .nan) : ∃ a', RunZ v e' a' ∧ SameNum a a' :=
  (simplified_induct (P := fun e' => ∃ a', RunZ v e' a' ∧ SameNum a a') (fun _ _ hp ⟨b, hb, hs⟩ => by
    obtain ⟨c, hc, ht⟩ := hp.run hb (same_nan hs hn)
    exact ⟨c, hc, same_trans hs ht⟩) h ⟨a, he, same_refl a⟩).1

theorem deepEq_run {v : List (Ieee R)} {e f : Expr (Ieee R)} {a : Ieee R} (he : RunZ v e a)
    (h : deepEq e f = .ok true) : ∃ b, RunZ v f b ∧ SameNum a b := by
  induction he generalizing f with
  | @const c =>
    cases f <;> simp only [deepEq, Res.ok.injEq, Bool.false_eq_true] at h
    refine ⟨_, .const, ?_⟩
    rename_i d
    change Ieee.eqb d c = true at h
    cases c <;> cases d <;> simp [Ieee.eqb] at h <;> first | exact same_zero _ _ | (subst h; exact same_refl _)
  | var hv =>
    cases f <;> simp only [deepEq, Res.ok.injEq, decide_eq_true_eq, Bool.false_eq_true] at h
    subst h; exact ⟨_, .var hv, same_refl _⟩
  | @fn g e a _ ih =>
    cases f <;> simp only [deepEq, Res.ok.injEq, Res.map_eq_ok, Bool.and_eq_true, Bool.false_eq_true] at h
    · obtain ⟨_, h1, rfl, h2⟩ := h
      rename_i op f
      cases op <;> simp only [UOp.equal, decide_eq_true_eq, Bool.false_eq_true] at h2
      subst h2
      obtain ⟨b, hb, hs⟩ := ih h1
      exact ⟨_, .fn hb, applyFn_same _ hs⟩
    · obtain ⟨_, _, h⟩ := h
      cases h
  | @bin op l r a b c _ _ hc h0 ihl ihr =>
    cases f <;> simp only [deepEq, Res.ok.injEq, Res.bind_eq_ok, Bool.false_eq_true] at h
    obtain ⟨b', h1, h⟩ := h
    split at h
    · rename_i hb
      simp only [Bool.and_eq_true, decide_eq_true_eq] at hb
      obtain ⟨rfl, rfl⟩ := hb
      obtain ⟨x, hx, hs⟩ := ihl h1
      obtain ⟨y, hy, ht⟩ := ihr h
      obtain ⟨z, hz, hu⟩ := op_same hc hs ht h0
      exact ⟨z, .bin hx hy hz fun ho => not_zero_same ht (h0 ho), hu⟩
    · cases h

theorem substE_run {v w : List (Ieee R)} {i : Nat} {r e : Expr (Ieee R)} {a : Ieee R} (he : RunZ w e a)
    (hw : ∀ j, j ≠ i → w[j]? = v[j]?) (hr : Occurs i e → ∃ b, RunZ v r b ∧ w[i]? = some b) :
    ∃ t, substE (.var i) r e = .ok t ∧ RunZ v t a := by
  induction he with
  | const => exact ⟨_, by simp [substE, deepEq], .const⟩
  | @var j a hv =>
    by_cases hj : i = j
    · subst hj
      obtain ⟨b, hb, hwb⟩ := hr .var
      rw [hwb] at hv; cases hv
      exact ⟨r, by simp [substE, deepEq], hb⟩
    · exact ⟨.var j, by simp [substE, deepEq, hj], .var (by rw [← hw j (Ne.symm hj)]; exact hv)⟩
  | fn _ ih =>
    obtain ⟨t, ht, h⟩ := ih fun h => hr (.un h)
    exact ⟨_, by simp [substE, deepEq, ht], .fn h⟩
  | bin _ _ hc h0 ihl ihr =>
    obtain ⟨t, ht, h⟩ := ihl fun h => hr (.binL h)
    obtain ⟨u, hu, h'⟩ := ihr fun h => hr (.binR h)
    exact ⟨_, by simp [substE, deepEq, ht, hu], .bin h h' hc h0⟩

/-! ### Finite numbers -/

theorem of_finite {x z : ℝ} {s : Bool} (h : R.round x = some z) : SameFinite (Ieee.of R x s) (Fl.of R x) := by
  have hv := Fl.val_of (R := R) x
  rw [h] at hv
  rw [Ieee.of]
  split
  · rename_i h1; rw [h] at h1; cases h1
  · rename_i y h1
    rw [h] at h1; cases h1
    split
    · rename_i h0; subst h0; exact hv
    · exact hv

theorem lift_some {x : XReal} {z : ℝ} (h : (Fl.lift R x).val = some z) : ∃ y, x = some y ∧ R.round y = some z := by
  cases x with
  | none => cases h
  | some y => exact ⟨y, rfl, by rw [← Fl.val_of]; exact h⟩

theorem finite_num {x : ℝ} {h : R.mem x} {h0 : x ≠ 0} : SameFinite (.num x h h0 : Ieee R) (Fl.of R x) := by
  change (Fl.of R x).val = some x
  rw [Fl.of_self h]
theorem finite_zeros {s : Bool} : SameFinite (.zero s : Ieee R) (Fl.of R 0) := by
  change (Fl.of R 0).val = some 0
  rw [Fl.of_self R.zero]

theorem add_finite {x y : Ieee R} {a b : Fl R} {z : ℝ} (hx : SameFinite x a) (hy : SameFinite y b)
    (h : (Num.add a b : Fl R).val = some z) : SameFinite (Num.add x y) (Num.add a b) := by
  change (Fl.lift R (Num.add a.val b.val)).val = some z at h
  change SameFinite (Ieee.add x y) (Fl.lift R (Num.add a.val b.val))
  cases x with
  | nan | inf => cases hx
  | zero s =>
    change a.val = some 0 at hx
    rw [hx] at h ⊢
    cases y with
    | nan | inf => cases hy
    | zero t =>
      change b.val = some 0 at hy
      rw [hy]
      change SameFinite _ (Fl.of R (0 + 0))
      rw [_root_.add_zero]; exact finite_zeros
    | num y _ _ =>
      change b.val = some y at hy
      rw [hy]
      change SameFinite _ (Fl.of R (0 + y))
      rw [_root_.zero_add]; exact finite_num
  | num x _ _ =>
    change a.val = some x at hx
    rw [hx] at h ⊢
    cases y with
    | nan | inf => cases hy
    | zero t =>
      change b.val = some 0 at hy
      rw [hy]
      change SameFinite _ (Fl.of R (x + 0))
      rw [_root_.add_zero]; exact finite_num
    | num y _ _ =>
      change b.val = some y at hy
      rw [hy] at h ⊢
      obtain ⟨w, hw, hr⟩ := lift_some h
      cases hw
      exact of_finite hr

theorem sub_finite {x y : Ieee R} {a b : Fl R} {z : ℝ} (hx : SameFinite x a) (hy : SameFinite y b)
    (h : (Num.sub a b : Fl R).val = some z) : SameFinite (Num.sub x y) (Num.sub a b) := by
  change (Fl.lift R (Num.sub a.val b.val)).val = some z at h
  change SameFinite (Ieee.add x (Ieee.neg y)) (Fl.lift R (Num.sub a.val b.val))
  cases x with
  | nan | inf => cases hx
  | zero s =>
    change a.val = some 0 at hx
    rw [hx] at h ⊢
    cases y with
    | nan | inf => cases hy
    | zero t =>
      change b.val = some 0 at hy
      rw [hy]
      change SameFinite _ (Fl.of R (0 - 0))
      rw [_root_.sub_zero]; exact finite_zeros
    | num y _ _ =>
      change b.val = some y at hy
      rw [hy]
      change SameFinite _ (Fl.of R (0 - y))
      rw [_root_.zero_sub]; exact finite_num
  | num x _ _ =>
    change a.val = some x at hx
    rw [hx] at h ⊢
    cases y with
    | nan | inf => cases hy
    | zero t =>
      change b.val = some 0 at hy
      rw [hy]
      change SameFinite _ (Fl.of R (x - 0))
      rw [_root_.sub_zero]; exact finite_num
    | num y _ _ =>
      change b.val = some y at hy
      rw [hy] at h ⊢
      obtain ⟨w, hw, hr⟩ := lift_some h
      cases hw
      change SameFinite (Ieee.of R (x + -y) false) (Fl.of R (x - y))
      rw [← sub_eq_add_neg]
      exact of_finite hr

theorem mul_finite {x y : Ieee R} {a b : Fl R} {z : ℝ} (hx : SameFinite x a) (hy : SameFinite y b)
    (h : (Num.mul a b : Fl R).val = some z) : SameFinite (Num.mul x y) (Num.mul a b) := by
  change (Fl.lift R (Num.mul a.val b.val)).val = some z at h
  change SameFinite (Ieee.mul x y) (Fl.lift R (Num.mul a.val b.val))
  cases x with
  | nan | inf => cases hx
  | zero s =>
    change a.val = some 0 at hx
    rw [hx] at h ⊢
    cases y with
    | nan | inf => cases hy
    | zero t =>
      change b.val = some 0 at hy
      rw [hy]
      change SameFinite _ (Fl.of R (0 * 0))
      rw [MulZeroClass.mul_zero]; exact finite_zeros
    | num y _ _ =>
      change b.val = some y at hy
      rw [hy]
      change SameFinite _ (Fl.of R (0 * y))
      rw [MulZeroClass.zero_mul]; exact finite_zeros
  | num x _ _ =>
    change a.val = some x at hx
    rw [hx] at h ⊢
    cases y with
    | nan | inf => cases hy
    | zero t =>
      change b.val = some 0 at hy
      rw [hy]
      change SameFinite _ (Fl.of R (x * 0))
      rw [MulZeroClass.mul_zero]; exact finite_zeros
    | num y _ _ =>
      change b.val = some y at hy
      rw [hy] at h ⊢
      obtain ⟨w, hw, hr⟩ := lift_some h
      cases hw
      exact of_finite hr

theorem div_finite {x y : Ieee R} {a b : Fl R} {z : ℝ} (hx : SameFinite x a) (hy : SameFinite y b)
    (h : (Num.div a b : Fl R).val = some z) :
    SameFinite (Num.div x y) (Num.div a b) ∧ ∀ s, y ≠ .zero s := by
  change (Fl.lift R (XReal.div a.val b.val)).val = some z at h
  change SameFinite (Ieee.div x y) (Fl.lift R (XReal.div a.val b.val)) ∧ _
  cases y with
  | nan | inf => cases hy
  | zero t =>
    change b.val = some 0 at hy
    obtain ⟨w, hw, _⟩ := lift_some h
    rw [hy] at hw
    cases hav : a.val <;> rw [hav] at hw <;> simp [XReal.div] at hw
  | num y _ hy0 =>
    change b.val = some y at hy
    refine ⟨?_, by simp⟩
    cases x with
    | nan | inf => cases hx
    | zero s =>
      change a.val = some 0 at hx
      rw [hx, hy, XReal.div, if_neg hy0]
      change SameFinite _ (Fl.of R (0 / y))
      rw [_root_.zero_div]; exact finite_zeros
    | num x _ _ =>
      change a.val = some x at hx
      rw [hx, hy, XReal.div, if_neg hy0] at h ⊢
      obtain ⟨w, hw, hr⟩ := lift_some h
      cases hw
      exact of_finite hr

theorem fn_finite {f : Fn} {x : Ieee R} {a : Fl R} {z : ℝ} (hx : SameFinite x a)
    (h : (applyFn f a : Fl R).val = some z) : SameFinite (applyFn f x) (applyFn f a) := by
  by_cases hf : f = .id
  · subst hf; exact hx
  have e1 : applyFn f a = Fl.fn R f a.val := by cases f <;> first | rfl | exact absurd rfl hf
  have e2 : applyFn f x = Ieee.fn f x := by cases f <;> first | rfl | exact absurd rfl hf
  rw [e1] at h ⊢; rw [e2]
  have key : ∀ {c : ℝ}, (Fl.fn R f (some c)).val = some z → XReal.fn f (some c) ≠ none ∧
      Fl.fn R f (some c) = Fl.of R (R.lib f c) ∧ R.round (R.lib f c) = some z := by
    intro c hc
    have hn : XReal.fn f (some c) ≠ none := by
      intro hn
      have : Fl.fn R f (some c) = none := if_pos hn
      rw [this] at hc; cases hc
    have he : Fl.fn R f (some c) = Fl.of R (R.lib f c) := if_neg hn
    exact ⟨hn, he, by rw [← Fl.val_of, ← he]; exact hc⟩
  cases x with
  | nan | inf => cases hx
  | zero s =>
    change a.val = some 0 at hx
    rw [hx] at h ⊢
    obtain ⟨hn, he, hr⟩ := key h
    rw [he]
    cases f
    case id => exact absurd rfl hf
    case log => exact absurd (by simp [XReal.fn]) hn
    case log10 => exact absurd (by simp [XReal.fn]) hn
    all_goals exact of_finite hr
  | num x _ _ =>
    change a.val = some x at hx
    rw [hx] at h ⊢
    obtain ⟨hn, he, hr⟩ := key h
    rw [he]
    cases f
    case id => exact absurd rfl hf
    case log | log10 =>
      have : ¬ x < 0 := fun hlt => hn (by simp [XReal.fn, hlt.le])
      simp only [Ieee.fn, if_neg this]; exact of_finite hr
    case sqrt =>
      have : ¬ x < 0 := fun hlt => hn (by simp [XReal.fn, hlt])
      simp only [Ieee.fn, if_neg this]; exact of_finite hr
    all_goals exact of_finite hr

theorem run_finite {e : Expr (Ieee R)} {d : Expr (Fl R)} (h : SameExpr e d) {o : Order (Fl R)} {v : List (Ieee R)}
    {w : List (Fl R)} (hv : List.Forall₂ SameFinite v w) {y : Fl R} (hd : eval o w d = .ok y) {z : ℝ}
    (hy : y.val = some z) : ∃ x, RunZ v e x ∧ SameFinite x y := by
  induction h generalizing y z with
  | const h => cases hd; exact ⟨_, .const, h⟩
  | var i =>
    simp only [eval] at hd
    split at hd
    · rename_i x hx
      cases hd
      obtain ⟨hi, rfl⟩ := List.getElem?_eq_some_iff.1 hx
      have hl := hv.length_eq
      exact ⟨v[i]'(by omega), .var (by simp [hl, hi]), (List.forall₂_iff_get.1 hv).2 i (by omega) hi⟩
    · cases hd
  | @fn f e d _ ih =>
    simp only [eval, Res.bind_eq_ok] at hd
    obtain ⟨b, hb, hd⟩ := hd
    simp only [applyU, Res.ok.injEq] at hd; subst hd
    have : ∃ c, b.val = some c := by
      cases hbv : b.val with
      | some c => exact ⟨c, rfl⟩
      | none =>
        have : SimpLaws.bad b := hbv
        have : (applyFn f b).val = none := bad_applyFn this
        rw [hy] at this; cases this
    obtain ⟨c, hc⟩ := this
    obtain ⟨x, hx, hs⟩ := ih hb hc
    exact ⟨_, .fn hx, fn_finite hs hy⟩
  | @bin op l r m s ho _ _ ihl ihr =>
    simp only [eval] at hd
    obtain ⟨p, q, hp, hq, hd⟩ := Res.both_eq_ok.1 hd
    have hpq : ∀ b : Fl R, b = p ∨ b = q → ∃ c, b.val = some c := by
      intro b hb
      cases hbv : b.val with
      | some c => exact ⟨c, rfl⟩
      | none =>
        have hbad : SimpLaws.bad b := hbv
        have : y.val = none := bad_applyB hd (by rcases hb with rfl | rfl <;> simp [hbad])
        rw [hy] at this; cases this
    obtain ⟨c, hc⟩ := hpq p (.inl rfl)
    obtain ⟨c', hc'⟩ := hpq q (.inr rfl)
    obtain ⟨x, hx, hs⟩ := ihl hp hc
    obtain ⟨x', hx', hs'⟩ := ihr hq hc'
    cases op <;> simp only [applyB, Res.ok.injEq, reduceCtorEq] at hd <;> subst hd
    · exact ⟨_, .bin hx hx' rfl (by simp), add_finite hs hs' hy⟩
    · exact ⟨_, .bin hx hx' rfl (by simp), sub_finite hs hs' hy⟩
    · exact ⟨_, .bin hx hx' rfl (by simp), mul_finite hs hs' hy⟩
    · obtain ⟨h1, h2⟩ := div_finite hs hs' hy
      exact ⟨_, .bin hx hx' rfl fun _ => h2, h1⟩

end VM
