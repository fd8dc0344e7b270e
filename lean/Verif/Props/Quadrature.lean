import Verif.Rt.QuadratureLemmas
import Verif.Spec.Quadrature
import Verif.NumRat
import Verif.NumReal
import Mathlib.Analysis.SpecialFunctions.Integrals.Basic
/-
Properties C27 (one-point Gauss rule) and C28 (quadrature of sums of integrals).
-/
namespace VM.Props
open Spec
variable {K : Type} [Num K]

/-- C27.  For constant bounds of values `a` and `b` and an integrand that depends on `x` only, the rule
returns the value of the integrand at the midpoint times `b - a`, in any arithmetic obeying the simplifier's
laws. -/
theorem C27_midpoint [SimpLaws K] (o : Order K) (lo hi e : Expr K) (x : Nat) (a b y : K) (w : List K)
    (hlo : ConstArith lo) (hhi : ConstArith hi) (ha : eval o [] lo = .ok a) (hb : eval o [] hi = .ok b)
    (hx : ∀ j, Occurs j e → j = x) (hw : w[x]? = some (Num.div (Num.add a b) (Num.lit 2)))
    (he : eval o w e = .ok y) (hy : ¬ SimpLaws.bad y) :
    quadOver (gaussQuad1 o) lo hi x e = .ok (Num.mul y (Num.sub b a)) :=
  gaussQuad1_value o hlo hhi ha hb hx hw he hy

/-- C27.  Exact for integrands that are affine in `x` on the interval. -/
theorem C27_affine (o : Order XReal) (lo hi e : Expr XReal) (x : Nat) (a b p q : ℝ)
    (hlo : ConstArith lo) (hhi : ConstArith hi) (ha : eval o [] lo = .ok (some a))
    (hb : eval o [] hi = .ok (some b)) (hx : ∀ j, Occurs j e → j = x)
    (he : ∀ t ∈ Set.uIcc a b, ∀ w : List XReal, w[x]? = some (some t) →
      eval o w e = .ok (some (p * t + q))) :
    quadOver (gaussQuad1 o) lo hi x e = .ok (some (∫ t in a..b, (p * t + q))) := by
  have hm : (a + b) / 2 ∈ Set.uIcc a b := by
    rcases le_total a b with h | h
    · rw [Set.uIcc_of_le h]; constructor <;> linarith
    · rw [Set.uIcc_of_ge h]; constructor <;> linarith
  rw [C27_midpoint o lo hi e x (some a) (some b) (some (p * ((a + b) / 2) + q))
    (List.replicate (x + 1) (some ((a + b) / 2))) hlo hhi ha hb hx
    (by simp [Num.div, Num.add, Num.lit, XReal.lift2, XReal.div])
    (he _ hm _ (by simp)) (by simp [SimpLaws.bad])]
  congr 1
  rw [intervalIntegral.integral_add (Continuous.intervalIntegrable (by fun_prop) _ _) (Continuous.intervalIntegrable (by fun_prop) _ _), intervalIntegral.integral_const_mul,
    integral_id, intervalIntegral.integral_const]
  simp only [Num.mul, Num.sub, XReal.lift2, smul_eq_mul, Option.some.injEq]
  ring

/-- C27.  Additive in the integrand (real arithmetic, both integrands defined at the midpoint). -/
theorem C27_additive (o : Order XReal) (lo hi e f : Expr XReal) (x : Nat) (a b y z : ℝ) (w : List XReal)
    (hlo : ConstArith lo) (hhi : ConstArith hi) (ha : eval o [] lo = .ok (some a))
    (hb : eval o [] hi = .ok (some b)) (hx : ∀ j, Occurs j e ∨ Occurs j f → j = x)
    (hw : w[x]? = some (some ((a + b) / 2))) (he : eval o w e = .ok (some y))
    (hf : eval o w f = .ok (some z)) :
    ∃ u v : ℝ, quadOver (gaussQuad1 o) lo hi x e = .ok (some u) ∧
      quadOver (gaussQuad1 o) lo hi x f = .ok (some v) ∧
      quadOver (gaussQuad1 o) lo hi x (.bin .plus e f) = .ok (some (u + v)) ∧
      quadOver (gaussQuad1 o) lo hi x (.bin .minus e f) = .ok (some (u - v)) := by
  have hw' : w[x]? = some (Num.div (Num.add (some a) (some b)) (Num.lit 2) : XReal) := by
    simp [Num.div, Num.add, Num.lit, XReal.lift2, XReal.div, hw]
  have nb : ∀ r : ℝ, ¬ SimpLaws.bad (some r : XReal) := by simp [SimpLaws.bad]
  refine ⟨y * (b - a), z * (b - a), ?_, ?_, ?_, ?_⟩
  · exact C27_midpoint o lo hi e x _ _ _ w hlo hhi ha hb (fun j h => hx j (.inl h)) hw' he (nb _)
  · exact C27_midpoint o lo hi f x _ _ _ w hlo hhi ha hb (fun j h => hx j (.inr h)) hw' hf (nb _)
  · rw [C27_midpoint o lo hi (.bin .plus e f) x _ _ (some (y + z)) w hlo hhi ha hb
      (fun j h => hx j (by cases h with | binL h => exact .inl h | binR h => exact .inr h)) hw'
      (by simp [eval, he, hf, applyB, Num.add, XReal.lift2]) (nb _)]
    simp [Num.mul, Num.sub, XReal.lift2, add_mul]
  · rw [C27_midpoint o lo hi (.bin .minus e f) x _ _ (some (y - z)) w hlo hhi ha hb
      (fun j h => hx j (by cases h with | binL h => exact .inl h | binR h => exact .inr h)) hw'
      (by simp [eval, he, hf, applyB, Num.sub, XReal.lift2]) (nb _)]
    simp [Num.mul, Num.sub, XReal.lift2, sub_mul]

/-- `∫_1^3 (2*x1 + 5) dx1 = 18`, by the model and by the theorem. -/
example : quadOver (gaussQuad1 leftFirst) (.const (some 1)) (.const (some 3)) 1
    (.bin .plus (.bin .mult (.const (some 2)) (.var 1)) (.const (some 5)) : Expr XRat) = .ok (some 18) := by
  decide +kernel
example : ∀ t ∈ Set.uIcc (1 : ℝ) 3, ∀ w : List XReal, w[1]? = some (some t) →
    eval leftFirst w (.bin .plus (.bin .mult (.const (some 2)) (.var 1)) (.const (some 5))) =
      .ok (some (2 * t + 5)) := by
  intro t _ w h
  simp [eval, h, applyB, Num.add, Num.mul, XReal.lift2]
/-- Midpoint rule for `x0 * x0` on `[0, 4]`: `4 * 4`, not the integral. -/
example : quadOver (gaussQuad1 leftFirst) (.const (some 0)) (.const (some 4)) 0
    (.bin .mult (.var 0) (.var 0) : Expr XRat) = .ok (some 16) := by decide +kernel

/-- C28.  For an expression made of integrals with `+` and `-` the quadrature is the corresponding sum of
the numbers the rule gives for the integrals. -/
theorem C28_sum (o : Order K) (q : Rule K) (e : Expr K) (a : K)
    (h : SumOf (fun lo hi x f c => q lo hi x f = .ok c) e a) : quadOf o q e = .ok a := by
  have hc : ∀ {e : Expr K} {a}, SumOf (fun lo hi x f c => q lo hi x f = .ok c) e a → isConst e = false := by
    intro e a h
    induction h with
    | integ => rfl
    | plus _ _ ih | minus _ _ ih => simp [isConst, ih]
  induction h with
  | integ h => exact h
  | plus hl hr ihl ihr => simp [quadOf, zeroCheck, quadBin, isConst, hc hl, ihl, ihr]
  | minus hl hr ihl ihr => simp [quadOf, zeroCheck, quadBin, isConst, hc hl, ihl, ihr]

/-- C28.  If there is no symbolic integral among the summands and the rule gives a number for every
integral: exactly the expressions made of integrals and constant expressions of value zero with `+` and `-`
give a number, all others throw `integration_without_integral_exception`.  Missing: symbolic integrals
(`C28_symbolic`); constant zeros do not throw (`C28_zero`). -/
theorem C28_rejects_partial (o : Order K) (q : Rule K) (e : Expr K) (hw : WellFormed e)
    (hs : ∀ j f, ¬ Summand (.un (.symInt j) f) e)
    (hq : ∀ lo hi x f, Summand (.integ lo hi x f) e → ∃ c, q lo hi x f = .ok c) :
    let zero := fun t => ∃ c, eval o [] t = .ok c ∧ Num.eqb c (Num.lit 0) = true
    (SumWithZeros zero e ∧ ∃ a, quadOf o q e = .ok a) ∨
      (¬ SumWithZeros zero e ∧ quadOf o q e = .throw .noIntegral) := by
  intro zero
  have hzc : ∀ (e : Expr K) (rest : Res K), WellFormed e →
      (ConstArith e ∧ zero e ∧ zeroCheck o e rest = .ok (Num.lit 0)) ∨
      (¬ (ConstArith e ∧ zero e) ∧ zeroCheck o e rest = rest) := by
    intro e rest hw
    simp only [zeroCheck]
    split
    · rename_i h
      obtain ⟨c, _, hc⟩ := isConst_value hw h
      simp only [evalS_eq_eval, hc, Res.bind_ok]
      split
      · exact .inl ⟨constArith_of_isConst hw h, ⟨c, hc _ _, ‹_›⟩, rfl⟩
      · refine .inr ⟨?_, rfl⟩
        rintro ⟨_, c', h1, h2⟩
        rw [hc] at h1; cases h1
        simp_all
    · rename_i h
      exact .inr ⟨fun h' => h h'.1.isConst, rfl⟩
  induction hw with
  | const c =>
    rcases hzc (.const c) (.throw .noIntegral) (.const c) with ⟨h1, h2, h3⟩ | ⟨h1, h2⟩
    · exact .inl ⟨.zero h1 h2, _, h3⟩
    · refine .inr ⟨?_, h2⟩
      intro h; cases h; exact h1 ⟨‹_›, ‹_›⟩
  | var i => 
    refine .inr ⟨?_, rfl⟩
    intro h; cases h with | zero h => cases h
  | fsym i t =>
    refine .inr ⟨?_, rfl⟩
    intro h; cases h with | zero h => cases h
  | vec => 
    refine .inr ⟨?_, rfl⟩
    intro h; cases h with | zero h => cases h
  | @un op e _ _ =>
    refine .inr ⟨?_, ?_⟩
    · intro h; cases h with | zero h => cases h
    · cases op with
      | symInt j => exact absurd .refl (hs j e)
      | _ => rfl
  | @integ lo hi x e _ _ _ _ _ _ => 
    obtain ⟨c, hc⟩ := hq lo hi x e .refl
    exact .inl ⟨.integ _ _ _ _, c, hc⟩
  | @bin op l r ho hl hr ihl ihr =>
    rcases hzc (.bin op l r) (quadBin (o l r) (quadOf o q l) (quadOf o q r) op) (.bin ho hl hr) with ⟨h1, h2, h3⟩ | ⟨h1, h2⟩
    · exact .inl ⟨.zero h1 h2, _, h3⟩
    · rw [show quadOf o q (.bin op l r) = _ from h2]
      rcases ho with rfl | rfl | rfl | rfl
      · have hl' := ihl (fun j f h => hs j f (.plusL h)) (fun lo hi x f h => hq _ _ _ _ (.plusL h))
        have hr' := ihr (fun j f h => hs j f (.plusR h)) (fun lo hi x f h => hq _ _ _ _ (.plusR h))
        rcases hl' with ⟨l1, a, l2⟩ | ⟨l1, l2⟩ <;> rcases hr' with ⟨r1, b, r2⟩ | ⟨r1, r2⟩
        · exact .inl ⟨.plus l1 r1, _, by simp only [quadBin, l2, r2, Res.both_ok]; rfl⟩
        all_goals
          refine .inr ⟨?_, ?_⟩
          · intro h
            cases h with
            | zero h h' => exact h1 ⟨h, h'⟩
            | plus h h' => first | exact l1 h | exact r1 h'
          · simp only [quadBin, l2, r2, Res.both]; split <;> rfl
      · have hl' := ihl (fun j f h => hs j f (.minusL h)) (fun lo hi x f h => hq _ _ _ _ (.minusL h))
        have hr' := ihr (fun j f h => hs j f (.minusR h)) (fun lo hi x f h => hq _ _ _ _ (.minusR h))
        rcases hl' with ⟨l1, a, l2⟩ | ⟨l1, l2⟩ <;> rcases hr' with ⟨r1, b, r2⟩ | ⟨r1, r2⟩
        · exact .inl ⟨.minus l1 r1, _, by simp only [quadBin, l2, r2, Res.both_ok]; rfl⟩
        all_goals
          refine .inr ⟨?_, ?_⟩
          · intro h
            cases h with
            | zero h h' => exact h1 ⟨h, h'⟩
            | minus h h' => first | exact l1 h | exact r1 h'
          · simp only [quadBin, l2, r2, Res.both]; split <;> rfl
      all_goals
        refine .inr ⟨?_, rfl⟩
        intro h
        cases h with
        | zero h h' => exact h1 ⟨h, h'⟩

/-- C28, undefined behaviour comes only from symbolic integrals among the summands or from the rule. -/
theorem C28_no_ub (o : Order K) (q : Rule K) (e : Expr K) (hs : ∀ j f, ¬ Summand (.un (.symInt j) f) e)
    (hq : ∀ lo hi x f, Summand (.integ lo hi x f) e → q lo hi x f ≠ .ub) : quadOf o q e ≠ .ub := by
  have hzc : ∀ (e : Expr K) (rest : Res K), rest ≠ .ub → zeroCheck o e rest ≠ .ub := by
    intro e rest h
    simp only [zeroCheck]
    split
    · have := eval_ne_ub o [Num.lit 0] e
      rw [← evalS_eq_eval] at this
      cases h' : evalS o (Num.lit 0) e with
      | ok c => simp only [Res.bind_ok]; split; exact nofun; exact h
      | throw x => exact nofun
      | ub => exact absurd h' this
    · exact h
  induction e using Expr.ind with
  | const | var | fsym | vec => exact hzc _ _ nofun
  | un op e _ =>
    cases op with
    | symInt j => exact absurd .refl (hs j e)
    | _ => exact nofun
  | integ lo hi x e _ _ _ => exact hq _ _ _ _ .refl
  | bin op l r ihl ihr =>
    refine hzc _ _ ?_
    unfold quadBin
    split
    · have hl := ihl (fun j f h => hs j f (.plusL h)) (fun lo hi x f h => hq _ _ _ _ (.plusL h))
      have hr := ihr (fun j f h => hs j f (.plusR h)) (fun lo hi x f h => hq _ _ _ _ (.plusR h))
      revert hl hr
      cases quadOf o q l <;> cases quadOf o q r <;> simp [Res.both]
      all_goals split <;> simp
    · have hl := ihl (fun j f h => hs j f (.minusL h)) (fun lo hi x f h => hq _ _ _ _ (.minusL h))
      have hr := ihr (fun j f h => hs j f (.minusR h)) (fun lo hi x f h => hq _ _ _ _ (.minusR h))
      revert hl hr
      cases quadOf o q l <;> cases quadOf o q r <;> simp [Res.both]
      all_goals split <;> simp
    · exact nofun

/-- The claim fails for integrals over symbolic intervals: undefined behaviour instead of an exception,
whatever the rule. -/
theorem C28_symbolic (o : Order K) (q : Rule K) (j : Nat) (f : Expr K) :
    quadOf o q (.un (.symInt j) f) = .ub := rfl

/-- C28 with symbolic integrals, whatever the other summands are: never a number; and undefined behaviour unless one of the
summands, taken by itself, makes the quadrature throw. -/
theorem C28_symbolic_summand (o : Order K) (q : Rule K) (e : Expr K) (hw : WellFormed e) (j : Nat) (f : Expr K)
    (h : Summand (.un (.symInt j) f) e) :
    (∀ a, quadOf o q e ≠ .ok a) ∧
    ((∀ s, Summand s e → (∀ l r, s ≠ .bin .plus l r ∧ s ≠ .bin .minus l r) → ∀ x, quadOf o q s ≠ .throw x) →
      quadOf o q e = .ub) := by
  have key : ∀ (b : Bool) (l r : Res K) (g : K → K → Res K), (∀ a, l ≠ .ok a) → (∀ a, Res.both b l r g ≠ .ok a) ∧
      (∀ a, Res.both b r l g ≠ .ok a) := by
    intro b l r g hl
    cases b <;> cases l <;> cases r <;> simp_all [Res.both]
  have main : isConst e = false ∧ ∀ a, quadOf o q e ≠ .ok a := by
    clear hw
    induction h with
    | refl => exact ⟨rfl, fun a => by simp [quadOf]⟩
    | plusL _ ih | minusL _ ih =>
      refine ⟨by simp [isConst, ih.1], fun a => ?_⟩
      simp only [quadOf, zeroCheck, isConst, ih.1, Bool.false_and, Bool.false_eq_true, if_false, quadBin]
      exact (key _ _ _ _ ih.2).1 a
    | plusR _ ih | minusR _ ih =>
      refine ⟨by simp [isConst, ih.1], fun a => ?_⟩
      simp only [quadOf, zeroCheck, isConst, ih.1, Bool.and_false, Bool.false_eq_true, if_false, quadBin]
      exact (key _ _ _ _ ih.2).2 a
  clear h
  refine ⟨main.2, fun ht => ?_⟩
  have noThrow : ∀ x, quadOf o q e ≠ .throw x := by
    clear key main
    induction e using Expr.ind with
    | bin op l r ihl ihr =>
      cases hw with | bin _ hwl hwr =>
      by_cases hop : op = .plus ∨ op = .minus
      · have hl := ihl hwl fun s hs => ht s (by rcases hop with rfl | rfl; exact .plusL hs; exact .minusL hs)
        have hr := ihr hwr fun s hs => ht s (by rcases hop with rfl | rfl; exact .plusR hs; exact .minusR hs)
        have hb : ∀ x, quadBin (o l r) (quadOf o q l) (quadOf o q r) op ≠ .throw x := by
          have small : ∀ (b : Bool) (u v : Res K) (g : K → K → K), (∀ x, u ≠ .throw x) → (∀ x, v ≠ .throw x) →
              ∀ x, Res.both b u v (fun a b => .ok (g a b)) ≠ .throw x := by
            intro b u v g hu hv x
            cases u with
            | throw y => exact absurd rfl (hu y)
            | ub => cases b <;> cases v <;> simp_all [Res.both]
            | ok a =>
              cases v with
              | throw y => exact absurd rfl (hv y)
              | ub => cases b <;> simp [Res.both]
              | ok c => cases b <;> simp [Res.both]
          rcases hop with rfl | rfl
          · exact small _ _ _ _ hl hr
          · exact small _ _ _ _ hl hr
        intro x
        rw [quadOf, zeroCheck]
        split
        · rename_i hc
          obtain ⟨c, _, h⟩ := isConst_value (WellFormed.bin ‹_› hwl hwr) hc
          rw [evalS_eq_eval, h]
          simp only [Res.bind_ok]
          split
          · simp
          · exact hb x
        · exact hb x
      · rw [not_or] at hop
        exact ht _ .refl fun l' r' => ⟨fun h => hop.1 (by cases h; rfl), fun h => hop.2 (by cases h; rfl)⟩
    | _ => exact ht _ .refl (by simp)
  cases hq : quadOf o q e with
  | ok a => exact absurd hq (main.2 a)
  | throw x => exact absurd hq (noThrow x)
  | ub => rfl

/-- A symbolic integral after an ordinary one. -/
example : Summand (.un (.symInt 3) (.var 0)) (.bin .minus (.integ (.var 0) (.var 1) 0 (.var 0)) (.un (.symInt 3) (.var 0)) :
    Expr XRat) := .minusR .refl

/-- The claim fails for constant expressions of value zero: they give zero instead of an exception. -/
theorem C28_zero (o : Order K) (q : Rule K) (e : Expr K) (he : ConstArith e) (c : K)
    (hc : eval o [] e = .ok c) (h0 : Num.eqb c (Num.lit 0) = true) : quadOf o q e = .ok (Num.lit 0) := by
  have : ∀ rest, zeroCheck o e rest = .ok (Num.lit 0) := by
    intro rest
    obtain ⟨c', _, h⟩ := isConst_value he.wellFormed he.isConst
    rw [h] at hc; cases hc
    simp [zeroCheck, he.isConst, evalS_eq_eval, h, h0]
  cases he with
  | const c => exact this _
  | bin => exact this _

/-- `∫_0^2 x0 dx0 - (∫_1^3 5 dx0 + ∫_0^1 2*x0 dx0) = -9`. -/
example : quadOf leftFirst (gaussQuad1 leftFirst)
    (.bin .minus (.integ (.const (some 0)) (.const (some 2)) 0 (.var 0))
      (.bin .plus (.integ (.const (some 1)) (.const (some 3)) 0 (.const (some 5)))
        (.integ (.const (some 0)) (.const (some 1)) 0 (.bin .mult (.const (some 2)) (.var 0)))) : Expr XRat) =
    .ok (some (-9)) := by decide +kernel
/-- `∫ ... + x1` throws. -/
example : quadOf leftFirst (gaussQuad1 leftFirst)
    (.bin .plus (.integ (.const (some 0)) (.const (some 2)) 0 (.var 0)) (.var 1) : Expr XRat) =
    .throw .noIntegral := by decide +kernel

end VM.Props
