import Verif.Rt.RoundedPoly
import Verif.Rt.QuadErrorLemmas
/-
C68: numerical quadrature with floating point numbers.
-/
namespace VM
open Spec
variable {R : Rounding} {D δ T : ℝ}

theorem Spec.NearExpr.constArith {e : Expr XReal} {d : Expr (Fl R)} (hn : NearExpr D R e d) (h : ConstArith e) :
    ConstArith d := by
  induction hn with
  | const _ => exact .const _
  | var i => cases h
  | fn _ _ => cases h
  | bin hop _ _ ihl ihr => cases h with | bin _ h1 h2 => exact .bin hop (ihl h1) (ihr h2)

theorem Spec.NearExpr.occurs {e : Expr XReal} {d : Expr (Fl R)} (hn : NearExpr D R e d) {j : Nat} (h : Occurs j d) :
    Occurs j e := by
  induction hn with
  | const _ => cases h
  | var i => cases h; exact .var
  | fn _ ih => cases h with | un h => exact .un (ih h)
  | bin hop _ _ ihl ihr => cases h with
    | binL h => exact .binL (ihl h)
    | binR h => exact .binR (ihr h)

theorem constArith_sqrt {e s : Expr XReal} (h : ConstArith e) : ¬ Sub (.un (.fn .sqrt) s) e := by
  induction h with
  | const c => exact nofun
  | bin _ _ _ ihl ihr =>
    intro hs
    cases hs with
    | binL hs => exact ihl hs
    | binR hs => exact ihr hs

theorem constArith_arith {e : Expr XReal} (h : ConstArith e) : Arith e := by
  induction h with
  | const c => exact .const c
  | bin hop _ _ ihl ihr => exact .bin hop ihl ihr

/-- The point of `along` with a floating point number near `t`. -/
theorem nearVals_along {x : Nat} {t : ℝ} {m : Fl R} (h0 : 0 ≤ D) (he : 0 ≤ R.eps) (hm : NearNum D R (some t) m) :
    ∃ w, NearVals D R (realPoint (along x t)) w ∧ w[x]? = some m := by
  refine ⟨List.ofFn fun j : Fin (x + 1) => if j = Fin.last x then m else Num.lit 0, ?_, ?_⟩
  · refine List.forall₂_iff_get.2 ⟨by simp [realPoint], fun i h1 h2 => ?_⟩
    simp only [realPoint, List.get_eq_getElem, List.getElem_ofFn, along, Function.update_apply]
    split
    · exact hm
    · exact ⟨0, 0, rfl, Fl.val_zero, by simp; positivity⟩
  · rw [List.getElem?_ofFn, dif_pos (Nat.lt_succ_self x)]
    exact congrArg some (if_pos rfl)

/-- Numbers near the exact ones, whatever the arithmetic. -/
theorem accurate_mul_sub (D y a b : ℝ) : ∃ C δ T : ℝ, 0 < δ ∧ ∀ R, Fine δ T R → ∀ y' a' b', NearNum D R (some y) y' →
    NearNum D R (some a) a' → NearNum D R (some b) b' →
    NearNum C R (some (y * (b - a))) (Num.mul y' (Num.sub b' a')) := by
  have hv : eval leftFirst [some y, some a, some b] (.bin .mult (.var 0) (.bin .minus (.var 2) (.var 1)) : Expr XReal) =
      .ok (some (y * (b - a))) := rfl
  obtain ⟨C, δ, T, _, hδ, H⟩ := accurate D (.of_eval hv) hv (by
    intro s hs
    cases hs with
    | binL hs => cases hs
    | binR hs => cases hs with
      | binL hs => cases hs
      | binR hs => cases hs)
  refine ⟨C, δ, T, hδ, fun R hF y' a' b' h1 h2 h3 => ?_⟩
  obtain ⟨x, z, k1, k2, k3⟩ := H R hF (.bin .mult (.var 0) (.bin .minus (.var 2) (.var 1))) [y', a', b']
    (.bin (.inr (.inr (.inl rfl))) (.var 0) (.bin (.inr (.inl rfl)) (.var 2) (.var 1)))
    (.cons h1 (.cons h2 (.cons h3 .nil))) leftFirst
  have : x = Num.mul y' (Num.sub b' a') := (Res.ok.inj k1).symm
  subst this
  exact ⟨_, z, rfl, k2, k3⟩

theorem accurate_mid (D a b : ℝ) : ∃ C δ T : ℝ, 0 < δ ∧ ∀ R, Fine δ T R → ∀ a' b',
    NearNum D R (some a) a' → NearNum D R (some b) b' →
    NearNum C R (some ((a + b) / 2)) (Num.div (Num.add a' b') (Num.lit 2)) := by
  have h2 : (some ((a + b) / 2) : XReal) = XReal.div (some (a + b)) (some 2) := by simp [XReal.div]
  have hv : eval leftFirst [some a, some b, Num.lit 2] (.bin .div (.bin .plus (.var 0) (.var 1)) (.var 2) : Expr XReal) =
      .ok (some ((a + b) / 2)) := by
    rw [h2]; simp [eval, applyB, Num.div, Num.add, Num.lit, XReal.lift2, Res.both, leftFirst]
  obtain ⟨E, δ', T', hδ', H'⟩ := near_consts
  obtain ⟨C, δ, T, _, hδ, H⟩ := accurate (max E D) (.of_eval hv) hv (by
    intro s hs
    cases hs with
    | binR hs => cases hs
    | binL hs => cases hs with
      | binL hs => cases hs
      | binR hs => cases hs)
  refine ⟨C, min δ δ', max T T', by positivity, fun R hF a' b' h1 h2 => ?_⟩
  have hl := (H' R (hF.mono (min_le_right _ _) (le_max_right _ _))).1 2 (by norm_num)
  obtain ⟨x, z, k1, k2, k3⟩ := H R (hF.mono (min_le_left _ _) (le_max_left _ _)) (.bin .div (.bin .plus (.var 0) (.var 1)) (.var 2))
    [a', b', Num.lit 2]
    (.bin (.inr (.inr (.inr rfl))) (.bin (.inl rfl) (.var 0) (.var 1)) (.var 2))
    (.cons (h1.mono hF.pos (le_max_right _ _)) (.cons (h2.mono hF.pos (le_max_right _ _)) (.cons (hl.mono hF.pos (le_max_left _ _)) .nil))) leftFirst
  have : x = Num.div (Num.add a' b') (Num.lit 2) := (Res.ok.inj k1).symm
  subst this
  exact ⟨_, z, rfl, k2, k3⟩

theorem near_of {C : ℝ} {x : Fl R} {y a : ℝ} (h1 : x.val = some y) (h2 : |y - a| ≤ C * R.eps) : NearNum C R (some a) x :=
  ⟨a, y, rfl, h1, h2⟩

theorem rule_near {o : Order XReal} {lo hi e : Expr XReal} {x : Nat} {a b y : ℝ} (D : ℝ)
    (hlo : ConstArith lo) (hhi : ConstArith hi) (ha : eval o [] lo = .ok (some a)) (hb : eval o [] hi = .ok (some b))
    (hx : ∀ j, Occurs j e → j = x) (he : eval o (realPoint (along x ((a + b) / 2))) e = .ok (some y))
    (hq : ∀ s, Sub (.un (.fn .sqrt) s) e → eval o (realPoint (along x ((a + b) / 2))) s ≠ .ok (some 0)) :
    ∃ C δ T : ℝ, 0 < δ ∧ ∀ R, Fine δ T R → ∀ lo' hi' e', NearExpr D R lo lo' → NearExpr D R hi hi' → NearExpr D R e e' →
      ∀ o', ∃ z, gaussQuad1 o' lo' hi' x e' = .ok z ∧ NearNum C R (some (y * (b - a))) z := by
  obtain ⟨C₁, δ₁, T₁, _, hδ₁, H₁⟩ := accurate D (constArith_arith hlo) ha fun s hs => absurd hs (constArith_sqrt hlo)
  obtain ⟨C₂, δ₂, T₂, _, hδ₂, H₂⟩ := accurate D (constArith_arith hhi) hb fun s hs => absurd hs (constArith_sqrt hhi)
  obtain ⟨C₃, δ₃, T₃, hδ₃, H₃⟩ := accurate_mid (max C₁ C₂) a b
  obtain ⟨C₄, δ₄, T₄, _, hδ₄, H₄⟩ := accurate (max (max D C₃) 0) (.of_eval he) he hq
  obtain ⟨C₅, δ₅, T₅, hδ₅, H₅⟩ := accurate_mul_sub (max (max C₁ C₂) C₄) y a b
  refine ⟨C₅, min (min δ₁ δ₂) (min δ₃ (min δ₄ δ₅)), max (max T₁ T₂) (max T₃ (max T₄ T₅)), by positivity,
    fun R hF lo' hi' e' nlo nhi ne o' => ?_⟩
  have F₁ : Fine δ₁ T₁ R := hF.mono (by simp) (by simp)
  have F₂ : Fine δ₂ T₂ R := hF.mono (by simp) (by simp)
  have F₃ : Fine δ₃ T₃ R := hF.mono (by simp) (by simp)
  have F₄ : Fine δ₄ T₄ R := hF.mono (by simp) (by simp)
  have F₅ : Fine δ₅ T₅ R := hF.mono (by simp) (by simp)
  obtain ⟨a', _, a1, a2, a3⟩ := H₁ R F₁ lo' [] nlo .nil o'
  obtain ⟨b', _, b1, b2, b3⟩ := H₂ R F₂ hi' [] nhi .nil o'
  have na := (near_of a2 a3).mono hF.pos (le_max_left C₁ C₂)
  have nb := (near_of b2 b3).mono hF.pos (le_max_right C₁ C₂)
  have nm := H₃ R F₃ a' b' na nb
  obtain ⟨w, w1, w2⟩ := nearVals_along (x := x) (le_max_right (max D C₃) 0) hF.pos
    (nm.mono hF.pos ((le_max_right D C₃).trans (le_max_left _ _)))
  obtain ⟨y', u, y1, y2, y3⟩ := H₄ R F₄ e' w (ne.mono hF.pos ((le_max_left D C₃).trans (le_max_left _ _))) w1 o'
  refine ⟨_, Props.C27_midpoint o' lo' hi' e' x a' b' y' w (nlo.constArith hlo) (nhi.constArith hhi) a1 b1
    (fun j hj => hx j (ne.occurs hj)) w2 y1 ?_, ?_⟩
  · intro hbad
    have hbad : y'.val = none := hbad
    rw [y2] at hbad; cases hbad
  · exact H₅ R F₅ y' a' b' ((near_of y2 y3).mono hF.pos (le_max_right _ _)) (na.mono hF.pos (le_max_left _ _))
      (nb.mono hF.pos (le_max_left _ _))

theorem accurate_add (D a b : ℝ) : ∃ C δ T : ℝ, 0 < δ ∧ ∀ R, Fine δ T R → ∀ a' b', NearNum D R (some a) a' →
    NearNum D R (some b) b' →
    NearNum C R (some (a + b)) (Num.add a' b') ∧ NearNum C R (some (a - b)) (Num.sub a' b') := by
  have hv : eval leftFirst [some a, some b] (.bin .plus (.var 0) (.var 1) : Expr XReal) = .ok (some (a + b)) := rfl
  have hv' : eval leftFirst [some a, some b] (.bin .minus (.var 0) (.var 1) : Expr XReal) = .ok (some (a - b)) := rfl
  have hq : ∀ {op s}, ¬ Sub (.un (.fn .sqrt) s) (.bin op (.var 0) (.var 1) : Expr XReal) := by
    intro op s hs
    cases hs with
    | binL hs => cases hs
    | binR hs => cases hs
  obtain ⟨C, δ, T, _, hδ, H⟩ := accurate D (.of_eval hv) hv fun s hs => absurd hs hq
  obtain ⟨C', δ', T', _, hδ', H'⟩ := accurate D (.of_eval hv') hv' fun s hs => absurd hs hq
  refine ⟨max C C', min δ δ', max T T', by positivity, fun R hF a' b' h1 h2 => ?_⟩
  obtain ⟨x, z, k1, k2, k3⟩ := H R (hF.mono (min_le_left _ _) (le_max_left _ _)) (.bin .plus (.var 0) (.var 1)) [a', b']
    (.bin (.inl rfl) (.var 0) (.var 1)) (.cons h1 (.cons h2 .nil)) leftFirst
  obtain ⟨x', z', k1', k2', k3'⟩ := H' R (hF.mono (min_le_right _ _) (le_max_right _ _)) (.bin .minus (.var 0) (.var 1)) [a', b']
    (.bin (.inr (.inl rfl)) (.var 0) (.var 1)) (.cons h1 (.cons h2 .nil)) leftFirst
  have : x = Num.add a' b' := (Res.ok.inj k1).symm
  subst this
  have : x' = Num.sub a' b' := (Res.ok.inj k1').symm
  subst this
  exact ⟨(near_of k2 k3).mono hF.pos (le_max_left _ _), (near_of k2' k3').mono hF.pos (le_max_right _ _)⟩

/-- Sums of integrals. -/
theorem form_near {o : Order XReal} {e : Expr XReal} (D : ℝ) (h : Integrable o e) :
    ∃ v : ℝ, SumOf (fun lo hi x f c => gaussQuad1 o lo hi x f = .ok c) e (some v) ∧
    ∃ C δ T : ℝ, 0 < δ ∧ ∀ R, Fine δ T R → ∀ d, NearForm D R e d →
      ∀ o', ∃ z, SumOf (fun lo hi x f c => gaussQuad1 o' lo hi x f = .ok c) d z ∧ NearNum C R (some v) z := by
  induction h with
  | @integ lo hi x e a b hlo hhi ha hb hx hr =>
    obtain ⟨⟨y, hy⟩, hq⟩ := hr
    refine ⟨y * (b - a), .integ ?_, ?_⟩
    · exact Props.C27_midpoint o lo hi e x (some a) (some b) (some y) (realPoint (along x ((a + b) / 2))) hlo hhi ha hb hx
        (by rw [along_get]; simp [Num.div, Num.add, Num.lit, XReal.lift2, XReal.div]) hy (by simp [SimpLaws.bad])
    · obtain ⟨C, δ, T, hδ, H⟩ := rule_near D hlo hhi ha hb hx hy hq
      refine ⟨C, δ, T, hδ, fun R hF d hn o' => ?_⟩
      cases hn with
      | integ n1 n2 n3 =>
        obtain ⟨z, h1, h2⟩ := H R hF _ _ _ n1 n2 n3 o'
        exact ⟨z, .integ h1, h2⟩
  | plus _ _ ihl ihr =>
    obtain ⟨v, h1, C, δ, T, hδ, H⟩ := ihl
    obtain ⟨v', h1', C', δ', T', hδ', H'⟩ := ihr
    obtain ⟨C₂, δ₂, T₂, hδ₂, H₂⟩ := accurate_add (max C C') v v'
    refine ⟨v + v', .plus h1 h1', C₂, min (min δ δ') δ₂, max (max T T') T₂, by positivity, fun R hF d hn o' => ?_⟩
    cases hn with
    | plus n1 n2 =>
      obtain ⟨z, g1, g2⟩ := H R (hF.mono (by simp) (by simp)) _ n1 o'
      obtain ⟨z', g1', g2'⟩ := H' R (hF.mono (by simp) (by simp)) _ n2 o'
      exact ⟨_, .plus g1 g1', (H₂ R (hF.mono (by simp) (by simp)) z z' (g2.mono hF.pos (le_max_left _ _)) (g2'.mono hF.pos (le_max_right _ _))).1⟩
  | minus _ _ ihl ihr =>
    obtain ⟨v, h1, C, δ, T, hδ, H⟩ := ihl
    obtain ⟨v', h1', C', δ', T', hδ', H'⟩ := ihr
    obtain ⟨C₂, δ₂, T₂, hδ₂, H₂⟩ := accurate_add (max C C') v v'
    refine ⟨v - v', .minus h1 h1', C₂, min (min δ δ') δ₂, max (max T T') T₂, by positivity, fun R hF d hn o' => ?_⟩
    cases hn with
    | minus n1 n2 =>
      obtain ⟨z, g1, g2⟩ := H R (hF.mono (by simp) (by simp)) _ n1 o'
      obtain ⟨z', g1', g2'⟩ := H' R (hF.mono (by simp) (by simp)) _ n2 o'
      exact ⟨_, .minus g1 g1', (H₂ R (hF.mono (by simp) (by simp)) z z' (g2.mono hF.pos (le_max_left _ _)) (g2'.mono hF.pos (le_max_right _ _))).2⟩

end VM
