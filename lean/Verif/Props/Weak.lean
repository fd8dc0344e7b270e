import Verif.Rt.WeakLemmas
import Verif.Props.Quadrature
/-
Property C63: weak forms, from the formula to numbers.
-/
namespace VM.Props
open Spec MeasureTheory
open scoped Topology

/-- C63.  An integrand `e` made of numbers, variables, `u`, `v`, functions, operators, gradients, divergences, partial
derivatives and products of vectors, with the value `a` at the point `p` if `u` and `v` are the functions given by the
smooth expressions `F 0` and `F 1`: the coordinate system, the derivatives of `F 0` and `F 1` for the partial derivatives
(in any order, each at least once), and `F 0` and `F 1` for `u` and `v` turn it into an expression that evaluates to `a`
at `p`. -/
theorem C63_value (D : Dim) (F : Nat → Expr XReal) (l : List (Nat × Nat))
    (hl : ∀ t x, (t, x) ∈ l ↔ t < 2 ∧ x < D.toNat) (e : Expr XReal) (p : Fin D.toNat → ℝ) (a : ℝ)
    (hF : ∀ t : Fin 2, Smooth (F t) ∧ RegularAt leftFirst p (F t))
    (h : WeakVal (fun t : Fin 2 => denotes (F t)) p e a) :
    ∃ e1 e2, coords D e = .ok e1 ∧ insertFunctions F l e1 = .ok e2 ∧ ∀ o, eval o (realPoint p) e2 = .ok (some a) := by
  obtain ⟨e1, e2, h1, h2, h3⟩ := weak_insert (fun t => (regularAt_iff (hF t).1 leftFirst).1 (hF t).2) (fun _ => rfl)
    (D := D) rfl hl (.plain h)
  refine ⟨e1, e2, h1, h2, fun o => ?_⟩
  cases h3 o with | plain h => exact h

/-- C63.  A form in one dimension: replacing the symbolic interval by `[a, b]` and integrating with the midpoint rule
gives the sum of the midpoint values. -/
theorem C63_midpoint (o : Order XReal) (F : Nat → Expr XReal) (l : List (Nat × Nat))
    (hl : ∀ t x, (t, x) ∈ l ↔ t < 2 ∧ x < 1) (k : Nat) (e lo hi : Expr XReal) (a b c : ℝ)
    (hlo : ConstArith lo) (hhi : ConstArith hi) (ha : eval o [] lo = .ok (some a)) (hb : eval o [] hi = .ok (some b))
    (hF : ∀ t : Fin 2, Smooth (F t) ∧ RegularAt leftFirst (fun _ : Fin 1 => (a + b) / 2) (F t))
    (h : WeakForm (fun t : Fin 2 => denotes (F t)) k (fun p : Fin 1 → ℝ => p = fun _ => (a + b) / 2)
      (fun g c => c = g (fun _ => (a + b) / 2) * (b - a)) e c) :
    ∃ e1 e2 e3, coords .one e = .ok e1 ∧ insertFunctions F l e1 = .ok e2 ∧ substituteInterval k lo hi 0 e2 = .ok e3 ∧
      quadOf o (gaussQuad1 o) e3 = .ok (some c) := by
  have hm : ∃ c', c = c' * (b - a) ∧
      FormOf (WeakVal (fun t : Fin 2 => denotes (F t)) (fun _ : Fin 1 => (a + b) / 2)) true e c' := by
    induction h with
    | integral g hg hc => exact ⟨_, hc, .integral k (hg _ rfl)⟩
    | plus _ _ ihl ihr =>
      obtain ⟨x, rfl, hx⟩ := ihl
      obtain ⟨y, rfl, hy⟩ := ihr
      exact ⟨x + y, by ring, .plus hx hy⟩
    | minus _ _ ihl ihr =>
      obtain ⟨x, rfl, hx⟩ := ihl
      obtain ⟨y, rfl, hy⟩ := ihr
      exact ⟨x - y, by ring, .minus hx hy⟩
  obtain ⟨c', rfl, hm⟩ := hm
  obtain ⟨e1, e2, h1, h2, h3⟩ := weak_insert (fun t => (regularAt_iff (hF t).1 leftFirst).1 (hF t).2) (fun _ => rfl)
    (D := .one) rfl hl hm
  obtain ⟨e3, h4, h5⟩ := quad_form o hlo hhi ha hb k (h3 o)
  exact ⟨e1, e2, e3, h1, h2, h4, C28_sum o _ e3 _ h5⟩

/-- C63.  If the integrands are affine on the interval, this is the value of the form with true integrals. -/
theorem C63_exact (o : Order XReal) (F : Nat → Expr XReal) (l : List (Nat × Nat))
    (hl : ∀ t x, (t, x) ∈ l ↔ t < 2 ∧ x < 1) (k : Nat) (e lo hi : Expr XReal) (a b c : ℝ)
    (hlo : ConstArith lo) (hhi : ConstArith hi) (ha : eval o [] lo = .ok (some a)) (hb : eval o [] hi = .ok (some b))
    (hF : ∀ t : Fin 2, Smooth (F t) ∧ RegularAt leftFirst (fun _ : Fin 1 => (a + b) / 2) (F t))
    (h : WeakForm (fun t : Fin 2 => denotes (F t)) k (fun p : Fin 1 → ℝ => p 0 ∈ Set.uIcc a b)
      (fun g c => (∃ m q : ℝ, ∀ t ∈ Set.uIcc a b, g (fun _ => t) = m * t + q) ∧ c = ∫ t in a..b, g (fun _ => t)) e c) :
    ∃ e1 e2 e3, coords .one e = .ok e1 ∧ insertFunctions F l e1 = .ok e2 ∧ substituteInterval k lo hi 0 e2 = .ok e3 ∧
      quadOf o (gaussQuad1 o) e3 = .ok (some c) := by
  have hm : (a + b) / 2 ∈ Set.uIcc a b := by
    rcases le_total a b with h | h
    · rw [Set.uIcc_of_le h]; constructor <;> linarith
    · rw [Set.uIcc_of_ge h]; constructor <;> linarith
  refine C63_midpoint o F l hl k e lo hi a b c hlo hhi ha hb hF ?_
  induction h with
  | integral g hg hc =>
    refine .integral g (fun p hp => hg p (by rw [hp]; exact hm)) ?_
    obtain ⟨⟨m, q, hmq⟩, rfl⟩ := hc
    have : ∫ t in a..b, g (fun _ => t) = ∫ t in a..b, (m * t + q) := intervalIntegral.integral_congr hmq
    rw [this, hmq _ hm, intervalIntegral.integral_add (Continuous.intervalIntegrable (by fun_prop) _ _)
      (Continuous.intervalIntegrable (by fun_prop) _ _), intervalIntegral.integral_const_mul, integral_id,
      intervalIntegral.integral_const]
    simp only [smul_eq_mul]
    ring
  | plus _ _ ihl ihr => exact .plus ihl ihr
  | minus _ _ ihl ihr => exact .minus ihl ihr

/-- Not C63: a number times a vector is not among the operations.  `(c * grad(u)) * grad(v)` in two dimensions becomes an
expression that cannot be evaluated anywhere, although `c * (grad(u) * grad(v))` can. -/
theorem C63_scaled_gradient (F : Nat → Expr XReal) (l : List (Nat × Nat)) (hF : ∀ t : Fin 2, Smooth (F t))
    (hl : ∀ t x, (t, x) ∈ l ↔ t < 2 ∧ x < 2) (c : ℝ) (h0 : c ≠ 0) (h1 : c ≠ 1) :
    ∃ e1 e2, coords .two (.bin .mult (.bin .mult (.const (some c)) (.un .grad symU)) (.un .grad symV)) = .ok e1 ∧
      insertFunctions F l e1 = .ok e2 ∧ ∀ o v, eval o v e2 = .throw .notEvaluable := by
  have cs : ∀ l r : Expr XReal, isConst l = false → isConst r = false → canSimplify l = .ok false → canSimplify r = .ok false →
      simplified (.bin .mult (.bin .mult (.const (some c)) l) r) = .ok (.bin .mult (.bin .mult (.const (some c)) l) r) := by
    intro l r hl hr cl cr
    have e0 : Num.eqb (some c : XReal) (Num.lit 0) = false := by simp [Num.eqb, Num.lit, XReal.eqb, h0]
    have e1 : Num.eqb (some c : XReal) (Num.lit 1) = false := by simp [Num.eqb, Num.lit, XReal.eqb, h1]
    have h1 : canSimplify (.bin .mult (.const (some c)) l) = .ok false := by
      simp [canSimplify, isConst, hl, canBin, constCheck, unwrap, e0, e1, cl, Res.bind]
    have h2 : canSimplify (.bin .mult (.bin .mult (.const (some c)) l) r) = .ok false := by
      rw [canSimplify]
      simp [isConst, hl, hr, canBin, constCheck, h1, cr, Res.bind]
    rw [simplified_eq, h2]; rfl
  have cv : ∀ es fs : List (Expr XReal), simplified (.bin .mult (.bin .mult (.const (some c)) (.vec es)) (.vec fs)) =
      .ok (.bin .mult (.bin .mult (.const (some c)) (.vec es)) (.vec fs)) :=
    fun es fs => cs _ _ rfl rfl (by simp [canSimplify]) (by simp [canSimplify])
  have ev : ∀ o v (es fs : List (Expr XReal)), eval o v (.bin .mult (.bin .mult (.const (some c)) (.vec es)) (.vec fs)) =
      .throw .notEvaluable := by
    intro o v es fs
    simp only [eval, Res.both]
    split <;> split <;> rfl
  have hd : ∀ (l : List (Nat × Nat)), (∀ t x, (t, x) ∈ l → t < 2) → ∀ es fs : List (Expr XReal), ∃ es' fs',
      replaceDerivatives F l (.bin .mult (.bin .mult (.const (some c)) (.vec es)) (.vec fs)) =
        .ok (.bin .mult (.bin .mult (.const (some c)) (.vec es')) (.vec fs')) := by
    intro l
    induction l with
    | nil => exact fun _ es fs => ⟨es, fs, rfl⟩
    | cons tx l ih =>
      obtain ⟨t, x⟩ := tx
      intro hl es fs
      obtain ⟨D, hD, -⟩ := C11_derivative (F t) x (hF ⟨t, hl t x (by simp)⟩)
      obtain ⟨es', fs', h⟩ := ih (fun t x h => hl t x (by simp [h])) (rqL (.pd x) 0 t D es) (rqL (.pd x) 0 t D fs)
      refine ⟨es', fs', ?_⟩
      simp [replaceDerivatives, hD, substitute, diffSymbol, substE_un _ (UOp.equal_pd x), Res.bind, rq, cv, h]
  obtain ⟨es, fs, h⟩ := hd l (fun t x h => ((hl t x).1 h).1)
    [.un (.pd 0) (.fsym 0 0), .un (.pd 1) (.fsym 0 0)] [.un (.pd 0) (.fsym 0 1), .un (.pd 1) (.fsym 0 1)]
  have r1 : rq .grad 0 0 (replOf 2 .grad 0) (.bin .mult (.bin .mult (.const (some c)) (.un .grad symU)) (.un .grad symV)) =
      .bin .mult (.bin .mult (.const (some c)) (.vec (partials 2 0 0))) (.un .grad symV) := by
    simp [rq, symU, symV, replOf, gradIn]
  have r2 : rq .grad 0 1 (replOf 2 .grad 1) (.bin .mult (.bin .mult (.const (some c)) (.vec (partials 2 0 0))) (.un .grad symV)) =
      .bin .mult (.bin .mult (.const (some c)) (.vec (partials 2 0 0))) (.vec (partials 2 0 1)) := by
    simp [rq, rqL_eq_map, symV, replOf, gradIn, partials, List.range_succ]
  have r3 : ∀ (t : Nat) (r : Expr XReal), rq .divg 0 t r
      (.bin .mult (.bin .mult (.const (some c)) (.vec (partials 2 0 0))) (.vec (partials 2 0 1))) =
      .bin .mult (.bin .mult (.const (some c)) (.vec (partials 2 0 0))) (.vec (partials 2 0 1)) := by
    intro t r; simp [rq, rqL_eq_map, partials, List.range_succ]
  refine ⟨.bin .mult (.bin .mult (.const (some c)) (.vec (partials 2 0 0))) (.vec (partials 2 0 1)),
    .bin .mult (.bin .mult (.const (some c)) (.vec (ryL 0 1 (F 1) (ryL 0 0 (F 0) es))))
      (.vec (ryL 0 1 (F 1) (ryL 0 0 (F 0) fs))), ?_, ?_, fun o v => ev o v _ _⟩
  · simp only [coords_eq, coordStep, Dim.toNat, r1, r2, r3, cv, Res.bind,
      cs (.vec (partials 2 0 0)) (.un .grad symV) rfl rfl (by simp [canSimplify]) (by simp [canSimplify, symV])]
  · have : (.bin .mult (.bin .mult (.const (some c)) (.vec (partials 2 0 0))) (.vec (partials 2 0 1)) : Expr XReal) =
      .bin .mult (.bin .mult (.const (some c)) (.vec [.un (.pd 0) (.fsym 0 0), .un (.pd 1) (.fsym 0 0)]))
        (.vec [.un (.pd 0) (.fsym 0 1), .un (.pd 1) (.fsym 0 1)]) := rfl
    simp only [insertFunctions, this, h, Res.bind, substitute, substE_fsym, ry, cv]

/-! ### The hypotheses can be met -/

/-- All pairs (tag, variable). -/
def exPairs (d : Nat) : List (Nat × Nat) := (List.range d).flatMap fun x => [(1, x), (0, x)]

example (d t x : Nat) : (t, x) ∈ exPairs d ↔ t < 2 ∧ x < d := by
  simp only [exPairs, List.mem_flatMap, List.mem_range, List.mem_cons, Prod.mk.injEq, List.not_mem_nil, or_false]
  constructor
  · rintro ⟨y, hy, h⟩; omega
  · rintro ⟨ht, hx⟩; exact ⟨x, hx, by omega⟩

/-- `u = x y`, `v = sin(x) + y` -/
def exF : Nat → Expr XReal
  | 0 => .bin .mult (.var 0) (.var 1)
  | _ => .bin .plus (.un (.fn .sin) (.var 0)) (.var 1)

example (p : Fin 2 → ℝ) (t : Fin 2) : Smooth (exF t) ∧ RegularAt leftFirst p (exF t) := by
  have hs : ∀ t, Smooth (exF t) := fun t => by
    cases t with
    | zero => exact .bin (.inr (.inr (.inl rfl))) (.var _) (.var _)
    | succ => exact .bin (.inl rfl) (.fn nofun (.var _)) (.var _)
  refine ⟨hs t, (regularAt_iff (hs t) leftFirst).2 ?_⟩
  obtain rfl | rfl : t = 0 ∨ t = 1 := by omega
  · simp [exF, Reg, opOk]
  · simp [exF, Reg, opOk, fnOk]

/-- `grad(u) * grad(v) + u * v / 2` in two dimensions -/
example (p : Fin 2 → ℝ) : WeakVal (fun t : Fin 2 => denotes (exF t)) p
    (.bin .plus (.bin .mult (.un .grad symU) (.un .grad symV))
      (.bin .div (.bin .mult symU symV) (.const (some 2))))
    ((∑ i, partialDeriv i (denotes (exF 0)) p * partialDeriv i (denotes (exF 1)) p) +
      denotes (exF 0) p * denotes (exF 1) p / 2) := by
  have he : ∀ (t : Fin 2) (i : Fin 2) e, ((List.range 2).map fun x => (.un (.pd x) (.fsym 0 t) : Expr XReal))[(i : Nat)]? = some e →
      WeakVal (fun t : Fin 2 => denotes (exF t)) p e (partialDeriv i (denotes (exF t)) p) := by
    intro t i e he
    rw [List.getElem?_map, List.getElem?_range i.2] at he
    cases he
    exact .pd i t
  exact .op (.dot _ _ (by omega) (.grad _) (.grad _) (he 0) (he 1))
    (.op (.op (.sym 0) (.sym 1) rfl) (.const 2) (by simp [realOp])) rfl

/-- `u = x`, `v = 1 - x` -/
def exF1 : Nat → Expr XReal
  | 0 => .var 0
  | _ => .bin .minus (.const (some 1)) (.var 0)

theorem exF1_value (t : ℝ) : denotes (exF1 0) (fun _ : Fin 1 => t) = t ∧ denotes (exF1 1) (fun _ : Fin 1 => t) = 1 - t := by
  simp [denotes, exF1, eval, realPoint, Res.both, leftFirst, applyB, Num.sub, XReal.lift2]

/-- `∫ grad(u) * grad(v) - ∫ u` over the interval from 0 to 1 is `-1 - 1/2` -/
example : WeakForm (fun t : Fin 2 => denotes (exF1 t)) 7 (fun p : Fin 1 → ℝ => p 0 ∈ Set.uIcc 0 1)
    (fun g c => (∃ m q : ℝ, ∀ t ∈ Set.uIcc 0 1, g (fun _ => t) = m * t + q) ∧ c = ∫ t in (0 : ℝ)..1, g (fun _ => t))
    (.bin .minus (.un (.symInt 7) (.bin .mult (.un .grad symU) (.un .grad symV))) (.un (.symInt 7) symU)) (-1 - 1 / 2) := by
  have eta : ∀ (q : Fin 1 → ℝ) (t : ℝ), Function.update q 0 t = fun _ => t := by
    intro q t; funext i; obtain rfl : i = 0 := by omega
    simp
  have d0 : ∀ q : Fin 1 → ℝ, partialDeriv 0 (denotes (exF1 0)) q = 1 := by
    intro q; simp [partialDeriv, eta, exF1_value]
  have d1 : ∀ q : Fin 1 → ℝ, partialDeriv 0 (denotes (exF1 1)) q = -1 := by
    intro q; simp [partialDeriv, eta, exF1_value]
  refine .minus (.integral (fun q : Fin 1 → ℝ => partialDeriv 0 (denotes (exF1 0)) q * partialDeriv 0 (denotes (exF1 1)) q)
    (fun p _ => .op (.grad rfl 0) (.grad rfl 1) rfl) ⟨⟨0, -1, ?_⟩, ?_⟩)
    (.integral (denotes (exF1 0)) (fun p _ => .sym 0) ⟨⟨1, 0, ?_⟩, ?_⟩)
  · simp [d0, d1]
  · simp [d0, d1]
  · simp [exF1_value]
  · simp [exF1_value]

end VM.Props
