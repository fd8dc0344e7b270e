import Verif.Ct.FormLemmas
import Verif.Props.Weak
/-
Property C64: weak forms as they are written in a program.
-/
namespace VM.Props
open Spec Ct

/-- C64.  Which integrands compile: all but those that apply `exp` to a function call, a gradient or a divergence, or a
function directly to `u` or `v`. -/
theorem C64_compiles (folds : Bool) (d : Nat) (hd : 0 < d) (w : Form d) (k : Kind) (hk : Direct w k) :
    w.build folds = none ↔ Form.Faulty w := by
  obtain ⟨h1, h2⟩ := build_compiles (folds := folds) hd hk
  refine ⟨fun h => ?_, h1⟩
  by_contra hf
  obtain ⟨v, hv, -⟩ := h2 hf
  rw [h] at hv
  cases hv

/-- C64.  Which weak forms compile: in addition, no integrand is a number of type `double`. -/
theorem C64_form_compiles (folds : Bool) (d k : Nat) (hd : 0 < d) (w : Weak d) (hw : Weak.Direct w) :
    w.build folds k = none ↔ Weak.Faulty w := by
  induction w with
  | integral t =>
    obtain ⟨h1, h2⟩ := build_compiles (folds := folds) hd hw
    rw [Weak.build, Weak.Faulty]
    by_cases hf : Form.Faulty t
    · simp [h1 hf, hf]
    · obtain ⟨v, hv, ht⟩ := h2 hf
      rw [hv, Option.bind_some]
      cases v with
      | vec es => exact ht.elim
      | obj u =>
        cases u with
        | num x => simp [callIntegral, show Form.IsNumber t from ht]
        | mix e =>
          obtain ⟨⟨c, rfl⟩, hn, -⟩ := ht
          simp [callIntegral, hf, hn]
        | rt c e => simp [callIntegral, hf, ht.1]
  | plus a b iha ihb | minus a b iha ihb =>
    rw [Weak.Faulty, ← iha hw.1, ← ihb hw.2, Weak.build]
    cases a.build folds k <;> cases b.build folds k <;> simp

/-- C64 (full claim: without `Direct`; false of the code, see `C64_vector_times_gradient`, `C64_laplace` and
`C63_scaled_gradient`).  The integrand `w` has the value `a` at the point `p`, if `u` and `v` are the functions given by the
smooth expressions `F 0` and `F 1`.  If it compiles, then the expression `expr(w)`, after the coordinate system and the
insertion of `F 0` and `F 1`, evaluates to `a` at `p`. -/
theorem C64_value_partial (folds : Bool) (D : Dim) (F : Nat → Expr XReal) (l : List (Nat × Nat))
    (hl : ∀ t x, (t, x) ∈ l ↔ t < 2 ∧ x < D.toNat) (w : Form D.toNat) (v : FVal D.toNat) (p : Fin D.toNat → ℝ) (a : ℝ)
    (hF : ∀ t : Fin 2, Smooth (F t) ∧ RegularAt leftFirst p (F t)) (hw : Direct w .num)
    (hv : (Form.expr w).build folds = some v) (h : Means (fun t : Fin 2 => denotes (F t)) p w (.num a)) :
    ∃ e e1 e2, v = .obj (.rt .expr e) ∧ coords D e = .ok e1 ∧ insertFunctions F l e1 = .ok e2 ∧
      ∀ o, eval o (realPoint p) e2 = .ok (some a) := by
  have hv' := hv
  simp only [Form.build, Option.bind_eq_some_iff, Option.map_eq_some_iff] at hv'
  obtain ⟨_, _, e, -, rfl⟩ := hv'
  have ha := build_agrees (.expr hw) hv (.expr h)
  obtain ⟨e1, e2, h1, h2, h3⟩ := C63_value D F l hl e p a hF ha
  exact ⟨e, e1, e2, rfl, h1, h2, h3⟩

/-- The expression of a weak form. -/
theorem weakForm_build {folds : Bool} {d k : Nat} {f : Fin 2 → (Fin d → ℝ) → ℝ} {dom : (Fin d → ℝ) → Prop}
    {J : ((Fin d → ℝ) → ℝ) → ℝ → Prop} {w : Weak d} {e : Expr XReal} {c : ℝ} (hw : Weak.Direct w)
    (he : w.build folds k = some e) (h : WeakMeans f dom J w c) : WeakForm f k dom J e c := by
  induction h generalizing e with
  | @integral t c g hg hc =>
    simp only [Weak.build, Option.bind_eq_some_iff] at he
    obtain ⟨v, hv, he⟩ := he
    have key : ∀ q, dom q → Agrees f q .num v (.num (g q)) := fun q hq => build_agrees hw hv (hg q hq)
    cases v with
    | vec es => cases he
    | obj u =>
      cases u with
      | num x => cases he
      | mix m =>
        cases m with
        | rc x =>
          cases he
          refine .integral g (fun q hq => ?_) hc
          have := key q hq
          simp only [Agrees, MixExpr.rc.injEq] at this
          rw [← this]
          exact .const x
        | _ => cases he
      | rt cl x => cases he; exact .integral g key hc
  | plus _ _ iha ihb =>
    simp only [Weak.build, Option.bind_eq_some_iff, Option.map_eq_some_iff] at he
    obtain ⟨x, hx, y, hy, rfl⟩ := he
    exact .plus (iha hw.1 hx) (ihb hw.2 hy)
  | minus _ _ iha ihb =>
    simp only [Weak.build, Option.bind_eq_some_iff, Option.map_eq_some_iff] at he
    obtain ⟨x, hx, y, hy, rfl⟩ := he
    exact .minus (iha hw.1 hx) (ihb hw.2 hy)

/-- C64 (full claim as above).  A weak form in one dimension, if it compiles: coordinate system, insertion of functions,
the interval from `a` to `b` and the midpoint rule give the value of the form with midpoint values. -/
theorem C64_midpoint_partial (folds : Bool) (o : Order XReal) (F : Nat → Expr XReal) (l : List (Nat × Nat))
    (hl : ∀ t x, (t, x) ∈ l ↔ t < 2 ∧ x < 1) (k : Nat) (w : Weak 1) (e lo hi : Expr XReal) (a b c : ℝ)
    (hlo : ConstArith lo) (hhi : ConstArith hi) (ha : eval o [] lo = .ok (some a)) (hb : eval o [] hi = .ok (some b))
    (hF : ∀ t : Fin 2, Smooth (F t) ∧ RegularAt leftFirst (fun _ : Fin 1 => (a + b) / 2) (F t))
    (hw : Weak.Direct w) (he : w.build folds k = some e)
    (h : WeakMeans (fun t : Fin 2 => denotes (F t)) (fun p : Fin 1 → ℝ => p = fun _ => (a + b) / 2)
      (fun g c => c = g (fun _ => (a + b) / 2) * (b - a)) w c) :
    ∃ e1 e2 e3, coords .one e = .ok e1 ∧ insertFunctions F l e1 = .ok e2 ∧ substituteInterval k lo hi 0 e2 = .ok e3 ∧
      quadOf o (gaussQuad1 o) e3 = .ok (some c) :=
  C63_midpoint o F l hl k e lo hi a b c hlo hhi ha hb hF (weakForm_build hw he h)

/-- C64 (full claim as above).  If the integrands are affine, this is the value with true integrals. -/
theorem C64_exact_partial (folds : Bool) (o : Order XReal) (F : Nat → Expr XReal) (l : List (Nat × Nat))
    (hl : ∀ t x, (t, x) ∈ l ↔ t < 2 ∧ x < 1) (k : Nat) (w : Weak 1) (e lo hi : Expr XReal) (a b c : ℝ)
    (hlo : ConstArith lo) (hhi : ConstArith hi) (ha : eval o [] lo = .ok (some a)) (hb : eval o [] hi = .ok (some b))
    (hF : ∀ t : Fin 2, Smooth (F t) ∧ RegularAt leftFirst (fun _ : Fin 1 => (a + b) / 2) (F t))
    (hw : Weak.Direct w) (he : w.build folds k = some e)
    (h : WeakMeans (fun t : Fin 2 => denotes (F t)) (fun p : Fin 1 → ℝ => p 0 ∈ Set.uIcc a b)
      (fun g c => (∃ m q : ℝ, ∀ t ∈ Set.uIcc a b, g (fun _ => t) = m * t + q) ∧ c = ∫ t in a..b, g (fun _ => t)) w c) :
    ∃ e1 e2 e3, coords .one e = .ok e1 ∧ insertFunctions F l e1 = .ok e2 ∧ substituteInterval k lo hi 0 e2 = .ok e3 ∧
      quadOf o (gaussQuad1 o) e3 = .ok (some c) :=
  C63_exact o F l hl k e lo hi a b c hlo hhi ha hb hF (weakForm_build hw he h)

/-- Not C64: the product of a vector object `b` and a gradient means `b · ∇u`, and it compiles, but the overload for "a
vector times something" is chosen and gives a vector again.  Its integral does not compile, and inside of `expr(...)`
it becomes an expression that cannot be evaluated. -/
theorem C64_vector_times_gradient (folds : Bool) (F : Nat → Expr XReal) (l : List (Nat × Nat))
    (hF : ∀ t : Fin 2, Smooth (F t)) (hl : ∀ t x, (t, x) ∈ l ↔ t < 2 ∧ x < 2) (b p : Fin 2 → ℝ) (k : Nat) :
    let w : Form 2 := .bin .mult (.vec fun i => .rc (b i)) (.grad (.sym 0))
    Means (fun t : Fin 2 => denotes (F t)) p w (.num (∑ i, b i * partialDeriv i (denotes (F 0)) p)) ∧
    (Weak.integral w).build folds k = none ∧
    ∃ e e1 e2, (Form.expr w).build folds = some (.obj (.rt .expr e)) ∧ coords .two e = .ok e1 ∧
      insertFunctions F l e1 = .ok e2 ∧ ∀ o v, eval o v e2 = .throw .notEvaluable := by
  intro w
  have hw : w.build folds = some (.vec fun i => .bin .mult (.const (some (b i))) (.un .grad (.fsym 0 0))) := by
    have h1 : (Form.vec fun i : Fin 2 => Form.rc (d := 2) (b i)).build folds = some (.vec fun i => .const (some (b i))) := by
      rw [Form.build, Option.map_eq_some_iff]
      exact ⟨_, allOf_eq_some.2 fun i => rfl, rfl⟩
    have h2 : (Form.grad (d := 2) (.sym 0)).build folds = some (.obj (.rt .unary (.un .grad (.fsym 0 0)))) := rfl
    rw [Form.build, h1, h2, Option.bind_some, Option.bind_some]
    simp only [operateF, entrywise, Option.map_eq_some_iff]
    exact ⟨_, allOf_eq_some.2 fun i => rfl, rfl⟩
  have sv : ∀ es : List (Expr XReal), simplified (.vec es) = .ok (.vec es) := fun es => by
    rw [simplified_eq]; simp [canSimplify, Res.bind]
  have hd : ∀ (l : List (Nat × Nat)), (∀ t x, (t, x) ∈ l → t < 2) → ∀ es : List (Expr XReal), ∃ es',
      replaceDerivatives F l (.vec es) = .ok (.vec es') := by
    intro l
    induction l with
    | nil => exact fun _ es => ⟨es, rfl⟩
    | cons tx l ih =>
      obtain ⟨t, x⟩ := tx
      intro hl es
      obtain ⟨D, hD, -⟩ := C11_derivative (F t) x (hF ⟨t, hl t x (by simp)⟩)
      obtain ⟨es', h⟩ := ih (fun t x h => hl t x (by simp [h])) (rqL (.pd x) 0 t D es)
      refine ⟨es', ?_⟩
      simp [replaceDerivatives, hD, substitute, diffSymbol, substE_un _ (UOp.equal_pd x), Res.bind, rq, sv, h]
  refine ⟨?_, ?_, ?_⟩
  · refine .dot (.vec fun i => .rc _) (.grad 0 (by omega))
  · rw [Weak.build, hw]; rfl
  · generalize hx : List.ofFn (fun i => (.bin .mult (.const (some (b i))) (.un .grad (.fsym 0 0)) : Expr XReal)) = xs at hw
    generalize hy : rqL .divg 0 1 (replOf 2 .divg 1) (rqL .divg 0 0 (replOf 2 .divg 0) (rqL .grad 0 1 (replOf 2 .grad 1)
        (rqL .grad 0 0 (replOf 2 .grad 0) xs))) = ys
    obtain ⟨es, h⟩ := hd l (fun t x h => ((hl t x).1 h).1) ys
    refine ⟨.vec xs, .vec ys, .vec (ryL 0 1 (F 1) (ryL 0 0 (F 0) es)), ?_, ?_, ?_, fun o v => rfl⟩
    · rw [Form.build, hw, Option.bind_some, FVal.clone, hx]; rfl
    · simp only [coords_eq, coordStep, Dim.toNat, rq, sv, Res.bind, hy]
    · simp only [insertFunctions, h, Res.bind, substitute, substE_fsym, ry, sv]

/-- Not C64: the Laplacian of `u` compiles, but the coordinate systems do not know it. -/
theorem C64_laplace (folds : Bool) (F : Nat → Expr XReal) (l : List (Nat × Nat))
    (hF : ∀ t : Fin 2, Smooth (F t)) (hl : ∀ t x, (t, x) ∈ l ↔ t < 2 ∧ x < 2) (p : Fin 2 → ℝ) :
    let w : Form 2 := .laplace (.sym 0)
    Means (fun t : Fin 2 => denotes (F t)) p w (.num (∑ i, partialDeriv i (partialDeriv i (denotes (F 0))) p)) ∧
    ∃ e e1 e2, (Form.expr w).build folds = some (.obj (.rt .expr e)) ∧ coords .two e = .ok e1 ∧
      insertFunctions F l e1 = .ok e2 ∧ ∀ o v, eval o v e2 = .throw .notEvaluable := by
  intro w
  have sv : ∀ es : List (Expr XReal), simplified (.un .divg (.vec es)) = .ok (.un .divg (.vec es)) := fun es => by
    rw [simplified_eq]; simp [canSimplify, Res.bind]
  have hd : ∀ (l : List (Nat × Nat)), (∀ t x, (t, x) ∈ l → t < 2) → ∀ es : List (Expr XReal), ∃ es',
      replaceDerivatives F l (.un .divg (.vec es)) = .ok (.un .divg (.vec es')) := by
    intro l
    induction l with
    | nil => exact fun _ es => ⟨es, rfl⟩
    | cons tx l ih =>
      obtain ⟨t, x⟩ := tx
      intro hl es
      obtain ⟨D, hD, -⟩ := C11_derivative (F t) x (hF ⟨t, hl t x (by simp)⟩)
      obtain ⟨es', h⟩ := ih (fun t x h => hl t x (by simp [h])) (rqL (.pd x) 0 t D es)
      refine ⟨es', ?_⟩
      simp [replaceDerivatives, hD, substitute, diffSymbol, substE_un _ (UOp.equal_pd x), Res.bind, rq, sv, h]
  obtain ⟨es, h⟩ := hd l (fun t x h => ((hl t x).1 h).1) (partials 2 0 0)
  refine ⟨.laplace 0, .un .divg (.un .grad symU), .un .divg (.vec (partials 2 0 0)),
    .un .divg (.vec (ryL 0 1 (F 1) (ryL 0 0 (F 0) es))), rfl, ?_, ?_, fun o v => rfl⟩
  · have r1 : rq .grad 0 0 (replOf 2 .grad 0) (.un .divg (.un .grad symU) : Expr XReal) = .un .divg (.vec (partials 2 0 0)) := by
      simp [rq, symU, replOf, gradIn]
    have r2 : rq .grad 0 1 (replOf 2 .grad 1) (.un .divg (.vec (partials 2 0 0)) : Expr XReal) = .un .divg (.vec (partials 2 0 0)) := by
      simp [rq, rqL_eq_map, partials, List.range_succ]
    have r3 : ∀ (t : Nat) (r : Expr XReal), rq .divg 0 t r (.un .divg (.vec (partials 2 0 0))) = .un .divg (.vec (partials 2 0 0)) := by
      intro t r; simp [rq, rqL_eq_map, partials, List.range_succ]
    simp only [coords_eq, coordStep, Dim.toNat, r1, r2, r3, sv, Res.bind]
  · simp only [insertFunctions, h, Res.bind, substitute, substE_fsym, ry, sv]

/-! ### The hypotheses can be met -/

/-- `grad(u) * grad(v) + expr(b) * grad(u) * v - 2 * u` with the vector object `b = (x, 3) / 2` -/
def exForm : Form 2 :=
  .bin .minus
    (.bin .plus (.bin .mult (.grad (.sym 0)) (.grad (.sym 1)))
      (.bin .mult
        (.bin .mult (.expr (.bin .div (.vec fun i => if i = 0 then .rv 0 else .rc 3) (.num 2))) (.grad (.sym 0)))
        (.sym 1)))
    (.bin .mult (.num 2) (.sym 0))

example : Direct exForm .num := by
  refine .op (.op (.dotIn (.grad _ (by omega)) (.grad _ (by omega)))
    (.op (.dotIn (.exprVec (by omega) (.quot (.vec fun i => ?_) (.number _))) (.grad _ (by omega))) (.sym _)))
    (.op (.number _) (.sym _))
  split
  · exact .rv _
  · exact .rc _

example : ¬ Form.Faulty exForm := by
  simp only [exForm, Form.Faulty, or_self, false_or, or_false, not_exists]
  intro i
  split <;> exact id

example (f : Fin 2 → (Fin 2 → ℝ) → ℝ) (p : Fin 2 → ℝ) : Means f p exForm (.num
    ((∑ i, partialDeriv i (f 0) p * partialDeriv i (f 1) p) +
      (∑ i, (if i = 0 then p 0 else 3) / 2 * partialDeriv i (f 0) p) * f 1 p - 2 * f 0 p)) := by
  refine .op (.op (.dot (.grad 0 (by omega)) (.grad 1 (by omega)))
    (.op (.dot (.expr (.quot (.vec (x := fun i => if i = 0 then p 0 else 3) fun i => ?_) (.num 2) (by norm_num)))
      (.grad 0 (by omega))) (.sym 1) rfl) rfl) (.op (.num 2) (.sym 0) rfl) rfl
  split
  · exact .rv 0
  · exact .rc 3

/-- `sin(u)` does not compile, `sin(expr(u))` does. -/
example : Form.Faulty (.fn .sin (.sym 0) : Form 2) ∧ ¬ Form.Faulty (.fn .sin (.expr (.sym 0)) : Form 2) := by
  simp [Form.Faulty]

/-- `integral(grad(u) * grad(v)) - integral(u)`, see C63 for its value. -/
def exWeak : Weak 1 :=
  .minus (.integral (.bin .mult (.grad (.sym 0)) (.grad (.sym 1)))) (.integral (.sym 0))

example : Weak.Direct exWeak ∧ ¬ Weak.Faulty exWeak :=
  ⟨⟨.op (.gradOne _ rfl) (.gradOne _ rfl), .sym _⟩, by simp [exWeak, Weak.Faulty, Form.Faulty, Form.IsNumber]⟩

/-- The integral of `2.0` does not compile, that of `constant(2)` does. -/
example : Weak.Faulty (.integral (.num 2) : Weak 1) ∧ ¬ Weak.Faulty (.integral (.rc 2) : Weak 1) := by
  simp [Weak.Faulty, Form.Faulty, Form.IsNumber]

example : WeakMeans (fun t : Fin 2 => denotes (exF1 t)) (fun p : Fin 1 → ℝ => p 0 ∈ Set.uIcc 0 1)
    (fun g c => (∃ m q : ℝ, ∀ t ∈ Set.uIcc 0 1, g (fun _ => t) = m * t + q) ∧ c = ∫ t in (0 : ℝ)..1, g (fun _ => t))
    exWeak (-1 - 1 / 2) := by
  have eta : ∀ (q : Fin 1 → ℝ) (t : ℝ), Function.update q 0 t = fun _ => t := by
    intro q t; funext i; obtain rfl : i = 0 := by omega
    simp
  have d0 : ∀ q : Fin 1 → ℝ, partialDeriv 0 (denotes (exF1 0)) q = 1 := by
    intro q; simp [partialDeriv, eta, exF1_value]
  have d1 : ∀ q : Fin 1 → ℝ, partialDeriv 0 (denotes (exF1 1)) q = -1 := by
    intro q; simp [partialDeriv, eta, exF1_value]
  refine .minus (.integral (fun q : Fin 1 → ℝ => partialDeriv 0 (denotes (exF1 0)) q * partialDeriv 0 (denotes (exF1 1)) q)
    (fun p _ => .op (.gradOne rfl 0) (.gradOne rfl 1) rfl) ⟨⟨0, -1, ?_⟩, ?_⟩)
    (.integral (denotes (exF1 0)) (fun p _ => .sym 0) ⟨⟨1, 0, ?_⟩, ?_⟩)
  · simp [d0, d1]
  · simp [d0, d1]
  · simp [exF1_value]
  · simp [exF1_value]

end VM.Props
