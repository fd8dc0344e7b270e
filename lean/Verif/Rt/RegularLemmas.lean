import Verif.Props.Diff
import Verif.Rt.SizeLemmas
import Verif.Spec.Iterated
import Mathlib.Analysis.Calculus.FDeriv.Symmetric
import Mathlib.Analysis.SpecialFunctions.Log.Deriv
import Mathlib.Analysis.SpecialFunctions.Trigonometric.ArctanDeriv
import Mathlib.Analysis.SpecialFunctions.Trigonometric.Deriv
import Mathlib.Analysis.Calculus.Deriv.Pi
/-
Expressions as functions of several real variables, at points where they are defined and smooth.
-/
namespace VM
open Spec Filter Topology

/-- The mathematical functions. -/
noncomputable def fnR : Fn → ℝ → ℝ
  | .id, x => x
  | .exp, x => Real.exp x
  | .sin, x => Real.sin x
  | .cos, x => Real.cos x
  | .tan, x => Real.tan x
  | .fabs, x => |x|
  | .sqrt, x => Real.sqrt x
  | .log, x => Real.log x
  | .log10, x => Real.log x / Real.log 10

/-- The function is defined and smooth there. -/
def fnOk : Fn → ℝ → Prop
  | .tan, x => Real.cos x ≠ 0
  | .fabs, _ => False
  | .sqrt, x => 0 < x
  | .log, x => 0 < x
  | .log10, x => 0 < x
  | _, _ => True

noncomputable def opR : BOp → ℝ → ℝ → ℝ
  | .plus, x, y => x + y
  | .minus, x, y => x - y
  | .mult, x, y => x * y
  | .div, x, y => x / y
  | .uid, x, _ => x

/-- The right operand is allowed. -/
def opOk : BOp → ℝ → Prop
  | .div, y => y ≠ 0
  | .uid, _ => False
  | _, _ => True

section
variable {n : ℕ}

/-- The value. -/
noncomputable def rv (p : Fin n → ℝ) : Expr XReal → ℝ
  | .const c => c.getD 0
  | .var i => if h : i < n then p ⟨i, h⟩ else 0
  | .un (.fn f) e => fnR f (rv p e)
  | .bin op l r => opR op (rv p l) (rv p r)
  | _ => 0

/-- The expression is defined and smooth at the point. -/
def Reg (p : Fin n → ℝ) : Expr XReal → Prop
  | .const c => c ≠ none
  | .var i => i < n
  | .un (.fn f) e => Reg p e ∧ fnOk f (rv p e)
  | .bin op l r => Reg p l ∧ Reg p r ∧ opOk op (rv p r)
  | _ => False

theorem applyFn_ok {f : Fn} {x : ℝ} (h : fnOk f x) : applyFn f (some x : XReal) = some (fnR f x) := by
  cases f <;> simp only [fnOk] at h <;> simp [applyFn, Num.fn, XReal.fn, fnR, not_lt.2, not_le.2, *, le_of_lt]

theorem applyB_ok {op : BOp} {x y : ℝ} (h : opOk op y) : applyB op (some x : XReal) (some y) = .ok (some (opR op x y)) := by
  cases op <;> simp only [opOk] at h <;>
    simp [applyB, Num.add, Num.sub, Num.mul, Num.div, XReal.lift2, XReal.div, opR, h]

theorem Reg.eval {p : Fin n → ℝ} {e : Expr XReal} (h : Reg p e) (o : Order XReal) :
    eval o (realPoint p) e = .ok (some (rv p e)) := by
  induction e using Expr.ind with
  | const c => cases c with
    | none => exact absurd rfl h
    | some c => rfl
  | var i =>
    have : i < n := h
    simp [VM.eval, realPoint, rv, this]
  | fsym => exact h.elim
  | un op e ih =>
    cases op with
    | fn f =>
      simp only [VM.eval, ih h.1, Res.bind_ok, applyU, applyFn_ok h.2, rv]
    | _ => exact h.elim
  | integ => exact h.elim
  | bin op l r ihl ihr =>
    simp only [VM.eval, ihl h.1, ihr h.2.1, rv]
    cases o l r <;> simp [Res.both, applyB_ok h.2.2]
  | vec => exact h.elim

theorem Reg.smooth {p : Fin n → ℝ} {e : Expr XReal} (h : Reg p e) : Smooth e := by
  induction e using Expr.ind with
  | const c => exact .const c
  | var i => exact .var i
  | un op e ih =>
    cases op with
    | fn f => exact .fn (by rintro rfl; exact h.2) (ih h.1)
    | _ => exact h.elim
  | bin op l r ihl ihr =>
    refine .bin ?_ (ihl h.1) (ihr h.2.1)
    have := h.2.2
    cases op <;> simp [IsArithOp, opOk] at this ⊢
  | _ => exact h.elim

theorem Reg.of_eval {p : Fin n → ℝ} {e : Expr XReal} (hs : Smooth e) (o : Order XReal) {a : ℝ}
    (he : VM.eval o (realPoint p) e = .ok (some a))
    (hq : ∀ s, Sub (.un (.fn .sqrt) s) e → VM.eval o (realPoint p) s ≠ .ok (some 0)) : Reg p e := by
  induction hs generalizing a with
  | const c =>
    simp only [VM.eval, Res.ok.injEq] at he
    intro h; cases he; cases h
  | var i =>
    by_contra h
    have h : ¬ i < n := h
    simp [VM.eval, realPoint, h] at he
  | @fn f e hf hs ih =>
    simp only [VM.eval] at he
    obtain ⟨b, hb, he⟩ := Res.bind_eq_ok.1 he
    simp only [applyU, Res.ok.injEq] at he
    obtain ⟨b, rfl⟩ := applyFn_some he
    have hr := ih hb fun s hs => hq s (.un hs)
    refine ⟨hr, ?_⟩
    have h1 := hr.eval o
    rw [hb] at h1
    simp only [Res.ok.injEq, Option.some.injEq] at h1
    rw [← h1]
    cases f <;> simp only [fnOk, applyFn, Num.fn, XReal.fn] at he ⊢
    · intro h; simp [h] at he
    · exact hf rfl
    · have := hq e .refl
      rw [hb] at this
      simp only [ne_eq, Res.ok.injEq, Option.some.injEq] at this
      split at he
      · cases he
      · rename_i h; exact lt_of_le_of_ne (not_lt.1 h) (Ne.symm this)
    · split at he
      · cases he
      · rename_i h; exact not_le.1 h
    · split at he
      · cases he
      · rename_i h; exact not_le.1 h
  | @bin op l r ho hl hr ihl ihr =>
    simp only [VM.eval] at he
    obtain ⟨x, y, hx, hy, he⟩ : ∃ x y, VM.eval o (realPoint p) l = .ok x ∧ VM.eval o (realPoint p) r = .ok y ∧
        applyB op x y = .ok (some a) := by
      unfold Res.both at he
      split at he
      · obtain ⟨x, hx, he⟩ := Res.bind_eq_ok.1 he
        obtain ⟨y, hy, he⟩ := Res.bind_eq_ok.1 he
        exact ⟨x, y, hx, hy, he⟩
      · obtain ⟨y, hy, he⟩ := Res.bind_eq_ok.1 he
        obtain ⟨x, hx, he⟩ := Res.bind_eq_ok.1 he
        exact ⟨x, y, hx, hy, he⟩
    have : (∃ x', x = some x') ∧ ∃ y', y = some y' := by
      rcases ho with rfl | rfl | rfl | rfl <;> rcases x with _ | x <;> rcases y with _ | y <;>
        simp [applyB, Num.add, Num.sub, Num.mul, Num.div, XReal.lift2, XReal.div] at he ⊢
    obtain ⟨⟨x, rfl⟩, ⟨y, rfl⟩⟩ := this
    have h1 := ihl hx fun s hs => hq s (.binL hs)
    have h2 := ihr hy fun s hs => hq s (.binR hs)
    refine ⟨h1, h2, ?_⟩
    have h3 := h2.eval o
    rw [hy] at h3
    simp only [Res.ok.injEq, Option.some.injEq] at h3
    rw [← h3]
    rcases ho with rfl | rfl | rfl | rfl <;> simp only [opOk]
    intro h
    simp [applyB, Num.div, XReal.div, h] at he

theorem Reg.sqrt {p : Fin n → ℝ} {s e : Expr XReal} (hs : Sub (.un (.fn .sqrt) s) e) (h : Reg p e) :
    Reg p s ∧ 0 < rv p s := by
  induction hs with
  | refl => exact h
  | @un op e _ ih => cases op <;> first | exact ih h.1 | exact h.elim
  | integ => exact h.elim
  | binL _ ih => exact ih h.1
  | binR _ ih => exact ih h.2.1

theorem Reg.sqrt_ne {p : Fin n → ℝ} {s e : Expr XReal} (h : Reg p e) (o : Order XReal)
    (hs : Sub (.un (.fn .sqrt) s) e) : VM.eval o (realPoint p) s ≠ .ok (some 0) := by
  obtain ⟨h1, h2⟩ := h.sqrt hs
  rw [h1.eval o]
  simp [h2.ne']

theorem Reg.contDiffAt {p : Fin n → ℝ} {e : Expr XReal} (h : Reg p e) {m : WithTop ℕ∞} : ContDiffAt ℝ m (fun q : Fin n → ℝ => rv q e) p := by
  induction e using Expr.ind with
  | const c => exact contDiffAt_const
  | var i =>
    have hi : i < n := h
    simp only [rv, hi, dif_pos]
    exact (contDiff_apply ℝ ℝ (⟨i, hi⟩ : Fin n)).contDiffAt
  | un op e ih =>
    cases op with
    | fn f =>
      have h1 := ih h.1
      have h2 := h.2
      cases f <;> simp only [fnOk] at h2 <;> simp only [rv, fnR]
      · exact h1
      · exact h1.exp
      · exact h1.sin
      · exact h1.cos
      · exact ContDiffAt.comp (g := Real.tan) (f := fun q : Fin n → ℝ => rv q e) p (Real.contDiffAt_tan.2 h2) h1
      · exact h1.sqrt h2.ne'
      · exact h1.log h2.ne'
      · exact (h1.log h2.ne').div_const _
    | _ => exact h.elim
  | bin op l r ihl ihr =>
    have h1 := ihl h.1
    have h2 := ihr h.2.1
    have h3 := h.2.2
    cases op <;> simp only [opOk] at h3 <;> simp only [rv, opR]
    · exact h1.add h2
    · exact h1.sub h2
    · exact h1.mul h2
    · exact h1.div h2 h3
  | _ => exact h.elim

theorem Reg.eventually {p : Fin n → ℝ} {e : Expr XReal} (h : Reg p e) : ∀ᶠ q in 𝓝 p, Reg q e := by
  induction e using Expr.ind with
  | const c => exact Eventually.of_forall fun _ => h
  | var i => exact Eventually.of_forall fun _ => h
  | un op e ih =>
    cases op with
    | fn f =>
      have hc := (h.1.contDiffAt (m := 0)).continuousAt
      have h2 := h.2
      have : ∀ᶠ q : Fin n → ℝ in 𝓝 p, fnOk f (rv q e) := by
        cases f <;> simp only [fnOk] at h2 ⊢
        · exact Eventually.of_forall fun _ => trivial
        · exact Eventually.of_forall fun _ => trivial
        · exact Eventually.of_forall fun _ => trivial
        · exact Eventually.of_forall fun _ => trivial
        · exact (Real.continuous_cos.continuousAt.comp hc).eventually_ne h2
        · exact hc.eventually (lt_mem_nhds h2)
        · exact hc.eventually (lt_mem_nhds h2)
        · exact hc.eventually (lt_mem_nhds h2)
      filter_upwards [ih h.1, this] with q h1 h2 using ⟨h1, h2⟩
    | _ => exact h.elim
  | bin op l r ihl ihr =>
    have hc := (h.2.1.contDiffAt (m := 0)).continuousAt
    have h3 := h.2.2
    have : ∀ᶠ q : Fin n → ℝ in 𝓝 p, opOk op (rv q r) := by
      cases op <;> simp only [opOk] at h3 ⊢
      · exact Eventually.of_forall fun _ => trivial
      · exact Eventually.of_forall fun _ => trivial
      · exact Eventually.of_forall fun _ => trivial
      · exact hc.eventually_ne h3
    filter_upwards [ihl h.1, ihr h.2.1, this] with q h1 h2 h3 using ⟨h1, h2, h3⟩
  | _ => exact h.elim

theorem Reg.diffE {p : Fin n → ℝ} {i : Nat} {e d : Expr XReal} (hd : VM.diffE (.var i) e = .ok d) (h : Reg p e) :
    Reg p d := by
  induction e using Expr.ind generalizing d with
  | const c => simp only [VM.diffE, Res.ok.injEq] at hd; subst hd; simp [Reg, Num.lit]
  | var j => simp only [VM.diffE, Res.ok.injEq] at hd; subst hd; simp [Reg, Num.lit]
  | un op e ih =>
    cases op with
    | fn f =>
      rw [VM.diffE] at hd
      obtain ⟨d', hd'⟩ := diffFn_ok hd
      have h1 := ih hd' h.1
      have h0 := h.1
      have h2 := h.2
      rw [hd'] at hd
      cases f <;> simp only [diffFn, Res.map_ok, Res.ok.injEq, reduceCtorEq] at hd <;> try contradiction
      all_goals subst hd
      all_goals simp only [fnOk] at h2
      · exact h1
      · exact ⟨⟨h0, trivial⟩, h1, trivial⟩
      · exact ⟨⟨h0, trivial⟩, h1, trivial⟩
      · exact ⟨⟨h0, trivial⟩, ⟨by simp [Reg, Num.lit], h1, trivial⟩, trivial⟩
      · exact ⟨h1, ⟨⟨h0, trivial⟩, ⟨h0, trivial⟩, trivial⟩, mul_ne_zero h2 h2⟩
      · refine ⟨h1, ⟨by simp [Reg, Num.lit], ⟨h0, h2⟩, trivial⟩, ?_⟩
        simp only [opOk, rv, opR, fnR, Num.lit, Option.getD_some]
        have := Real.sqrt_pos.2 h2
        positivity
      · refine ⟨h1, ⟨h0, trivial⟩, ?_⟩
        exact h2.ne'
      · have h10 : ¬ ((10 : ℝ) ≤ 0) := by norm_num
        refine ⟨h1, ⟨by simp [Reg, Num.lit, Num.fn, XReal.fn, h10], ⟨h0, trivial⟩, trivial⟩, ?_⟩
        have : (0 : ℝ) < Real.log 10 := Real.log_pos (by norm_num)
        simp only [opOk, rv, opR, fnR, Num.lit, Num.fn, XReal.fn]
        simp only [Int.cast_ofNat, h10, if_false, Option.getD_some]
        exact mul_ne_zero this.ne' h2.ne'
    | _ => exact h.elim
  | bin op l r ihl ihr =>
    rw [VM.diffE] at hd
    obtain ⟨a, b, ha, hb⟩ := diffBin_ok hd
    have h1 := ihl ha h.1
    have h2 := ihr hb h.2.1
    obtain ⟨h3, h4, h5⟩ := h
    rw [ha, hb] at hd
    cases op <;> simp only [diffBin, Res.bind_ok, Res.map_ok, Res.ok.injEq, reduceCtorEq] at hd <;> try contradiction
    all_goals subst hd
    all_goals simp only [opOk] at h5
    · exact ⟨h1, h2, trivial⟩
    · exact ⟨h1, h2, trivial⟩
    · exact ⟨⟨h1, h4, trivial⟩, ⟨h3, h2, trivial⟩, trivial⟩
    · exact ⟨⟨⟨h1, h4, trivial⟩, ⟨h3, h2, trivial⟩, trivial⟩, ⟨h4, h4, trivial⟩, mul_ne_zero h5 h5⟩
  | _ => exact h.elim

theorem Reg.unwrap {p : Fin n → ℝ} {e : Expr XReal} (h : Reg p e) (hc : isConst e = true) :
    VM.unwrap leftFirst e = .ok (some (rv p e)) := by
  induction e using Expr.ind with
  | const c => cases c with
    | none => exact absurd rfl h
    | some c => rfl
  | bin op l r ihl ihr =>
    simp only [isConst, Bool.and_eq_true] at hc
    simp [VM.unwrap, ihl h.1 hc.1, ihr h.2.1 hc.2, Res.both, leftFirst, applyB_ok h.2.2, rv]
  | _ => simp [isConst] at hc

theorem Pass.reg {p : Fin n → ℝ} {e e' : Expr XReal} (hp : Pass e e') (h : Reg p e) : Reg p e' ∧ rv p e' = rv p e := by
  have hcst : ∀ {e : Expr XReal} {c : XReal}, Reg p e → isConst e = true → VM.unwrap leftFirst e = .ok c →
      c = some (rv p e) := by
    intro e c h hc hu
    rw [h.unwrap hc] at hu
    cases hu; rfl
  have hz : ∀ {x : ℝ} {k : Int}, Num.eqb (some x : XReal) (Num.lit k) = true → x = k := by
    intro x k h
    have := XReal.eqb_lit.1 h
    simpa using this
  induction hp with
  | const | var | vec | fsym | uid => exact ⟨h, rfl⟩
  | unFold hc hu =>
    have := hcst h.1 hc hu
    subst this
    rw [applyFn_ok h.2]
    exact ⟨by simp [Reg], rfl⟩
  | @unConst op e c hc hu ho => cases op <;> first | exact h.elim | simp [UOp.canSimplify] at ho
  | @un op e e' hc hp ih =>
    cases op with
    | fn f =>
      obtain ⟨h1, h2⟩ := ih h.1
      exact ⟨⟨h1, by rw [h2]; exact h.2⟩, by simp only [rv, h2]⟩
    | _ => exact h.elim
  | integConst | integ => exact h.elim
  | @fold op l r c hl hr hu =>
    have := hcst h (by simp [isConst, hl, hr]) hu
    subst this
    exact ⟨by simp [Reg], rfl⟩
  | plusZeroL hl hr hu h0 hp ih =>
    have := hcst h.1 hl hu; subst this
    have := hz h0
    obtain ⟨h1, h2⟩ := ih h.2.1
    exact ⟨h1, by simp [rv, opR, h2, this]⟩
  | plusZeroR hl hr hu h0 hp ih =>
    have := hcst h.2.1 hr hu; subst this
    have := hz h0
    obtain ⟨h1, h2⟩ := ih h.1
    exact ⟨h1, by simp [rv, opR, h2, this]⟩
  | minusZeroL hl hr hu h0 hp ih =>
    have := hcst h.1 hl hu; subst this
    have := hz h0
    obtain ⟨h1, h2⟩ := ih h.2.1
    exact ⟨⟨by simp [Reg, Num.lit], h1, trivial⟩, by simp [rv, opR, h2, this, Num.lit]⟩
  | minusZeroR hl hr hu h0 hp ih =>
    have := hcst h.2.1 hr hu; subst this
    have := hz h0
    obtain ⟨h1, h2⟩ := ih h.1
    exact ⟨h1, by simp [rv, opR, h2, this]⟩
  | multZeroL hl hr hu h0 =>
    have := hcst h.1 hl hu; subst this
    have := hz h0
    exact ⟨by simp [Reg, Num.lit], by simp [rv, opR, this, Num.lit]⟩
  | multZeroR hl hr hu h0 =>
    have := hcst h.2.1 hr hu; subst this
    have := hz h0
    exact ⟨by simp [Reg, Num.lit], by simp [rv, opR, this, Num.lit]⟩
  | multOneL hl hr hu h0 hp ih =>
    have := hcst h.1 hl hu; subst this
    have := hz h0
    obtain ⟨h1, h2⟩ := ih h.2.1
    exact ⟨h1, by simp [rv, opR, h2, this]⟩
  | multOneR hl hr hu h0 hp ih =>
    have := hcst h.2.1 hr hu; subst this
    have := hz h0
    obtain ⟨h1, h2⟩ := ih h.1
    exact ⟨h1, by simp [rv, opR, h2, this]⟩
  | divZeroL hl hr hu h0 =>
    have := hcst h.1 hl hu; subst this
    have := hz h0
    exact ⟨by simp [Reg, Num.lit], by simp [rv, opR, this, Num.lit]⟩
  | divOneR hl hr hu h0 hp ih =>
    have := hcst h.2.1 hr hu; subst this
    have := hz h0
    obtain ⟨h1, h2⟩ := ih h.1
    exact ⟨h1, by simp [rv, opR, h2, this]⟩
  | constL ho hl hr hu ht hp ih =>
    have := hcst h.1 hl hu; subst this
    obtain ⟨h1, h2⟩ := ih h.2.1
    exact ⟨⟨by simp [Reg], h1, by rw [h2]; exact h.2.2⟩, by simp [rv, h2]⟩
  | constR ho hl hr hu ht hp ih =>
    have := hcst h.2.1 hr hu; subst this
    obtain ⟨h1, h2⟩ := ih h.1
    exact ⟨⟨h1, by simp [Reg], h.2.2⟩, by simp [rv, h2]⟩
  | dotp => exact h.1.elim
  | cong ho hl hr hv hp hp' ihl ihr =>
    obtain ⟨h1, h2⟩ := ihl h.1
    obtain ⟨h3, h4⟩ := ihr h.2.1
    exact ⟨⟨h1, h3, by rw [h4]; exact h.2.2⟩, by simp [rv, h2, h4]⟩

theorem Reg.simplified {p : Fin n → ℝ} {e e' : Expr XReal} (hs : VM.simplified e = .ok e') (h : Reg p e) :
    Reg p e' ∧ rv p e' = rv p e :=
  (simplified_induct (P := fun x => Reg p x ∧ rv p x = rv p e)
    (fun _ _ hp hx => ⟨(hp.reg hx.1).1, (hp.reg hx.1).2.trans hx.2⟩) hs ⟨h, rfl⟩).1

theorem Reg.diff {p : Fin n → ℝ} {i : Nat} {e e' : Expr XReal} (hd : VM.diff (.var i) e = .ok e') (h : Reg p e) :
    Reg p e' := by
  obtain ⟨d, h1, h2⟩ := Res.bind_eq_ok.1 hd
  exact ((h.diffE h1).simplified h2).1

theorem realPoint_update (p : Fin n → ℝ) (i : Fin n) (t : ℝ) :
    realPoint (Function.update p i t) = (realPoint p).set i.1 (some t) := by
  apply List.ext_getElem
  · simp [realPoint]
  · intro j h1 h2
    simp only [realPoint, List.length_ofFn] at h1
    by_cases h : i.1 = j
    · subst h; simp [realPoint]
    · rw [List.getElem_set_ne h]
      have : (⟨j, h1⟩ : Fin n) ≠ i := fun h' => h (by rw [← h'])
      simp [realPoint, Function.update_of_ne this]

theorem Reg.hasDerivAt {p : Fin n → ℝ} {i : Fin n} {e e' : Expr XReal} (hd : VM.diff (.var i) e = .ok e')
    (h : Reg p e) : HasDerivAt (fun t => rv (Function.update p i t) e) (rv p e') (p i) := by
  obtain ⟨e'', h1, h2⟩ := Props.C11_derivative e i h.smooth
  rw [hd] at h1; cases h1
  obtain ⟨f, f', h3, h4, h5⟩ := h2 leftFirst (realPoint p) (p i) (rv p e) (by simp [realPoint]) (h.eval _)
    fun s => h.sqrt_ne _
  have hc : ContinuousAt (fun t => Function.update p i t) (p i) :=
    (continuous_const.update i continuous_id).continuousAt
  have h6 : ∀ᶠ t in 𝓝 (p i), Reg (Function.update p i t) e := by
    have := h.eventually
    rw [← Function.update_eq_self i p] at this
    exact hc.eventually this
  rw [(h.diff hd).eval leftFirst] at h5
  simp only [Res.ok.injEq, Option.some.injEq] at h5
  rw [h5]
  refine h4.congr_of_eventuallyEq ?_
  filter_upwards [h3, h6] with t h7 h8
  have := h8.eval leftFirst
  rw [realPoint_update, h7] at this
  simpa using this.symm

/-! ### Partial derivatives of smooth functions -/

theorem partialDeriv_congr {f g : (Fin n → ℝ) → ℝ} {p : Fin n → ℝ} (i : Fin n) (h : f =ᶠ[𝓝 p] g) :
    partialDeriv i f =ᶠ[𝓝 p] partialDeriv i g := by
  filter_upwards [h.eventuallyEq_nhds] with q hq
  have hc : ContinuousAt (fun t => Function.update q i t) (q i) :=
    (continuous_const.update i continuous_id).continuousAt
  rw [← Function.update_eq_self i q] at hq
  have h' : (fun t => f (Function.update q i t)) =ᶠ[𝓝 (q i)] fun t => g (Function.update q i t) := hc.eventually hq
  exact h'.deriv_eq

theorem partialDerivs_congr {p : Fin n → ℝ} (is : List (Fin n)) : ∀ {f g : (Fin n → ℝ) → ℝ}, f =ᶠ[𝓝 p] g →
    partialDerivs is f =ᶠ[𝓝 p] partialDerivs is g := by
  induction is with
  | nil => exact id
  | cons i is ih => exact fun h => ih (partialDeriv_congr i h)

theorem partialDeriv_fderiv {f : (Fin n → ℝ) → ℝ} {p : Fin n → ℝ} (i : Fin n) (h : DifferentiableAt ℝ f p) :
    partialDeriv i f p = fderiv ℝ f p (Pi.single i 1) := by
  have h1 := h.hasFDerivAt
  have h2 := hasDerivAt_update p i (p i)
  have h3 : HasFDerivAt f (fderiv ℝ f p) (Function.update p i (p i)) := by
    rw [Function.update_eq_self]; exact h1
  exact (h3.comp_hasDerivAt (p i) h2).deriv

theorem partialDeriv_eventually {f : (Fin n → ℝ) → ℝ} {p : Fin n → ℝ} (i : Fin n) (h : ContDiffAt ℝ 1 f p) :
    partialDeriv i f =ᶠ[𝓝 p] fun q => fderiv ℝ f q (Pi.single i 1) := by
  filter_upwards [h.eventually (by simp)] with q hq
  exact partialDeriv_fderiv i (hq.differentiableAt (by simp))

theorem partialDeriv_contDiffAt {f : (Fin n → ℝ) → ℝ} {p : Fin n → ℝ} (i : Fin n)
    (h : ContDiffAt ℝ ((⊤ : ℕ∞) : WithTop ℕ∞) f p) :
    ContDiffAt ℝ ((⊤ : ℕ∞) : WithTop ℕ∞) (partialDeriv i f) p := by
  have h1 : ContDiffAt ℝ 1 f p := h.of_le (by exact_mod_cast le_top)
  refine ContDiffAt.congr_of_eventuallyEq ?_ (partialDeriv_eventually i h1)
  exact (h.fderiv_right (m := ((⊤ : ℕ∞) : WithTop ℕ∞)) (by simp)).clm_apply contDiffAt_const

theorem partialDeriv_comm {f : (Fin n → ℝ) → ℝ} {p : Fin n → ℝ} (i j : Fin n)
    (h : ContDiffAt ℝ 2 f p) : partialDeriv i (partialDeriv j f) p = partialDeriv j (partialDeriv i f) p := by
  have key : ∀ i j : Fin n, partialDeriv i (partialDeriv j f) p =
      fderiv ℝ (fderiv ℝ f) p (Pi.single i 1) (Pi.single j 1) := by
    intro i j
    have h1 : ContDiffAt ℝ 1 f p := h.of_le (by norm_num)
    have h2 : DifferentiableAt ℝ (fderiv ℝ f) p :=
      (h.fderiv_right (m := 1) (by norm_num)).differentiableAt (by simp)
    rw [(partialDeriv_congr i (partialDeriv_eventually j h1)).eq_of_nhds,
      partialDeriv_fderiv i (h2.clm_apply (differentiableAt_const _))]
    rw [fderiv_clm_apply h2 (differentiableAt_const _)]
    simp
  rw [key, key]
  exact (h.isSymmSndFDerivAt (by simp)) _ _

theorem partialDerivs_perm {is js : List (Fin n)} (hp : is.Perm js) {p : Fin n → ℝ} :
    ∀ {f : (Fin n → ℝ) → ℝ}, ContDiffAt ℝ ((⊤ : ℕ∞) : WithTop ℕ∞) f p →
      partialDerivs is f =ᶠ[𝓝 p] partialDerivs js f := by
  induction hp with
  | nil => exact fun _ => .rfl
  | cons i _ ih => exact fun h => ih (partialDeriv_contDiffAt i h)
  | swap i j is =>
    intro f h
    refine partialDerivs_congr is ?_
    have h2 : ContDiffAt ℝ 2 f p := h.of_le (WithTop.coe_le_coe.2 (le_top : (2 : ℕ∞) ≤ ⊤))
    filter_upwards [h2.eventually (by simp)] with q hq
    exact partialDeriv_comm i j hq
  | trans _ _ ih1 ih2 => exact fun h => (ih1 h).trans (ih2 h)

/-! ### Derivatives of smooth expressions are smooth expressions -/

variable {K : Type} [Num K]

theorem Spec.Smooth.diffE {i : Nat} {e d : Expr K} (hs : Smooth e) (hd : VM.diffE (.var i) e = .ok d) : Smooth d := by
  induction hs generalizing d with
  | const c => simp only [VM.diffE, Res.ok.injEq] at hd; subst hd; exact .const _
  | var j => simp only [VM.diffE, Res.ok.injEq] at hd; subst hd; exact .const _
  | @fn f e hf hs ih =>
    rw [VM.diffE] at hd
    obtain ⟨d', hd'⟩ := diffFn_ok hd
    have h1 := ih hd'
    rw [hd'] at hd
    have P : IsArithOp .plus := .inl rfl
    have M : IsArithOp .mult := .inr (.inr (.inl rfl))
    have D : IsArithOp .div := .inr (.inr (.inr rfl))
    cases f <;> simp only [diffFn, Res.map_ok, Res.ok.injEq, reduceCtorEq] at hd <;> try contradiction
    all_goals subst hd
    all_goals
      repeat' first | exact h1 | exact hs | exact .const _ | exact M | exact D | apply Smooth.bin |
        exact Smooth.fn (by decide) hs
  | @bin op l r ho hl hr ihl ihr =>
    rw [VM.diffE] at hd
    obtain ⟨a, b, ha, hb⟩ := diffBin_ok hd
    have h1 := ihl ha
    have h2 := ihr hb
    rw [ha, hb] at hd
    have P : IsArithOp .plus := .inl rfl
    have S : IsArithOp .minus := .inr (.inl rfl)
    have M : IsArithOp .mult := .inr (.inr (.inl rfl))
    have D : IsArithOp .div := .inr (.inr (.inr rfl))
    cases op <;> simp only [diffBin, Res.bind_ok, Res.map_ok, Res.ok.injEq, reduceCtorEq] at hd <;> try contradiction
    all_goals subst hd
    all_goals
      repeat' first | exact h1 | exact h2 | exact hl | exact hr | exact P | exact S | exact M | exact D |
        apply Smooth.bin

theorem Pass.smooth {e e' : Expr K} (hp : Pass e e') (h : Smooth e) : Smooth e' := by
  induction hp with
  | const | var | vec | fsym | uid => exact h
  | unFold | fold | multZeroL | multZeroR | divZeroL => exact .const _
  | unConst hc hu ho =>
    cases h with
    | fn hf _ => exact .fn hf (.const _)
  | un hc hp ih =>
    cases h with
    | fn hf h => exact .fn hf (ih h)
  | integConst | integ => cases h
  | plusZeroL _ _ _ _ _ ih | multOneL _ _ _ _ _ ih => cases h with | bin _ _ h => exact ih h
  | plusZeroR _ _ _ _ _ ih | multOneR _ _ _ _ _ ih | minusZeroR _ _ _ _ _ ih | divOneR _ _ _ _ _ ih =>
    cases h with | bin _ h _ => exact ih h
  | minusZeroL _ _ _ _ _ ih => cases h with | bin _ _ h => exact .bin (.inr (.inr (.inl rfl))) (.const _) (ih h)
  | constL _ _ _ _ _ _ ih => cases h with | bin ho _ h => exact .bin ho (.const _) (ih h)
  | constR _ _ _ _ _ _ ih => cases h with | bin ho h _ => exact .bin ho (ih h) (.const _)
  | dotp => cases h with | bin _ h _ => cases h
  | cong _ _ _ _ _ _ ihl ihr => cases h with | bin ho h1 h2 => exact .bin ho (ihl h1) (ihr h2)

theorem Spec.Smooth.diff {i : Nat} {e e' : Expr K} (hs : Smooth e) (hd : VM.diff (.var i) e = .ok e') : Smooth e' := by
  obtain ⟨d, h1, h2⟩ := Res.bind_eq_ok.1 hd
  exact (simplified_induct (P := Smooth) (fun _ _ hp hx => hp.smooth hx) h2 (hs.diffE h1)).1

end
end VM
