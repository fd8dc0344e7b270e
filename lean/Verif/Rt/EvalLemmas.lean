import Verif.Rt.Eval
import Verif.Spec.Syntax
/-
Helper lemmas about evaluation.
-/
namespace VM
open Spec
variable {K : Type} [Num K]

theorem applyB_arith {op : BOp} (h : IsArithOp op) (x y : K) : ∃ z, applyB op x y = .ok z := by
  rcases h with rfl | rfl | rfl | rfl <;> exact ⟨_, rfl⟩

theorem applyB_ne_ub (op : BOp) (x y : K) : applyB op x y ≠ .ub := by
  cases op <;> simp [applyB]

theorem applyU_ne_ub (op : UOp) (x : K) : applyU op x ≠ .ub := by
  cases op <;> simp [applyU]

theorem eval_ne_ub (o : Order K) (v : List K) (e : Expr K) : eval o v e ≠ .ub := by
  induction e using Expr.ind with
  | const c => simp [eval]
  | var i => simp only [eval]; split <;> simp
  | fsym i t => simp [eval]
  | un op e ih =>
    simp only [eval]
    cases h : eval o v e <;> simp_all [applyU_ne_ub]
  | integ lo hi x e _ _ ih =>
    simp only [eval]
    cases h : eval o v e <;> simp_all
  | bin op l r ihl ihr =>
    simp only [eval, Res.both]
    cases hl : eval o v l <;> cases hr : eval o v r <;> split <;> simp_all [applyB_ne_ub]
  | vec es _ => simp [eval]

theorem evalS_eq_eval (o : Order K) (s : K) (e : Expr K) : evalS o s e = eval o [s] e := by
  induction e using Expr.ind with
  | var i =>
    cases i with
    | zero => simp [eval, evalS]
    | succ n => simp [eval, evalS]
  | un op e ih => simp [eval, evalS, ih]
  | integ lo hi x e _ _ ih => simp [eval, evalS, ih]
  | bin op l r ihl ihr => simp [eval, evalS, ihl, ihr]
  | _ => simp [eval, evalS]

theorem eval_congr (o : Order K) (v w : List K) (hlen : v.length = w.length) (e : Expr K)
    (h : ∀ i, Occurs i e → v[i]? = w[i]?) : eval o v e = eval o w e := by
  induction e using Expr.ind with
  | var i => simp only [eval, h i .var, hlen]
  | un op e ih => simp only [eval, ih fun i hi => h i (.un hi)]
  | integ lo hi x e _ _ ih => simp only [eval, ih fun i hi => h i (.integBody hi)]
  | bin op l r ihl ihr =>
    simp only [eval, ihl fun i hi => h i (.binL hi), ihr fun i hi => h i (.binR hi)]
  | _ => simp [eval]

theorem eval_arith_ok (o : Order K) (v : List K) {e : Expr K} (ha : Arith e)
    (h : ∀ i, Occurs i e → i < v.length) : ∃ a, eval o v e = .ok a := by
  induction ha with
  | const c => exact ⟨c, rfl⟩
  | var i =>
    have := h i .var
    exact ⟨v[i], by simp [eval, this]⟩
  | fn f _ ih =>
    obtain ⟨a, ha⟩ := ih fun i hi => h i (.un hi)
    exact ⟨applyFn f a, by simp [eval, ha, applyU]⟩
  | bin hop _ _ ihl ihr =>
    obtain ⟨a, ha⟩ := ihl fun i hi => h i (.binL hi)
    obtain ⟨b, hb⟩ := ihr fun i hi => h i (.binR hi)
    obtain ⟨c, hc⟩ := applyB_arith hop a b
    exact ⟨c, by simp [eval, ha, hb, hc]⟩

theorem eval_arith_cases (o : Order K) (v : List K) {e : Expr K} (ha : Arith e) :
    (∃ a, eval o v e = .ok a ∧ ∀ i, Occurs i e → i < v.length) ∨
    ∃ i, Occurs i e ∧ v.length ≤ i ∧ eval o v e = .throw (.indexOutOfBounds i v.length) := by
  induction ha with
  | const c => exact .inl ⟨c, rfl, fun i hi => by cases hi⟩
  | var i =>
    by_cases hi : i < v.length
    · exact .inl ⟨v[i], by simp [eval, hi], fun j hj => by cases hj; exact hi⟩
    · exact .inr ⟨i, .var, by omega, by simp [eval, hi]⟩
  | fn f _ ih =>
    rcases ih with ⟨a, ha, hb⟩ | ⟨i, ho, hi, he⟩
    · exact .inl ⟨applyFn f a, by simp [eval, ha, applyU], fun j hj => by cases hj; exact hb _ ‹_›⟩
    · exact .inr ⟨i, .un ho, hi, by simp [eval, he]⟩
  | @bin op l r hop _ _ ihl ihr =>
    rcases ihl with ⟨a, ha, hb⟩ | ⟨i, ho, hi, he⟩
    · rcases ihr with ⟨a', ha', hb'⟩ | ⟨i, ho, hi, he⟩
      · obtain ⟨c, hc⟩ := applyB_arith hop a a'
        refine .inl ⟨c, by simp [eval, ha, ha', hc], fun j hj => ?_⟩
        cases hj
        · exact hb _ ‹_›
        · exact hb' _ ‹_›
      · refine .inr ⟨i, .binR ho, hi, ?_⟩
        simp only [eval, ha, he, Res.both]; split <;> rfl
    · rcases ihr with ⟨a', ha', hb'⟩ | ⟨i', ho', hi', he'⟩
      · refine .inr ⟨i, .binL ho, hi, ?_⟩
        simp only [eval, ha', he, Res.both]; split <;> rfl
      · cases hf : o l r
        · exact .inr ⟨i', .binR ho', hi', by simp [eval, he, he', Res.both, hf]⟩
        · exact .inr ⟨i, .binL ho, hi, by simp [eval, he, he', Res.both, hf]⟩

theorem eval_symbolic (o : Order K) (v : List K) {e : Expr K} (h : Symbolic e) :
    ∃ x, eval o v e = .throw x := by
  have key : ∀ a, eval o v e ≠ .ok a := by
    induction h with
    | un _ ih =>
      intro a ha
      simp only [eval, Res.bind_eq_ok] at ha
      obtain ⟨b, hb, _⟩ := ha
      exact ih b hb
    | binL _ ih =>
      intro a ha
      simp only [eval, Res.both_eq_ok] at ha
      obtain ⟨x, y, hx, _, _⟩ := ha
      exact ih x hx
    | binR _ ih =>
      intro a ha
      simp only [eval, Res.both_eq_ok] at ha
      obtain ⟨x, y, _, hy, _⟩ := ha
      exact ih y hy
    | grad e | divg e | pd i e | symInt i e =>
      intro a ha
      simp only [eval, Res.bind_eq_ok] at ha
      obtain ⟨b, _, hb⟩ := ha
      simp [applyU] at hb
    | integ lo hi x e =>
      intro a ha
      simp only [eval, Res.bind_eq_ok] at ha
      obtain ⟨b, _, hb⟩ := ha
      simp at hb
    | fsym | vec => simp [eval]
  cases h' : eval o v e with
  | ok a => exact absurd h' (key a)
  | throw x => exact ⟨x, rfl⟩
  | ub => exact absurd h' (eval_ne_ub o v e)

/-- On well-formed constants `unwrap` and evaluation give the same number in any order. -/
theorem isConst_value {e : Expr K} (hw : WellFormed e) (hc : isConst e = true) :
    ∃ c, (∀ o, unwrap o e = .ok c) ∧ ∀ o v, eval o v e = .ok c := by
  induction hw with
  | const c => exact ⟨c, fun _ => rfl, fun _ _ => rfl⟩
  | bin hop _ _ ihl ihr =>
    simp only [isConst, Bool.and_eq_true] at hc
    obtain ⟨a, ha, ha'⟩ := ihl hc.1
    obtain ⟨b, hb, hb'⟩ := ihr hc.2
    obtain ⟨c, hc⟩ := applyB_arith hop a b
    exact ⟨c, fun o => by simp [unwrap, ha, hb, hc], fun o v => by simp [eval, ha', hb', hc]⟩
  | _ => simp [isConst] at hc

/-- A number does not depend on the evaluation order. -/
theorem eval_order (o o' : Order K) (v : List K) {e : Expr K} {a : K}
    (h : eval o v e = .ok a) : eval o' v e = .ok a := by
  induction e using Expr.ind generalizing a with
  | const c => simpa [eval] using h
  | var i => simpa [eval] using h
  | fsym i t => simp [eval] at h
  | un op e ih =>
    simp only [eval, Res.bind_eq_ok] at h ⊢
    obtain ⟨b, hb, hc⟩ := h
    exact ⟨b, ih hb, hc⟩
  | integ lo hi x e _ _ ih =>
    simp only [eval, Res.bind_eq_ok] at h
    obtain ⟨b, _, hc⟩ := h
    cases hc
  | bin op l r ihl ihr =>
    simp only [eval, Res.both_eq_ok] at h ⊢
    obtain ⟨x, y, hx, hy, hz⟩ := h
    exact ⟨x, y, ihl hx, ihr hy, hz⟩
  | vec es _ => simp [eval] at h

end VM
