import Verif.Spec.Val
import Verif.Rt.SimplifyLemmas
import Verif.Rt.SimplifySound
set_option linter.unusedSectionVars false
/-
Evaluation and simplification against the semantics `Val`.
-/
namespace VM
open Spec
variable {K : Type} [Num K]

/-- Values of the variables given by a vector. -/
def ofVec (v : List K) : Nat → Option K := fun i => v[i]?

theorem applyB_opVal {op : BOp} {a b c : K} : applyB op a b = .ok c ↔ opVal op a b = some c := by
  cases op <;> simp [applyB, opVal]

theorem Spec.Val.of_eval {I : Interp K} {o : Order K} {v : List K} {e : Expr K} {a : K}
    (h : eval o v e = .ok a) : Val I (ofVec v) e a := by
  induction e using Expr.ind generalizing a with
  | const c => simp only [eval, Res.ok.injEq] at h; subst h; exact .const
  | var i =>
    simp only [eval] at h
    split at h
    · rename_i x hx; simp only [Res.ok.injEq] at h; subst h; exact .var hx
    · cases h
  | fsym i t => simp [eval] at h
  | un op e ih =>
    obtain ⟨b, hb, h⟩ := Res.bind_eq_ok.1 h
    cases op with
    | fn f => simp only [applyU, Res.ok.injEq] at h; subst h; exact .fn (ih hb)
    | _ => simp [applyU] at h
  | integ lo hi x e _ _ ih =>
    obtain ⟨b, hb, h⟩ := Res.bind_eq_ok.1 h
    cases h
  | bin op l r ihl ihr =>
    obtain ⟨x, y, hx, hy, h⟩ := Res.both_eq_ok.1 h
    exact .bin (ihl hx) (ihr hy) (applyB_opVal.1 h)
  | vec es _ => simp [eval] at h

theorem Spec.Val.eval {I : Interp K} (o : Order K) {v : List K} {e : Expr K} {a : K} (ha : Arith e)
    (h : Val I (ofVec v) e a) : eval o v e = .ok a := by
  induction ha generalizing a with
  | const c => cases h; rfl
  | var i =>
    cases h with | var h =>
    simp only [ofVec] at h
    simp [VM.eval, h]
  | fn f _ ih => cases h with | fn h => simp [VM.eval, ih h, applyU]
  | bin ho _ _ ihl ihr =>
    cases h with
    | bin h1 h2 h3 => simp [VM.eval, ihl h1, ihr h2, applyB_opVal.2 h3]
    | dotOne => cases ‹Arith (.vec _)›
    | dotSnoc => cases ‹Arith (.vec _)›

/-- A constant has one value only. -/
theorem Spec.Val.of_isConst {I : Interp K} {ρ : Nat → Option K} {e : Expr K} {a c : K}
    (h : Val I ρ e a) (hc : isConst e = true) (hu : unwrap leftFirst e = .ok c) : a = c := by
  induction e using Expr.ind generalizing a c with
  | const d => cases h; simpa [unwrap] using hu
  | bin op l r ihl ihr =>
    simp only [isConst, Bool.and_eq_true] at hc
    obtain ⟨x, y, hx, hy, hz⟩ := Res.both_eq_ok.1 hu
    cases h with
    | bin h1 h2 h3 =>
      rw [ihl h1 hc.1 hx, ihr h2 hc.2 hy, applyB_opVal.1 hz] at h3
      exact (Option.some.inj h3).symm
    | dotOne | dotSnoc => simp [isConst] at hc
  | _ => simp [isConst] at hc

theorem dotFrom_snoc (acc l r : Expr K) (ls rs : List (Expr K)) (h : ls.length = rs.length) :
    dotFrom acc (ls ++ [l]) (rs ++ [r]) = .bin .plus (dotFrom acc ls rs) (.bin .mult l r) := by
  induction ls generalizing acc rs with
  | nil => cases rs with
    | nil => rfl
    | cons => simp at h
  | cons a ls ih => cases rs with
    | nil => simp at h
    | cons b rs => simpa [dotFrom] using ih _ rs (by simpa using h)

theorem Spec.Val.dot_nonempty {I : Interp K} {ρ : Nat → Option K} {ls rs : List (Expr K)} {a : K}
    (h : Val I ρ (.bin .mult (.vec ls) (.vec rs)) a) : ∃ l ls' r rs', ls = l :: ls' ∧ rs = r :: rs' ∧
      ls.length = rs.length ∧ Val I ρ (dotFrom (.bin .mult l r) ls' rs') a := by
  generalize he : (Expr.bin .mult (.vec ls) (.vec rs) : Expr K) = e at h
  induction h generalizing ls rs with
  | bin h1 h2 => cases he; cases h1
  | @dotOne _ l r _ h => cases he; exact ⟨l, [], r, [], rfl, rfl, rfl, by simpa [dotFrom] using h⟩
  | dotSnoc h1 h2 ih1 _ =>
    cases he
    obtain ⟨l, ls', r, rs', rfl, rfl, hlen, hv⟩ := ih1 rfl
    refine ⟨l, ls' ++ [_], r, rs' ++ [_], rfl, rfl, by simpa using hlen, ?_⟩
    rw [dotFrom_snoc _ _ _ _ _ (by simpa using hlen)]
    exact .bin hv h2 rfl
  | _ => cases he

theorem Spec.Val.of_dot {I : Interp K} {ρ : Nat → Option K} {ls rs : List (Expr K)} {e : Expr K} {a : K}
    (h : Val I ρ (.bin .mult (.vec ls) (.vec rs)) a) (hd : dot ls rs = .ok e) : Val I ρ e a := by
  obtain ⟨l, ls', r, rs', rfl, rfl, hlen, hv⟩ := h.dot_nonempty
  simp only [List.length_cons, Nat.add_right_cancel_iff] at hlen
  simp only [dot, hlen, if_true, Res.ok.injEq] at hd
  exact hd ▸ hv

variable [SimpLaws K]
open SimpLaws (bad)

theorem bad_opVal {op : BOp} {x y z : K} (h : opVal op x y = some z) (hb : bad x ∨ bad y) : bad z :=
  bad_applyB (applyB_opVal.2 h) hb

/-- One pass preserves the value. -/
theorem Pass.val {e e' : Expr K} (h : Pass e e') {I : Interp K} (hI : ∀ x, I.good x → ¬ bad x)
    {ρ : Nat → Option K} {a : K} (he : Val I ρ e a) (hb : ¬ bad a) : Val I ρ e' a := by
  induction h generalizing a ρ with
  | const | var | fsym | vec | uid => exact he
  | unFold hc hu => cases he with | fn h => rw [h.of_isConst hc hu]; exact .const
  | unConst hc hu _ =>
    cases he with
    | fn h => rw [h.of_isConst hc hu]; exact .fn .const
    | pd => simp [isConst] at hc
  | un hc hp ih =>
    cases he with
    | fn h => exact .fn (ih h fun h' => hb (bad_applyFn h'))
    | pd h => cases hp; exact .pd h
  | integConst hc hu =>
    cases he with
    | integ f h1 h2 h3 h4 h5 =>
      refine .integ f h1 h2 (fun t ht => ?_) h4 h5
      rw [(h3 t ht).of_isConst hc hu]
      exact .const
  | integ _ _ ih =>
    cases he with
    | integ f h1 h2 h3 h4 h5 =>
      exact .integ f h1 h2 (fun t ht => ih (h3 t ht) (hI _ (h4 t ht))) h4 h5
  | fold hc1 hc2 hu => rw [he.of_isConst (by simp [isConst, hc1, hc2]) hu]; exact .const
  | dotp h => exact he.of_dot h
  | plusZeroL h1 h2 h3 h4 h5 ih =>
    cases he with | bin hx hy h =>
    rw [hx.of_isConst h1 h3] at h
    simp only [opVal, Option.some.injEq] at h
    rw [SimpLaws.zero_add h4] at h; subst h
    exact ih hy hb
  | plusZeroR h1 h2 h3 h4 h5 ih =>
    cases he with | bin hx hy h =>
    rw [hy.of_isConst h2 h3] at h
    simp only [opVal, Option.some.injEq] at h
    rw [SimpLaws.add_zero h4] at h; subst h
    exact ih hx hb
  | minusZeroL h1 h2 h3 h4 h5 ih =>
    cases he with | bin hx hy h =>
    rw [hx.of_isConst h1 h3] at h
    simp only [opVal, Option.some.injEq] at h
    have hy' := ih hy (fun h' => hb (h ▸ SimpLaws.bad_sub (.inr h')))
    rw [SimpLaws.zero_sub h4] at h
    exact .bin .const hy' (by simp [opVal, h])
  | minusZeroR h1 h2 h3 h4 h5 ih =>
    cases he with | bin hx hy h =>
    rw [hy.of_isConst h2 h3] at h
    simp only [opVal, Option.some.injEq] at h
    rw [SimpLaws.sub_zero h4] at h; subst h
    exact ih hx hb
  | multZeroL h1 h2 h3 h4 =>
    cases he with
    | @bin _ _ _ _ _ y _ hx hy h =>
      rw [hx.of_isConst h1 h3] at h
      simp only [opVal, Option.some.injEq] at h
      rcases SimpLaws.zero_mul (x := y) h4 with h' | h'
      · rw [h'] at h; subst h; exact .const
      · rw [h] at h'; exact absurd h' hb
    | dotOne | dotSnoc => simp [isConst] at h1
  | multZeroR h1 h2 h3 h4 =>
    cases he with
    | @bin _ _ _ _ x _ _ hx hy h =>
      rw [hy.of_isConst h2 h3] at h
      simp only [opVal, Option.some.injEq] at h
      rcases SimpLaws.mul_zero (x := x) h4 with h' | h'
      · rw [h'] at h; subst h; exact .const
      · rw [h] at h'; exact absurd h' hb
    | dotOne | dotSnoc => simp [isConst] at h2
  | multOneL h1 h2 h3 h4 h5 ih =>
    cases he with
    | bin hx hy h =>
      rw [hx.of_isConst h1 h3] at h
      simp only [opVal, Option.some.injEq] at h
      rw [SimpLaws.one_mul h4] at h; subst h
      exact ih hy hb
    | dotOne | dotSnoc => simp [isConst] at h1
  | multOneR h1 h2 h3 h4 h5 ih =>
    cases he with
    | bin hx hy h =>
      rw [hy.of_isConst h2 h3] at h
      simp only [opVal, Option.some.injEq] at h
      rw [SimpLaws.mul_one h4] at h; subst h
      exact ih hx hb
    | dotOne | dotSnoc => simp [isConst] at h2
  | divZeroL h1 h2 h3 h4 =>
    cases he with | @bin _ _ _ _ _ y _ hx hy h =>
    rw [hx.of_isConst h1 h3] at h
    simp only [opVal, Option.some.injEq] at h
    rcases SimpLaws.zero_div (x := y) h4 with h' | h'
    · rw [h'] at h; subst h; exact .const
    · rw [h] at h'; exact absurd h' hb
  | divOneR h1 h2 h3 h4 h5 ih =>
    cases he with | bin hx hy h =>
    rw [hy.of_isConst h2 h3] at h
    simp only [opVal, Option.some.injEq] at h
    rw [SimpLaws.div_one h4] at h; subst h
    exact ih hx hb
  | constL _ h1 _ h3 _ _ ih =>
    cases he with
    | bin hx hy h =>
      rw [hx.of_isConst h1 h3] at h
      exact .bin .const (ih hy fun h' => hb (bad_opVal h (.inr h'))) h
    | dotOne | dotSnoc => simp [isConst] at h1
  | constR _ _ h2 h3 _ _ ih =>
    cases he with
    | bin hx hy h =>
      rw [hy.of_isConst h2 h3] at h
      exact .bin (ih hx fun h' => hb (bad_opVal h (.inl h'))) .const h
    | dotOne | dotSnoc => simp [isConst] at h2
  | cong _ _ _ hv _ _ ihl ihr =>
    cases he with
    | bin hx hy h =>
      exact .bin (ihl hx fun h' => hb (bad_opVal h (.inl h'))) (ihr hy fun h' => hb (bad_opVal h (.inr h'))) h
    | dotOne | dotSnoc => simp [bothVec] at hv

theorem simplified_val {e e' : Expr K} (h : simplified e = .ok e') {I : Interp K}
    (hI : ∀ x, I.good x → ¬ bad x) {ρ : Nat → Option K} {a : K} (he : Val I ρ e a) (hb : ¬ bad a) :
    Val I ρ e' a :=
  (simplified_induct (P := fun e => Val I ρ e a) (fun _ _ hp he => hp.val hI he hb) h he).1

theorem simplified_value {e e' : Expr K} (h : simplified e = .ok e') (o : Order K) (v : List K) {a : K}
    (he : eval o v e = .ok a) (hb : ¬ bad a) : eval o v e' = .ok a :=
  (simplified_val h (I := .none) (fun _ h => h.elim) (.of_eval he) hb).eval o
    (simplified_induct (P := Arith) (fun _ _ hp => hp.arith) h (.of_eval he)).1

end VM
