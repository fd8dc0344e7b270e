import Verif.Rt.Quadrature
import Verif.Rt.SubstIntegLemmas
import Verif.Rt.ValLemmas
import Verif.Rt.EvalLemmas
/-
Lemmas about numerical quadrature.
-/
namespace VM
open Spec
variable {K : Type} [Num K]
set_option linter.unusedSectionVars false

theorem Spec.ConstArith.isConst {e : Expr K} (h : ConstArith e) : isConst e = true := by
  induction h with
  | const => rfl
  | bin _ _ _ ihl ihr => simp [VM.isConst, ihl, ihr]

theorem constArith_of_isConst {e : Expr K} (hw : WellFormed e) (h : isConst e = true) : ConstArith e := by
  induction hw with
  | const c => exact .const c
  | bin ho _ _ ihl ihr =>
    simp only [VM.isConst, Bool.and_eq_true] at h
    exact .bin ho (ihl h.1) (ihr h.2)
  | _ => simp [VM.isConst] at h

theorem Spec.ConstArith.wellFormed {e : Expr K} (h : ConstArith e) : WellFormed e := by
  induction h with
  | const c => exact .const c
  | bin ho _ _ ihl ihr => exact .bin ho ihl ihr

/-- An expression that has a value where no variable has one is unwrapped to this value. -/
theorem Spec.Val.unwrap {I : Interp K} (o : Order K) {e : Expr K} {a : K} (ha : Arith e)
    (h : Val I (fun _ => Option.none) e a) : unwrap o e = .ok a := by
  induction ha generalizing a with
  | const c => cases h; rfl
  | var i => cases h with | var h => cases h
  | fn f _ ih => cases h with | fn h => simp [VM.unwrap, ih h, applyU]
  | bin ho hl hr ihl ihr =>
    cases h with
    | bin h1 h2 h => simp [VM.unwrap, ihl h1, ihr h2, applyB_opVal.2 h]
    | dotOne | dotSnoc => cases hl

theorem rp_arith {i : Nat} {r e : Expr K} (hr : Arith r) (he : Arith e) : Arith (rp i r e) := by
  induction he with
  | const c => exact .const c
  | var j => simp only [rp]; split; exact hr; exact .var j
  | fn f _ ih => exact .fn f ih
  | bin ho _ _ ihl ihr => exact .bin ho ihl ihr

theorem Spec.Arith.not_inInterval {i : Nat} {e : Expr K} (h : Arith e) : ¬ InInterval i e := by
  induction h with
  | const | var => exact nofun
  | fn _ _ ih => intro h; cases h with | un h => exact ih h
  | bin _ _ _ ihl ihr => intro h; cases h with | binL h => exact ihl h | binR h => exact ihr h

theorem gaussQuad1_value [SimpLaws K] (o : Order K) {lo hi e : Expr K} {x : Nat} {a b y : K} {w : List K}
    (hlo : ConstArith lo) (hhi : ConstArith hi) (ha : eval o [] lo = .ok a) (hb : eval o [] hi = .ok b)
    (hx : ∀ j, Occurs j e → j = x) (hw : w[x]? = some (Num.div (Num.add a b) (Num.lit 2)))
    (he : eval o w e = .ok y) (hy : ¬ SimpLaws.bad y) :
    gaussQuad1 o lo hi x e = .ok (Num.mul y (Num.sub b a)) := by
  have hlo' : ∀ s, evalS o s lo = .ok a := by
    intro s
    obtain ⟨c, _, h⟩ := isConst_value hlo.wellFormed hlo.isConst
    rw [evalS_eq_eval, h, ← ha, h]
  have hhi' : ∀ s, evalS o s hi = .ok b := by
    intro s
    obtain ⟨c, _, h⟩ := isConst_value hhi.wellFormed hhi.isConst
    rw [evalS_eq_eval, h, ← hb, h]
  have hA : Arith e := Arith.of_eval he
  let m : K := Num.div (Num.add a b) (Num.lit 2)
  have hA' : Arith (rp x (.const m) e) := rp_arith (.const _) hA
  have hv : Val (.none : Interp K) (upd (fun _ => Option.none) x m) e y := by
    refine (Val.of_eval he).congr fun j hj => ?_
    obtain rfl := hx j hj
    simp [upd, ofVec, hw, m]
  have hv' : Val (.none : Interp K) (fun _ => Option.none) (rp x (.const m) e) y :=
    rp_val hv (fun j hj => by simp [upd, hj]) (by simp [upd]) .const hA.not_inInterval
      (fun lo hi x f _ h => nomatch h)
  obtain ⟨t, ht⟩ := simplified_ok_arith hA'
  have ht' := simplified_val ht (I := .none) (fun _ h => h.elim) hv' hy
  have hu := ht'.unwrap o (simplified_induct (P := Arith) (fun _ _ hp => hp.arith) ht hA').1
  simp only [gaussQuad1, hlo.isConst, hhi.isConst, Bool.and_self, if_true, hlo', hhi', Res.both_ok,
    Res.bind_ok, substitute, substE_var]
  rw [show Num.div (Num.add a b) (Num.lit 2) = m from rfl, ht]
  simp [hu, evalS, hlo', hhi', applyB]

end VM
