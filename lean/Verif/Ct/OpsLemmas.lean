import Verif.Spec.CtOps
import Mathlib.Tactic.Ring
import Mathlib.Data.Int.Cast.Basic
/-
Lemmas about the operator model.
-/
namespace VM.Ct
open VM.Spec

section
variable {F : Type*} [Field F] {v φ : Nat → F} {z : F}

theorem mval_const {n : Int} : MVal v φ (.const n) z ↔ z = n :=
  ⟨fun h => by cases h; rfl, fun h => h ▸ .const n⟩
theorem mval_rc {c : F} : MVal v φ (.rc c) z ↔ z = c :=
  ⟨fun h => by cases h; rfl, fun h => by rw [h]; exact .rc c⟩
theorem mval_var {i : Nat} : MVal v φ (.var i) z ↔ z = v i :=
  ⟨fun h => by cases h; rfl, fun h => h ▸ .var i⟩
theorem mval_fsym {t : Nat} : MVal v φ (.fsym t) z ↔ z = φ t :=
  ⟨fun h => by cases h; rfl, fun h => h ▸ .fsym t⟩
theorem mval_bin {l r : MixExpr F} {op : COp} :
    MVal v φ (.bin l op r) z ↔ ∃ x, MVal v φ l x ∧ ∃ y, MVal v φ r y ∧ PlainOp op x y z :=
  ⟨fun h => by cases h with | bin hl hr hz => exact ⟨_, hl, _, hr, hz⟩,
   fun ⟨_, hl, _, hr, hz⟩ => .bin hl hr hz⟩
theorem bval_ct {e : MixExpr F} : BVal v φ (.ct e) z ↔ MVal v φ e z :=
  ⟨fun h => by cases h; assumption, .ct⟩

theorem mval_unique {e : MixExpr F} {x y : F} (hx : MVal v φ e x) (hy : MVal v φ e y) : x = y := by
  induction e generalizing x y with
  | const n => rw [mval_const.1 hx, mval_const.1 hy]
  | rc c => rw [mval_rc.1 hx, mval_rc.1 hy]
  | var i => rw [mval_var.1 hx, mval_var.1 hy]
  | fsym t => rw [mval_fsym.1 hx, mval_fsym.1 hy]
  | bin l op r ihl ihr =>
    obtain ⟨a, ha, b, hb, h⟩ := mval_bin.1 hx
    obtain ⟨a', ha', b', hb', h'⟩ := mval_bin.1 hy
    cases ihl ha ha'; cases ihr hb hb'
    cases op <;> simp only [PlainOp] at h h'
    · rw [h, h']
    · rw [h, h']
    · rw [h, h']
    · rw [h.2, h'.2]

theorem generic_computes {a b : MixExpr F} {op : COp} {r : Built F}
    (h : opGeneric a op b = some r) : Computes op a b r := by
  intro v φ x y z ha hb hz
  unfold opGeneric at h
  split at h
  · split at h
    · cases h; exact .ct (.bin ha hb hz)
    · cases h
  · split at h
    · cases h; exact .rt ha hb hz
    · cases h

theorem fit_eq {x n : Int} (h : fit x = some n) : n = x := by
  unfold fit at h; split at h <;> simp_all

omit [Field F] in
theorem withConst_some {x : Int} {f : MixExpr F → MixExpr F} {r : Built F}
    (h : withConst (fit x) f = some r) : r = .ct (f (.const x)) := by
  unfold withConst at h
  cases hx : fit x with
  | none => rw [hx] at h; cases h
  | some n => rw [hx] at h; cases h; rw [fit_eq hx]

omit [Field F] in
theorem withMixed_some {folds : Bool} {e : MixExpr F} {r : Built F}
    (h : withMixed folds e = some r) : r = .ct e := by
  unfold withMixed at h; split at h <;> cases h; rfl

omit [Field F] in
theorem sameType_noRt {a b : MixExpr F} (h : a.sameType b = true) (ha : NoRtConst a) : a = b := by
  induction a generalizing b with
  | const n => cases b <;> simp_all [MixExpr.sameType]
  | rc c => exact ha.elim
  | var i => cases b <;> simp_all [MixExpr.sameType]
  | fsym t => cases b <;> simp_all [MixExpr.sameType]
  | bin l op r ihl ihr =>
    cases b <;> simp only [MixExpr.sameType, Bool.and_eq_true, beq_iff_eq, Bool.false_eq_true] at h
    rw [ihl h.1.1 ha.1, ihr h.2 ha.2, h.1.2]

omit [Field F] in
theorem sameType_symm {a b : MixExpr F} (h : a.sameType b = true) : b.sameType a = true := by
  induction a generalizing b with
  | const n => cases b <;> simp_all [MixExpr.sameType]
  | rc c => cases b <;> simp_all [MixExpr.sameType]
  | var i => cases b <;> simp_all [MixExpr.sameType]
  | fsym t => cases b <;> simp_all [MixExpr.sameType]
  | bin l op r ihl ihr =>
    cases b <;> simp only [MixExpr.sameType, Bool.and_eq_true, beq_iff_eq, Bool.false_eq_true] at h ⊢
    exact ⟨⟨ihl h.1.1, h.1.2.symm⟩, ihr h.2⟩

end
end VM.Ct
