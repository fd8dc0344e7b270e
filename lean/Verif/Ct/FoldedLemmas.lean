import Verif.Spec.Folded
import Verif.Ct.WrittenLemmas
/-
Lemmas for C121.
-/
namespace VM.Ct
open VM.Spec

theorem Folded.noRt {e : MixExpr ℝ} (h : Folded e) : NoRtConst e := by
  induction e with
  | bin l op r ihl ihr => exact ⟨ihl h.1, ihr h.2.1⟩
  | rc c => exact h.elim
  | _ => trivial

theorem sameType_eq {a b : MixExpr ℝ} (ha : NoRtConst a) : MixExpr.sameType a b = true ↔ a = b := by
  induction a generalizing b with
  | const n => cases b <;> simp [MixExpr.sameType]
  | rc c => exact ha.elim
  | var i => cases b <;> simp [MixExpr.sameType]
  | fsym t => cases b <;> simp [MixExpr.sameType]
  | bin l op r ihl ihr => cases b <;> simp [MixExpr.sameType, ihl ha.1, ihr ha.2, and_assoc]

theorem defaultable_noRt {e : MixExpr ℝ} (h : NoRtConst e) : e.defaultable = true := by
  induction e with
  | bin l op r hl hr => simp [MixExpr.defaultable, hl h.1, hr h.2]
  | rc c => exact h.elim
  | _ => rfl

theorem generic_noRt {a b : MixExpr ℝ} (op : COp) (ha : NoRtConst a) (hb : NoRtConst b) :
    opGeneric a op b = some (.ct (.bin a op b)) := by
  have h1 : a.isCompiletime = true := by cases a <;> first | rfl | exact ha.elim
  have h2 : b.isCompiletime = true := by cases b <;> first | rfl | exact hb.elim
  simp [opGeneric, h1, h2, defaultable_noRt ha, defaultable_noRt hb]

/-- The operators of `operate` on compile-time operands. -/
noncomputable def opMix (folds : Bool) (op : COp) (a b : MixExpr ℝ) : Option (Built ℝ) :=
  match op with
  | .plus => opAdd folds a b
  | .minus => opSub folds a b
  | .mult => opMul a b
  | .div => opDiv a b

theorem not_folds_const {k m : Int} {x : MixExpr ℝ} {op op' : COp} (hx : ¬ Folds (.const m) op x)
    (h : op = .plus ∨ op = .minus) (h' : op' = .plus ∨ op' = .minus) : ¬ Folds (.const k) op' x := by
  have key : ∀ n, ¬ Leads x n := by
    intro n hn
    apply hx
    rcases h with rfl | rfl
    · exact .inl ⟨m, n, .const m, hn, .inl rfl⟩
    · exact .inl ⟨m, n, .const m, hn, .inl rfl⟩
  rcases h' with rfl | rfl
  · rintro (⟨_, n, -, hn, -⟩ | ⟨i, h, -⟩)
    · exact key n hn
    · cases h
  · rintro (⟨_, n, -, hn, -⟩ | ⟨i, h, -⟩ | ⟨i, y, h, -⟩)
    · exact key n hn
    · cases h
    · cases h

theorem withConst_ct {x : CExp} {f : MixExpr ℝ → MixExpr ℝ} {r : Built ℝ} (h : withConst x f = some r) :
    ∃ k, r = .ct (f (.const k)) := by
  cases x with
  | none => cases h
  | some k => cases h; exact ⟨k, rfl⟩

theorem opMix_folds {folds : Bool} {op : COp} {a b : MixExpr ℝ} (ha : Folded a) (hb : Folded b) (h : ¬ Folds a op b) :
    opMix folds op a b = some (.ct (.bin a op b)) := by
  have g := fun op => generic_noRt op (Folded.noRt ha) (Folded.noRt hb)
  cases op with
  | plus =>
    show opAdd folds a b = _
    unfold opAdd
    split <;> first
      | (simp [Folded] at ha hb; done)
      | exact (h (.inl ⟨_, _, by constructor, by constructor, by simp⟩)).elim
      | skip
    · split
      · rename_i i j hij; subst hij; exact (h (.inr ⟨_, rfl, rfl⟩)).elim
      · exact g .plus
    · exact g .plus
  | minus =>
    show opSub folds a b = _
    unfold opSub
    split <;> first
      | (simp [Folded] at ha hb; done)
      | exact (h (.inl ⟨_, _, by constructor, by constructor, by simp⟩)).elim
      | skip
    · split
      · rename_i i x j hij; subst hij; exact (h (.inr (.inr ⟨_, _, rfl, rfl⟩))).elim
      · exact g .minus
    · split
      · rename_i i j hij; subst hij; exact (h (.inr (.inl ⟨_, rfl, rfl⟩))).elim
      · exact g .minus
    · exact g .minus
  | mult =>
    show opMul a b = _
    unfold opMul
    split
    · exact (h ⟨_, _, rfl, rfl⟩).elim
    · exact g .mult
  | div =>
    show opDiv a b = _
    unfold opDiv
    split
    · split
      · rename_i i j hij; subst hij; exact (h ⟨rfl, .inl ⟨_, rfl⟩⟩).elim
      · exact g .div
    · split
      · rename_i hs
        exact (h ⟨(sameType_eq (Folded.noRt ha)).1 hs, .inr ⟨_, _, _, rfl⟩⟩).elim
      · exact g .div
    · exact g .div

theorem opMix_folded {folds : Bool} {op : COp} {a b : MixExpr ℝ} {r : Built ℝ} (ha : Folded a) (hb : Folded b)
    (h : opMix folds op a b = some r) : ∃ e, r = .ct e ∧ Folded e := by
  by_cases hf : Folds a op b
  · cases op with
    | plus =>
      change opAdd folds a b = some r at h
      rcases hf with ⟨n, m, hn, hm, hc⟩ | ⟨i, rfl, rfl⟩
      · cases hn <;> cases hm <;> simp at hc <;> simp only [opAdd] at h <;> obtain ⟨k, rfl⟩ := withConst_ct h <;> refine ⟨_, rfl, ?_⟩
        · trivial
        · exact ⟨trivial, hb.2.1, not_folds_const hb.2.2 (.inl rfl) (.inl rfl)⟩
        · exact ⟨trivial, hb.2.1, not_folds_const hb.2.2 (.inr rfl) (.inr rfl)⟩
        · exact ⟨trivial, ha.2.1, not_folds_const ha.2.2 (.inl rfl) (.inl rfl)⟩
        · exact ⟨trivial, ha.2.1, not_folds_const ha.2.2 (.inr rfl) (.inr rfl)⟩
      · simp [opAdd] at h
        subst h
        exact ⟨_, rfl, trivial, trivial, by simp [Folds]⟩
    | minus =>
      change opSub folds a b = some r at h
      rcases hf with ⟨n, m, hn, hm, hc⟩ | ⟨i, rfl, rfl⟩ | ⟨i, x, rfl, rfl⟩
      · cases hn <;> cases hm <;> simp at hc <;> simp only [opSub] at h <;> obtain ⟨k, rfl⟩ := withConst_ct h <;> refine ⟨_, rfl, ?_⟩
        · trivial
        · exact ⟨trivial, hb.2.1, not_folds_const hb.2.2 (.inl rfl) (.inr rfl)⟩
        · exact ⟨trivial, hb.2.1, not_folds_const hb.2.2 (.inr rfl) (.inl rfl)⟩
        · exact ⟨trivial, ha.2.1, not_folds_const ha.2.2 (.inl rfl) (.inl rfl)⟩
        · exact ⟨trivial, ha.2.1, not_folds_const ha.2.2 (.inr rfl) (.inr rfl)⟩
      · simp [opSub] at h
        subst h
        exact ⟨_, rfl, trivial⟩
      · simp [opSub] at h
        subst h
        exact ⟨_, rfl, ha.2.1⟩
    | mult =>
      obtain ⟨n, m, rfl, rfl⟩ := hf
      simp only [opMix, opMul] at h
      obtain ⟨k, rfl⟩ := withConst_ct h
      exact ⟨_, rfl, trivial⟩
    | div =>
      change opDiv a b = some r at h
      obtain ⟨rfl, ⟨i, rfl⟩ | ⟨x, o, y, rfl⟩⟩ := hf
      · simp [opDiv] at h
        subst h
        exact ⟨_, rfl, trivial⟩
      · simp only [opDiv, (sameType_eq (Folded.noRt ha)).2 rfl, if_true, Option.some.injEq] at h
        subst h
        exact ⟨_, rfl, trivial⟩
  · rw [opMix_folds ha hb hf] at h
    cases h
    exact ⟨_, rfl, ha, hb, hf⟩

theorem operate_mix (folds : Bool) (op : COp) (a b : MixExpr ℝ) :
    operate folds op (.mix a) (.mix b) = (opMix folds op a b).bind Built.value := by
  cases op <;> rfl

theorem build_folded {folds : Bool} {t : Written} (ht : CompileTimeFormula t) {v : Value} (h : t.build folds = some v) :
    ∃ e, v = .mix e ∧ Folded e := by
  induction t generalizing v with
  | cc n => cases h; exact ⟨_, rfl, trivial⟩
  | cv i => cases h; exact ⟨_, rfl, trivial⟩
  | bin op a b iha ihb =>
    rw [Written.build] at h
    simp only [Option.bind_eq_some_iff] at h
    obtain ⟨x, hx, y, hy, h⟩ := h
    obtain ⟨x, rfl, fx⟩ := iha ht.1 hx
    obtain ⟨y, rfl, fy⟩ := ihb ht.2 hy
    rw [operate_mix, Option.bind_eq_some_iff] at h
    obtain ⟨r, hr, h⟩ := h
    obtain ⟨e, rfl, he⟩ := opMix_folded fx fy hr
    cases h
    exact ⟨e, rfl, he⟩
  | _ => exact ht.elim

theorem folded_build {e : MixExpr ℝ} (he : Folded e) (folds : Bool) :
    CompileTimeFormula (formulaOf e) ∧ (formulaOf e).build folds = some (.mix e) := by
  induction e with
  | const n => exact ⟨trivial, rfl⟩
  | var i => exact ⟨trivial, rfl⟩
  | rc c => exact he.elim
  | fsym t => exact he.elim
  | bin l op r ihl ihr =>
    obtain ⟨cl, bl⟩ := ihl he.1
    obtain ⟨cr, br⟩ := ihr he.2.1
    refine ⟨⟨cl, cr⟩, ?_⟩
    rw [formulaOf, Written.build, bl, br, Option.bind_some, Option.bind_some, operate_mix, opMix_folds he.1 he.2.1 he.2.2]
    rfl

/-! How large the constants become. -/

theorem constantsUpTo_mono {w w' : Nat} (h : w ≤ w') {e : MixExpr ℝ} (he : ConstantsUpTo w e) : ConstantsUpTo w' e := by
  induction e with
  | const n => exact Nat.le_trans he h
  | bin l op r ihl ihr => exact ⟨ihl he.1, ihr he.2⟩
  | _ => trivial

theorem constantBound_pos : ∀ t, 1 ≤ constantBound t
  | .cc n => by simp [constantBound]
  | .bin op a b => by
    have ha := constantBound_pos a
    have hb := constantBound_pos b
    cases op
    case mult => exact Nat.mul_pos ha hb
    all_goals (show 1 ≤ constantBound a + constantBound b; omega)
  | .num _ | .rc _ | .cv _ | .rv _ | .expr _ | .fn _ _ => Nat.le_refl _

theorem inLong_of_natAbs {k : Int} (h : k.natAbs ≤ 2 ^ 63 - 1) : InLong k := by
  unfold InLong
  omega

/-- The bound for the result of an operator. -/
def boundOf (op : COp) (u w : Nat) : Nat := if op = .mult then u * w else u + w

theorem constantBound_bin (op : COp) (a b : Written) : constantBound (.bin op a b) = boundOf op (constantBound a) (constantBound b) := by
  cases op <;> rfl

theorem le_boundOf {op : COp} {u w : Nat} (hu : 1 ≤ u) (hw : 1 ≤ w) : u ≤ boundOf op u w ∧ w ≤ boundOf op u w := by
  unfold boundOf
  split
  · exact ⟨Nat.le_mul_of_pos_right _ hw, Nat.le_mul_of_pos_left _ hu⟩
  · omega

theorem opMix_weight {folds : Bool} {op : COp} {a b : MixExpr ℝ} {u w : Nat} (ha : Folded a) (hb : Folded b)
    (hu : 1 ≤ u) (hw : 1 ≤ w) (ua : ConstantsUpTo u a) (wb : ConstantsUpTo w b)
    (hl : boundOf op u w ≤ 2 ^ 63 - 1) :
    ∃ e, opMix folds op a b = some (.ct e) ∧ ConstantsUpTo (boundOf op u w) e := by
  obtain ⟨hu', hw'⟩ := le_boundOf (op := op) hu hw
  by_cases hf : Folds a op b
  · cases op with
    | plus =>
      rw [boundOf, if_neg (by simp)] at *
      rcases hf with ⟨n, m, hn, hm, hc⟩ | ⟨i, rfl, rfl⟩
      · have key : n.natAbs ≤ u → m.natAbs ≤ w → fit (n + m) = some (n + m) ∧ (n + m).natAbs ≤ u + w := by
          intro h1 h2
          have : (n + m).natAbs ≤ u + w := by omega
          exact ⟨if_pos (inLong_of_natAbs (by omega)), this⟩
        cases hn <;> cases hm <;> simp at hc <;> simp only [opMix, opAdd]
        · obtain ⟨h1, h2⟩ := key ua wb
          rw [h1]; exact ⟨_, rfl, h2⟩
        · obtain ⟨h1, h2⟩ := key ua wb.1
          rw [h1]; exact ⟨_, rfl, h2, constantsUpTo_mono hw' wb.2⟩
        · obtain ⟨h1, h2⟩ := key ua wb.1
          rw [h1]; exact ⟨_, rfl, h2, constantsUpTo_mono hw' wb.2⟩
        · obtain ⟨h1, h2⟩ := key ua.1 wb
          rw [h1]; exact ⟨_, rfl, h2, constantsUpTo_mono hu' ua.2⟩
        · obtain ⟨h1, h2⟩ := key ua.1 wb
          rw [h1]; exact ⟨_, rfl, h2, constantsUpTo_mono hu' ua.2⟩
      · refine ⟨.bin (.const 2) .mult (.var i), by simp [opMix, opAdd], ?_, trivial⟩
        show 2 ≤ u + w
        omega
    | minus =>
      rw [boundOf, if_neg (by simp)] at *
      rcases hf with ⟨n, m, hn, hm, hc⟩ | ⟨i, rfl, rfl⟩ | ⟨i, x, rfl, rfl⟩
      · have key : n.natAbs ≤ u → m.natAbs ≤ w → fit (n - m) = some (n - m) ∧ (n - m).natAbs ≤ u + w := by
          intro h1 h2
          have : (n - m).natAbs ≤ u + w := by omega
          exact ⟨if_pos (inLong_of_natAbs (by omega)), this⟩
        cases hn <;> cases hm <;> simp at hc <;> simp only [opMix, opSub]
        · obtain ⟨h1, h2⟩ := key ua wb
          rw [h1]; exact ⟨_, rfl, h2⟩
        · obtain ⟨h1, h2⟩ := key ua wb.1
          rw [h1]; exact ⟨_, rfl, h2, constantsUpTo_mono hw' wb.2⟩
        · obtain ⟨h1, h2⟩ := key ua wb.1
          rw [h1]; exact ⟨_, rfl, h2, constantsUpTo_mono hw' wb.2⟩
        · obtain ⟨h1, h2⟩ := key ua.1 wb
          rw [h1]; exact ⟨_, rfl, h2, constantsUpTo_mono hu' ua.2⟩
        · obtain ⟨h1, h2⟩ := key ua.1 wb
          rw [h1]; exact ⟨_, rfl, h2, constantsUpTo_mono hu' ua.2⟩
      · exact ⟨.const 0, by simp [opMix, opSub], Nat.zero_le _⟩
      · exact ⟨x, by simp [opMix, opSub], constantsUpTo_mono hu' ua.2⟩
    | mult =>
      rw [boundOf, if_pos rfl] at *
      obtain ⟨n, m, rfl, rfl⟩ := hf
      have : (n * m).natAbs ≤ u * w := by
        rw [Int.natAbs_mul]
        exact Nat.mul_le_mul ua wb
      have h1 : fit (n * m) = some (n * m) := if_pos (inLong_of_natAbs (Nat.le_trans this hl))
      simp only [opMix, opMul]
      rw [h1]
      exact ⟨_, rfl, this⟩
    | div =>
      have h1 : ConstantsUpTo (boundOf .div u w) (.const 1 : MixExpr ℝ) := Nat.le_trans hu hu'
      obtain ⟨rfl, ⟨i, rfl⟩ | ⟨x, o, y, rfl⟩⟩ := hf
      · exact ⟨.const 1, by simp [opMix, opDiv], h1⟩
      · refine ⟨.const 1, ?_, h1⟩
        simp only [opMix, opDiv, (sameType_eq (Folded.noRt ha)).2 rfl, if_true]
  · exact ⟨_, opMix_folds ha hb hf, constantsUpTo_mono hu' ua, constantsUpTo_mono hw' wb⟩

theorem build_weight {folds : Bool} {t : Written} (ht : CompileTimeFormula t) (hw : constantBound t ≤ 2 ^ 63 - 1) :
    ∃ e, t.build folds = some (.mix e) ∧ ConstantsUpTo (constantBound t) e := by
  induction t with
  | cc n => exact ⟨_, rfl, Nat.le_max_right 1 n.natAbs⟩
  | cv i => exact ⟨_, rfl, trivial⟩
  | bin op a b iha ihb =>
    rw [constantBound_bin] at hw ⊢
    obtain ⟨h1, h2⟩ := le_boundOf (op := op) (constantBound_pos a) (constantBound_pos b)
    obtain ⟨x, hx, cx⟩ := iha ht.1 (Nat.le_trans h1 hw)
    obtain ⟨y, hy, cy⟩ := ihb ht.2 (Nat.le_trans h2 hw)
    obtain ⟨x', hx', fx⟩ := build_folded ht.1 hx
    obtain ⟨y', hy', fy⟩ := build_folded ht.2 hy
    cases hx'
    cases hy'
    obtain ⟨e, he, ce⟩ := opMix_weight (folds := folds) fx fy (constantBound_pos a) (constantBound_pos b) cx cy hw
    refine ⟨e, ?_, ce⟩
    rw [Written.build, hx, hy, Option.bind_some, Option.bind_some, operate_mix, he]
    rfl
  | _ => exact ht.elim

end VM.Ct
