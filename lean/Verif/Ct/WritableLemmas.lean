import Verif.Spec.Writable
import Verif.Ct.WrittenLemmas
/-
Lemmas for C120.
-/
namespace VM.Ct
open VM.Spec

theorem writable_op (op : COp) : op.toRt = .plus ∨ op.toRt = .minus ∨ op.toRt = .mult ∨ op.toRt = .div := by
  cases op <;> simp [COp.toRt]

theorem toRt_writable {c : CtExpr} {e : Expr XReal} (h : toRt c = some e) : Writable e := by
  induction c generalizing e with
  | const n => cases h; trivial
  | var i => cases h; trivial
  | fsym t => cases h
  | bin l op r ihl ihr =>
    rw [toRt_bin] at h
    simp only [Option.bind_eq_some_iff, Option.map_eq_some_iff] at h
    obtain ⟨l', hl, r', hr, rfl⟩ := h
    exact ⟨writable_op op, ihl hl, ihr hr⟩

theorem mixToRt_writable {m : MixExpr ℝ} {e : Expr XReal} (h : mixToRt m = some e) : Writable e := by
  have key : ∀ {e : Expr XReal}, ((m.toCt.bind toRt : Option (Expr XReal)) = some e) → Writable e := by
    intro e h
    obtain ⟨c, -, h⟩ := Option.bind_eq_some_iff.1 h
    exact toRt_writable h
  cases m with
  | rc c => cases h; trivial
  | _ => exact key h

/-- The expression the value is or becomes is writable. -/
def WritableV : Value → Prop
  | .rt _ e => Writable e
  | _ => True

theorem WritableV.clone {v : Value} (hv : WritableV v) {e : Expr XReal} (h : v.clone = some e) : Writable e := by
  cases v with
  | num x => cases h; trivial
  | mix m => exact mixToRt_writable h
  | rt c e => cases h; exact hv

theorem operate_writable {folds : Bool} {op : COp} {a b v : Value} (ha : WritableV a) (hb : WritableV b)
    (h : operate folds op a b = some v) : WritableV v := by
  have key : ((a.clone).bind fun l => b.clone.map fun r => Value.rt .binary (.bin op.toRt l r)) = some v →
      WritableV v := by
    intro h
    simp only [Option.bind_eq_some_iff, Option.map_eq_some_iff] at h
    obtain ⟨l, hl, r, hr, rfl⟩ := h
    exact ⟨writable_op op, ha.clone hl, hb.clone hr⟩
  have built : ∀ x : Option (Built ℝ), x.bind Built.value = some v → WritableV v := by
    intro x h
    obtain ⟨y, -, h⟩ := Option.bind_eq_some_iff.1 h
    cases y with
    | ct e => cases h; trivial
    | rt l o r =>
      simp only [Built.value, Option.bind_eq_some_iff, Option.map_eq_some_iff] at h
      obtain ⟨l', hl, r', hr, rfl⟩ := h
      exact ⟨writable_op o, mixToRt_writable hl, mixToRt_writable hr⟩
  cases a <;> cases b
  case num.num => cases h; trivial
  case mix.mix => exact built _ h
  all_goals exact key h

theorem callFn_writable {f : Fn} {a v : Value} (ha : WritableV a) (h : callFn f a = some v) : WritableV v := by
  cases a with
  | num x =>
    simp only [callFn] at h
    split at h
    · cases h
    · cases h; trivial
  | mix m =>
    simp only [callFn] at h
    split at h
    · cases h
    rename_i hf
    split at h
    · cases h; exact ⟨hf, trivial⟩
    · cases h; exact ⟨hf, trivial⟩
    · simp only [Option.map_eq_some_iff, Option.bind_eq_some_iff] at h
      obtain ⟨e, ⟨c, -, h⟩, rfl⟩ := h
      exact ⟨hf, toRt_writable h⟩
    · cases h
  | rt c e =>
    simp only [callFn] at h
    split at h
    · cases h
    rename_i hf
    split at h
    · cases h
    split at h
    · cases h
    · cases h; exact ⟨hf, ha⟩

theorem build_writable {folds : Bool} {t : Written} {v : Value} (h : t.build folds = some v) : WritableV v := by
  induction t generalizing v with
  | num x => cases h; trivial
  | rc x => cases h; trivial
  | cc n => cases h; trivial
  | cv i => cases h; trivial
  | rv i => cases h; trivial
  | expr t ih =>
    rw [Written.build] at h
    simp only [Option.bind_eq_some_iff, Option.map_eq_some_iff] at h
    obtain ⟨w, hw, e, he, rfl⟩ := h
    exact (ih hw).clone he
  | bin op a b iha ihb =>
    rw [Written.build] at h
    simp only [Option.bind_eq_some_iff] at h
    obtain ⟨x, hx, y, hy, h⟩ := h
    exact operate_writable (iha hx) (ihb hy) h
  | fn f t ih =>
    rw [Written.build] at h
    simp only [Option.bind_eq_some_iff] at h
    obtain ⟨x, hx, h⟩ := h
    exact callFn_writable (ih hx) h

theorem treeOf_bin (op : COp) (a b : Written) : treeOf (.bin op a b) = .bin op.toRt (treeOf a) (treeOf b) := by
  cases op <;> rfl

theorem writable_written {e : Expr XReal} (h : Writable e) (folds : Bool) :
    ∃ t, RunTime t ∧ t.build folds = some (.rt .expr e) := by
  induction e using Expr.ind with
  | const c =>
    cases c with
    | some x => exact ⟨.expr (.num x), trivial, rfl⟩
    | none =>
      refine ⟨.expr (.bin .div (.num 1) (.num 0)), ⟨trivial, trivial⟩, ?_⟩
      have : COp.div.apply (some 1 : XReal) (some 0) = none := by simp [COp.apply, Num.div, XReal.div]
      simp [Written.build, operate, Value.clone, this]
  | var i => exact ⟨.expr (.rv i), trivial, rfl⟩
  | fsym i t => exact h.elim
  | integ lo hi x e => exact h.elim
  | vec es => exact h.elim
  | un op e ih =>
    cases op with
    | fn f =>
      obtain ⟨hf, he⟩ := h
      obtain ⟨t, ht, hb⟩ := ih he
      exact ⟨.expr (.fn f t), ⟨hf, ht⟩, by simp [Written.build, hb, callFn, hf, Value.clone]⟩
    | _ => exact h.elim
  | bin op l r ihl ihr =>
    obtain ⟨ho, hl, hr⟩ := h
    obtain ⟨a, ha, ha'⟩ := ihl hl
    obtain ⟨b, hb, hb'⟩ := ihr hr
    have : ∃ o : COp, o.toRt = op := by
      rcases ho with rfl | rfl | rfl | rfl
      exacts [⟨.plus, rfl⟩, ⟨.minus, rfl⟩, ⟨.mult, rfl⟩, ⟨.div, rfl⟩]
    obtain ⟨o, rfl⟩ := this
    exact ⟨.expr (.bin o a b), ⟨ha, hb⟩, by simp [Written.build, ha', hb', operate, Value.clone]⟩

/-- A number that is not computed is a literal. -/
theorem number_literal {t : Written} (hn : IsNumber t) (h : NoNumbers t) : ∃ x, t = .num x := by
  cases t with
  | num x => exact ⟨x, rfl⟩
  | bin op a b => exact (h.1 hn).elim
  | fn f t => exact (h.1 hn).elim
  | _ => exact hn.elim

theorem build_tree {folds : Bool} {t : Written} (ht : RunTime t) (hx : ¬ ExpOfCall t) (hn : NoNumbers t) :
    ∃ v, t.build folds = some v ∧ Typed t v ∧ v.clone = some (treeOf t) := by
  suffices ∀ v, t.build folds = some v → v.clone = some (treeOf t) by
    obtain ⟨v, hv, hty⟩ := (build_runTime (folds := folds) ht).2 hx
    exact ⟨v, hv, hty, this v hv⟩
  induction t with
  | num x => intro v h; cases h; rfl
  | rc x => exact ht.elim
  | cc n => exact ht.elim
  | cv i => exact ht.elim
  | rv i => intro v h; cases h; rfl
  | expr t ih =>
    intro v h
    rw [Written.build] at h
    simp only [Option.bind_eq_some_iff, Option.map_eq_some_iff] at h
    obtain ⟨w, hw, e, he, rfl⟩ := h
    rw [ih ht hx hn w hw] at he
    cases he; rfl
  | fn f t ih =>
    intro v h
    have hx' : ¬ ExpOfCall t := fun h => hx (.inr h)
    obtain ⟨w, hw, hty⟩ := (build_runTime (folds := folds) ht.2).2 hx'
    have hc := ih ht.2 hx' hn.2 w hw
    rw [Written.build, hw, Option.bind_some] at h
    cases w with
    | num x => exact (hn.1 hty).elim
    | mix m => exact hty.elim
    | rt c e =>
      simp only [Value.clone, Option.some.injEq] at hc
      simp only [callFn] at h
      split at h
      · cases h
      split at h
      · cases h
      split at h
      · cases h
      · cases h; rw [treeOf, ← hc]; rfl
  | bin op a b iha ihb =>
    intro v h
    have hxa : ¬ ExpOfCall a := fun h => hx (.inl h)
    have hxb : ¬ ExpOfCall b := fun h => hx (.inr h)
    obtain ⟨u, hu, hu'⟩ := (build_runTime (folds := folds) ht.1).2 hxa
    obtain ⟨w, hw, hw'⟩ := (build_runTime (folds := folds) ht.2).2 hxb
    have ca := iha ht.1 hxa hn.2.1 u hu
    have cb := ihb ht.2 hxb hn.2.2 w hw
    rw [Written.build, hu, hw, Option.bind_some, Option.bind_some] at h
    have key : operate folds op u w = some (.rt .binary (.bin op.toRt (treeOf a) (treeOf b))) := by
      cases u <;> cases w
      case num.num => exact (hn.1 ⟨hu', hw'⟩).elim
      case mix.mix => exact hu'.elim
      all_goals
        simp only [operate, ca, cb, Option.bind_some, Option.map_some]
    rw [key] at h
    cases h
    rw [treeOf_bin]; rfl

end VM.Ct
