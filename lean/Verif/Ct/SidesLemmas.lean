import Verif.Ct.WrittenLemmas
import Verif.Spec.Sides
/-
Lemmas for C51.
-/
namespace VM.Ct
open VM.Spec

theorem plain_iff (e : MixExpr ℝ) : Plain e ↔ ∃ c, e.toCt = some c ∧ NoSym c := by
  induction e with
  | const n => exact ⟨fun _ => ⟨_, rfl, trivial⟩, fun _ => trivial⟩
  | rc c => exact ⟨False.elim, fun ⟨_, h, _⟩ => by cases h⟩
  | var i => exact ⟨fun _ => ⟨_, rfl, trivial⟩, fun _ => trivial⟩
  | fsym t => exact ⟨False.elim, fun ⟨_, h, h'⟩ => by cases h; exact h'⟩
  | bin l op r ihl ihr =>
    simp only [Plain, ihl, ihr, MixExpr.toCt]
    constructor
    · rintro ⟨⟨c, hc, h⟩, d, hd, h'⟩
      exact ⟨.bin c op d, by simp [hc, hd], h, h'⟩
    · rintro ⟨c, hc, h⟩
      simp only [Option.bind_eq_some_iff, Option.map_eq_some_iff] at hc
      obtain ⟨c1, h1, c2, h2, rfl⟩ := hc
      exact ⟨⟨c1, h1, h.1⟩, c2, h2, h.2⟩

theorem clone_none (v : Value) : v.clone = none ↔ NoRunTimeForm v := by
  have key : ∀ e : MixExpr ℝ, e.toCt.bind (toRt (K := XReal)) = none ↔ ¬ Plain e := by
    intro e
    rw [plain_iff]
    cases hc : e.toCt with
    | none => simp
    | some c =>
      simp only [Option.bind_some, Option.some.injEq, exists_eq_left', toRt_eq]
      rw [← callable_iff]
      cases callable c <;> simp
  cases v with
  | num x => simp [Value.clone, NoRunTimeForm]
  | rt c e => simp [Value.clone, NoRunTimeForm]
  | mix e =>
    cases e with
    | rc c => simp [Value.clone, mixToRt, NoRunTimeForm]
    | bin l op r => exact key (.bin l op r)
    | const n => simp [Value.clone, mixToRt, MixExpr.toCt, toRt, NoRunTimeForm]
    | var i => simp [Value.clone, mixToRt, MixExpr.toCt, toRt, NoRunTimeForm]
    | fsym t => simp [Value.clone, mixToRt, MixExpr.toCt, toRt, NoRunTimeForm]

theorem bothRt_none (a b : Value) : bothRt a b = none ↔ NoRunTimeForm a ∨ NoRunTimeForm b := by
  rw [← clone_none, ← clone_none, bothRt]
  cases a.clone <;> cases b.clone <;> simp

theorem type_toCt {e : MixExpr ℝ} : e.type.toCt = e.toCt := by
  induction e with
  | bin l op r ihl ihr => simp only [MixExpr.type, MixExpr.toCt, ihl, ihr]
  | _ => rfl

theorem noRt_toCt {e : MixExpr ℝ} (h : NoRtConst e) : ∃ c, e.toCt = some c := by
  induction e with
  | bin l op r ihl ihr =>
    obtain ⟨c, hc⟩ := ihl h.1
    obtain ⟨d, hd⟩ := ihr h.2
    exact ⟨.bin c op d, by simp [MixExpr.toCt, hc, hd]⟩
  | rc c => exact h.elim
  | const n => exact ⟨_, rfl⟩
  | var i => exact ⟨_, rfl⟩
  | fsym t => exact ⟨_, rfl⟩

theorem bothRt_some {a b : Value} {s : Sides} (h : bothRt a b = some s) :
    ∃ l r, a.clone = some l ∧ b.clone = some r ∧ s = .rt l r := by
  simp only [bothRt, Option.bind_eq_some_iff, Option.map_eq_some_iff] at h
  obtain ⟨l, hl, r, hr, h⟩ := h
  exact ⟨l, r, hl, hr, h.symm⟩

/-- What the two sides are. -/
def SidesOf (a b : Value) : Sides → Prop
  | .rt l r => a.clone = some l ∧ b.clone = some r
  | .ct l r => ∃ e f, a = .mix e ∧ b = .mix f ∧ l = e.type ∧ r = f.type

theorem bothRt_sides {a b : Value} {s : Sides} (h : bothRt a b = some s) : SidesOf a b s := by
  obtain ⟨l, r, hl, hr, rfl⟩ := bothRt_some h
  exact ⟨hl, hr⟩

theorem equation_sides {a b : Value} {s : Sides} (h : makeEquation a b = some s) : SidesOf a b s := by
  unfold makeEquation at h
  split at h
  · cases h
  · exact bothRt_sides h
  · exact bothRt_sides h
  · cases h
  · split at h
    · cases h; exact ⟨_, _, rfl, rfl, rfl, rfl⟩
    · exact bothRt_sides h
  · exact bothRt_sides h

theorem interval_sides {a b : Value} {s : Sides} (h : makeInterval a b = some s) : SidesOf a b s := by
  unfold makeInterval at h
  split at h
  · exact bothRt_sides h
  · cases h
  · exact bothRt_sides h
  · exact bothRt_sides h
  · exact bothRt_sides h
  · exact bothRt_sides h
  · cases h
  · exact bothRt_sides h
  · exact bothRt_sides h
  · exact bothRt_sides h
  · cases h
  · cases h
  · exact bothRt_sides h
  · split at h
    · cases h; exact ⟨_, _, rfl, rfl, rfl, rfl⟩
    · split at h
      · cases h
      · exact bothRt_sides h
  · exact bothRt_sides h

theorem equation_none (a b : Value) : makeEquation a b = none ↔ EquationFails a b := by
  cases a with
  | num x =>
    cases b with
    | num y => simp [makeEquation, EquationFails, ANumber]
    | rt c e => cases c <;> simp [makeEquation, EquationFails, ANumber, ARtConstant, ACtConstant, ACtBinary, ACtSymbol,
        ARtSymbol, bothRt_none, NoRunTimeForm]
    | mix e => cases e <;> simp [makeEquation, EquationFails, ANumber, ARtConstant, ACtConstant, ACtBinary, ACtSymbol,
        ARtSymbol, bothRt_none, NoRunTimeForm]
  | rt c e =>
    simp [makeEquation, EquationFails, ANumber, bothRt_none, ACompileTime, ACtBinary, ACtSymbol, ACtVariable, ACtConstant]
  | mix e =>
    cases b with
    | num y =>
      simp [makeEquation, EquationFails, ANumber, bothRt_none, ACompileTime, ACtBinary, ACtSymbol, ACtVariable,
        ACtConstant]
    | rt c f =>
      simp [makeEquation, EquationFails, ANumber, bothRt_none, ACompileTime, ACtBinary, ACtSymbol, ACtVariable,
        ACtConstant]
    | mix f =>
      cases e <;> cases f <;> simp [makeEquation, EquationFails, ANumber, bothRt_none, ACompileTime, ACtBinary,
        ACtSymbol, ACtVariable, ACtConstant, MixExpr.isCompiletime]

theorem interval_none (a b : Value) : makeInterval a b = none ↔ IntervalFails a b := by
  cases a with
  | num x =>
    cases b with
    | num y => simp [makeInterval, IntervalFails, ANumber, bothRt_none, NoRunTimeForm, ACtBinary, ACtSymbol, ARtSymbol,
        ACtVariable]
    | rt c e => cases c <;> simp [makeInterval, IntervalFails, ANumber, ACtBinary, ACtSymbol,
        ARtSymbol, bothRt_none, NoRunTimeForm, ACtVariable]
    | mix e => cases e <;> simp [makeInterval, IntervalFails, ANumber, ACtBinary, ACtSymbol,
        ARtSymbol, bothRt_none, NoRunTimeForm, ACtVariable]
  | rt c e =>
    simp [makeInterval, IntervalFails, ANumber, bothRt_none, ACompileTime, ACtBinary, ACtSymbol, ACtVariable, ACtConstant]
  | mix e =>
    cases b with
    | num y =>
      cases e <;> simp [makeInterval, IntervalFails, ANumber, bothRt_none, ACompileTime, ACtBinary, ACtSymbol, ACtVariable,
        ACtConstant, NoRunTimeForm, ARunTime]
    | rt c f =>
      cases e <;> simp [makeInterval, IntervalFails, ANumber, bothRt_none, ACompileTime, ACtBinary, ACtSymbol, ACtVariable,
        ACtConstant, NoRunTimeForm, ARunTime]
    | mix f =>
      cases e <;> cases f <;> simp [makeInterval, IntervalFails, ANumber, bothRt_none, ACompileTime, ACtBinary,
        ACtSymbol, ACtVariable, ACtConstant, MixExpr.isCompiletime, NoRunTimeForm, ARunTime]

/-- The compile-time expression evaluates as the formula. -/
theorem default_val {p : List ℝ} {e : MixExpr ℝ} {c : CtExpr} {x : ℝ} (hc : e.toCt = some c)
    (h : MVal (vals p) (fun _ => 0) e x) (hr : InR p.length e) (o : CtOrder) :
    callAux o (p.map some) c = .ok (some x : XReal) := by
  induction e generalizing x c with
  | const n => cases hc; rw [mval_const.1 h]; rfl
  | rc c => cases hc
  | var i =>
    cases hc
    have : ¬ p.length ≤ i := Nat.not_le.2 hr
    simp [callAux, mval_var.1 h, this, vals, Nat.lt_of_not_le this]
  | fsym t => exact hr.elim
  | bin l op r ihl ihr =>
    simp only [MixExpr.toCt, Option.bind_eq_some_iff, Option.map_eq_some_iff] at hc
    obtain ⟨c1, h1, c2, h2, rfl⟩ := hc
    obtain ⟨x1, hx1, y1, hy1, hz⟩ := mval_bin.1 h
    rw [callAux, ihl h1 hx1 hr.1, ihr h2 hy1 hr.2, Res.both_ok, apply_real hz]

theorem type_isCompiletime (e : MixExpr ℝ) : e.type.isCompiletime = e.isCompiletime := by cases e <;> rfl

theorem both_ct (a b : MixExpr ℝ) (ha : a.isCompiletime) (hb : b.isCompiletime) :
    makeEquation (.mix a) (.mix b) = some (.ct a.type b.type) ∧
    makeInterval (.mix a) (.mix b) = some (.ct a.type b.type) := by
  cases a <;> simp_all [makeEquation, makeInterval, MixExpr.isCompiletime]

theorem toCt_rt {e : MixExpr ℝ} (h : ¬ NoRtConst e) : e.toCt = none := by
  induction e with
  | rc c => rfl
  | bin l op r ihl ihr =>
    rcases Classical.not_and_iff_not_or_not.1 h with h | h
    · simp [MixExpr.toCt, ihl h]
    · simp [MixExpr.toCt, ihr h]
  | const n => exact (h trivial).elim
  | var i => exact (h trivial).elim
  | fsym t => exact (h trivial).elim

theorem inR_noSym {n : Nat} {e : MixExpr ℝ} {c : CtExpr} (hc : e.toCt = some c) (hr : InR n e) : NoSym c := by
  induction e generalizing c with
  | const n => cases hc; trivial
  | rc c => cases hc
  | var i => cases hc; trivial
  | fsym t => exact hr.elim
  | bin l op r ihl ihr =>
    simp only [MixExpr.toCt, Option.bind_eq_some_iff, Option.map_eq_some_iff] at hc
    obtain ⟨c1, h1, c2, h2, rfl⟩ := hc
    exact ⟨ihl h1 hr.1, ihr h2 hr.2⟩

theorem sidesMean {folds : Bool} {s t : Written} {a b : Value} (hs : PlainQuotients s) (ht : PlainQuotients t)
    (ha : s.build folds = some a) (hb : t.build folds = some b) {q : Sides} (hq : SidesOf a b q)
    (hc : ∀ l r, q = .ct l r → NoConstant s ∧ NoConstant t) : SidesMean s t q := by
  cases q with
  | rt l r =>
    intro p x o
    exact ⟨fun hx => (build_good hs ha hx).clone hq.1 o, fun hx => (build_good ht hb hx).clone hq.2 o⟩
  | ct l r =>
    obtain ⟨e, f, rfl, rfl, rfl, rfl⟩ := hq
    obtain ⟨n1, n2⟩ := hc _ _ rfl
    obtain ⟨c, hc⟩ := noRt_toCt (build_noRt n1 ha)
    obtain ⟨d, hd⟩ := noRt_toCt (build_noRt n2 hb)
    have key : ∀ {u : Written} {g : MixExpr ℝ} {k : CtExpr} {p : List ℝ} {x : ℝ} (o : CtOrder), PlainQuotients u →
        u.build folds = some (.mix g) → g.toCt = some k → meaning p u = some x →
        ctCall o (p.map some) k = some (.ok (some x : XReal)) := fun {u g k p x} o hu hg hk hx => by
      have := build_good hu hg hx
      rw [ctCall, if_pos (callable_iff.2 (inR_noSym hk this.2)), default_val hk this.1 this.2]
    exact ⟨c, d, by rw [defaultOf, type_toCt, hc], by rw [defaultOf, type_toCt, hd],
      fun p x o => ⟨key o hs ha hc, key o ht hb hd⟩⟩

end VM.Ct
