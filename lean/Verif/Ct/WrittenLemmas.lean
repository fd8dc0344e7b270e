import Verif.Spec.Written
import Verif.Ct.ConvertLemmas
import Verif.Props.CtOps
/-
Lemmas about formulas.
-/
namespace VM.Ct
open VM.Spec

/-- All variables are below `n`, and there are no function symbols. -/
def InR {F : Type*} (n : Nat) : MixExpr F → Prop
  | .const _ => True
  | .rc _ => True
  | .var i => i < n
  | .fsym _ => False
  | .bin l _ r => InR n l ∧ InR n r

def Built.InR {F : Type*} (n : Nat) : Built F → Prop
  | .ct e => VM.Ct.InR n e
  | .rt l _ r => VM.Ct.InR n l ∧ VM.Ct.InR n r

section
variable {F : Type*} [Field F] {n : Nat} {a b : MixExpr F} {r : Built F}

omit [Field F] in
theorem generic_inR {op : COp} (h : opGeneric a op b = some r) (ha : InR n a) (hb : InR n b) : r.InR n := by
  unfold opGeneric at h
  split at h <;> split at h <;> cases h <;> exact ⟨ha, hb⟩

theorem add_inR {folds : Bool} (h : opAdd folds a b = some r) (ha : InR n a) (hb : InR n b) : r.InR n := by
  unfold opAdd at h
  split at h
  case h_15 =>
    split at h
    · cases h; exact ⟨trivial, ha⟩
    · exact generic_inR h ha hb
  case h_16 => exact generic_inR h ha hb
  all_goals
    first
      | cases h
      | obtain rfl := withConst_some h
      | obtain rfl := withMixed_some h
    simp_all [Built.InR, InR]

theorem sub_inR {folds : Bool} (h : opSub folds a b = some r) (ha : InR n a) (hb : InR n b) : r.InR n := by
  unfold opSub at h
  split at h
  case h_10 =>
    split at h
    · cases h; exact ha.2
    · exact generic_inR h ha hb
  case h_15 =>
    split at h
    · cases h; exact trivial
    · exact generic_inR h ha hb
  case h_16 => exact generic_inR h ha hb
  all_goals
    first
      | cases h
      | obtain rfl := withConst_some h
      | obtain rfl := withMixed_some h
    simp_all [Built.InR, InR]

omit [Field F] in
theorem mul_inR (h : opMul a b = some r) (ha : InR n a) (hb : InR n b) : r.InR n := by
  unfold opMul at h
  split at h
  · obtain rfl := withConst_some h
    exact trivial
  · exact generic_inR h ha hb

omit [Field F] in
theorem div_inR (h : opDiv a b = some r) (ha : InR n a) (hb : InR n b) : r.InR n := by
  unfold opDiv at h
  split at h
  · split at h
    · cases h; exact trivial
    · exact generic_inR h ha hb
  · split at h
    · cases h; exact trivial
    · exact generic_inR h ha hb
  · exact generic_inR h ha hb

end

/-- The values of the variables. -/
noncomputable abbrev vals (p : List ℝ) : Nat → ℝ := fun i => p.getD i 0

theorem apply_real {op : COp} {x y z : ℝ} (h : PlainOp op x y z) : op.apply (some x : XReal) (some y) = some z := by
  cases op <;> simp only [PlainOp] at h
  · subst h; rfl
  · subst h; rfl
  · subst h; rfl
  · obtain ⟨h0, rfl⟩ := h
    simp [COp.apply, Num.div, XReal.div, h0]

theorem get_some {p : List ℝ} {i : Nat} (h : i < p.length) : (p.map some)[i]? = some (some (vals p i)) := by
  simp [vals, h]

theorem callMix_val {o : MixExpr ℝ → MixExpr ℝ → Bool} {p : List ℝ} {e : MixExpr ℝ} {x : ℝ}
    (h : MVal (vals p) (fun _ => 0) e x) (hr : InR p.length e) : callMix o (p.map some) e = .ok (some x) := by
  induction e generalizing x with
  | const n => rw [mval_const.1 h]; rfl
  | rc c => rw [mval_rc.1 h]; rfl
  | var i =>
    rw [mval_var.1 h, callMix, if_neg (by rw [List.length_map]; exact Nat.not_le.2 hr), get_some hr]
  | fsym t => exact hr.elim
  | bin l op r ihl ihr =>
    obtain ⟨a, ha, b, hb, h⟩ := mval_bin.1 h
    rw [callMix, ihl ha hr.1, ihr hb hr.2, Res.both_ok, apply_real h]

/-- The same for the run-time expression it converts to. -/
theorem image_val {o : Order XReal} {p : List ℝ} {e : MixExpr ℝ} {c : CtExpr} {x : ℝ} (hc : e.toCt = some c)
    (h : MVal (vals p) (fun _ => 0) e x) (hr : InR p.length e) :
    eval o (p.map some) (image c) = .ok (some x) := by
  induction e generalizing x c with
  | const n => cases hc; rw [mval_const.1 h]; rfl
  | rc c => cases hc
  | var i => cases hc; rw [mval_var.1 h, image, eval, get_some hr]
  | fsym t => exact hr.elim
  | bin l op r ihl ihr =>
    obtain ⟨a, ha, b, hb, h⟩ := mval_bin.1 h
    simp only [MixExpr.toCt, Option.bind_eq_some_iff, Option.map_eq_some_iff] at hc
    obtain ⟨l', hl, r', hr', rfl⟩ := hc
    rw [image, eval, ihl hl ha hr.1, ihr hr' hb hr.2, Res.both_ok, applyB_toRt, apply_real h]

theorem mixToRt_val {o : Order XReal} {p : List ℝ} {e : MixExpr ℝ} {e' : Expr XReal} {x : ℝ} (he : mixToRt e = some e')
    (h : MVal (vals p) (fun _ => 0) e x) (hr : InR p.length e) : eval o (p.map some) e' = .ok (some x) := by
  have key : ∀ {e'}, (e.toCt.bind toRt) = some e' → eval o (p.map some) e' = .ok (some x) := by
    intro e' he
    obtain ⟨c, hc, he⟩ := Option.bind_eq_some_iff.1 he
    rw [(toRt_some he).2]
    exact image_val hc h hr
  cases e with
  | rc c => cases he; rw [mval_rc.1 h]; rfl
  | _ => exact key he

/-- What was built has the value `y` at `p`. -/
def Good (p : List ℝ) (y : ℝ) : Value → Prop
  | .num x => x = some y
  | .mix e => MVal (vals p) (fun _ => 0) e y ∧ InR p.length e
  | .rt _ e => ∀ o, eval o (p.map some) e = .ok (some y)

theorem Good.at {p : List ℝ} {y : ℝ} {v : Value} (h : Good p y v) (o : MixExpr ℝ → MixExpr ℝ → Bool)
    (o' : Order XReal) : v.at' o o' (p.map some) = .ok (some y) := by
  cases v with
  | num x => rw [show x = some y from h]; rfl
  | mix e => exact callMix_val h.1 h.2
  | rt c e => exact h o'

theorem Good.clone {p : List ℝ} {y : ℝ} {v : Value} (h : Good p y v) {e : Expr XReal} (he : v.clone = some e)
    (o : Order XReal) : eval o (p.map some) e = .ok (some y) := by
  cases v with
  | num x => cases he; rw [show x = some y from h]; rfl
  | mix e => exact mixToRt_val he h.1 h.2
  | rt c e => cases he; exact h o

theorem good_bin {p : List ℝ} {op : COp} {x y z : ℝ} {l r : Expr XReal} (h : PlainOp op x y z)
    (hl : ∀ o, eval o (p.map some) l = .ok (some x)) (hr : ∀ o, eval o (p.map some) r = .ok (some y)) :
    Good p z (.rt .binary (.bin op.toRt l r)) := by
  intro o
  rw [eval, hl, hr, Res.both_ok, applyB_toRt, apply_real h]

theorem Built.good {p : List ℝ} {r : Built ℝ} {y : ℝ} {v : Value} (h : BVal (vals p) (fun _ => 0) r y)
    (hr : r.InR p.length) (hv : r.value = some v) : Good p y v := by
  cases h with
  | ct h => cases hv; exact ⟨h, hr⟩
  | rt hl hr' h =>
    simp only [Built.value, Option.bind_eq_some_iff, Option.map_eq_some_iff] at hv
    obtain ⟨l', h1, r', h2, rfl⟩ := hv
    exact good_bin h (fun o => mixToRt_val h1 hl hr.1) (fun o => mixToRt_val h2 hr' hr.2)

theorem operate_good {folds : Bool} {p : List ℝ} {op : COp} {a b v : Value} {x y z : ℝ} (ha : Good p x a)
    (hb : Good p y b) (h : PlainOp op x y z)
    (hd : op = .div → ∀ e f, a = .mix e → b = .mix f → NoRtConst e ∨ NoRtConst f)
    (hv : operate folds op a b = some v) : Good p z v := by
  have gen : (a.clone.bind fun l => b.clone.map fun r => .rt .binary (.bin op.toRt l r)) = some v → Good p z v := by
    intro hv
    simp only [Option.bind_eq_some_iff, Option.map_eq_some_iff] at hv
    obtain ⟨l, hl, r, hr, rfl⟩ := hv
    exact good_bin h (fun o => ha.clone hl o) (fun o => hb.clone hr o)
  cases a <;> cases b <;> try exact gen hv
  · cases hv
    rw [show _ = some x from ha, show _ = some y from hb]
    exact apply_real h
  · rename_i e f
    simp only [operate, Option.bind_eq_some_iff] at hv
    obtain ⟨r, hr, hv⟩ := hv
    cases op with
    | plus => exact Built.good (Props.C43_add folds e f r hr _ _ _ _ _ ha.1 hb.1 h) (add_inR hr ha.2 hb.2) hv
    | minus => exact Built.good (Props.C43_sub folds e f r hr _ _ _ _ _ ha.1 hb.1 h) (sub_inR hr ha.2 hb.2) hv
    | mult => exact Built.good (Props.C43_mul e f r hr _ _ _ _ _ ha.1 hb.1 h) (mul_inR hr ha.2 hb.2) hv
    | div =>
      exact Built.good (Props.C43_div_partial e f (hd rfl e f rfl rfl) r hr _ _ _ _ _ ha.1 hb.1 h)
        (div_inR hr ha.2 hb.2) hv

theorem fn_real {f : Fn} {x y : ℝ} (h : realFn f x = some y) : Num.fn f (some x : XReal) = some y := by
  cases f <;> simp only [realFn] at h <;> simp only [Num.fn, XReal.fn]
  case tan => exact h
  case sqrt => split at h <;> simp_all [not_lt.2]
  case log => split at h <;> simp_all [not_le.2]
  case log10 => split at h <;> simp_all [not_le.2]
  all_goals exact h

theorem good_fn {p : List ℝ} {f : Fn} {x y : ℝ} {e : Expr XReal} (h : realFn f x = some y)
    (he : ∀ o, eval o (p.map some) e = .ok (some x)) : Good p y (.rt .unary (.un (.fn f) e)) := by
  intro o
  rw [eval, he]
  have := fn_real h
  cases f <;> simp_all [Res.bind, applyU, applyFn, realFn]

theorem callFn_good {p : List ℝ} {f : Fn} {a v : Value} {x y : ℝ} (ha : Good p x a) (h : realFn f x = some y)
    (hv : callFn f a = some v) : Good p y v := by
  cases a with
  | num x' =>
    simp only [callFn] at hv
    split at hv <;> cases hv
    rw [show x' = some x from ha]
    exact fn_real h
  | mix e =>
    simp only [callFn] at hv
    split at hv
    · cases hv
    · split at hv
      · cases hv
        exact good_fn h fun o => by rw [mval_rc.1 ha.1]; rfl
      · cases hv
        exact good_fn h fun o => by rw [mval_var.1 ha.1, eval, get_some ha.2]
      · obtain ⟨e', he, rfl⟩ := Option.map_eq_some_iff.1 hv
        exact good_fn h fun o => mixToRt_val (e := .bin _ _ _) he ha.1 ha.2
      · cases hv
  | rt c e =>
    simp only [callFn] at hv
    split at hv
    · cases hv
    · split at hv
      · cases hv
      · split at hv
        · cases hv
        · cases hv
          exact good_fn h ha

/-- Without run-time constants in the formula there are none in what is built. -/
theorem build_noRt {folds : Bool} {t : Written} {e : MixExpr ℝ} (ht : NoConstant t)
    (h : t.build folds = some (.mix e)) : NoRtConst e := by
  induction t generalizing e with
  | num x => cases h
  | rc x => exact ht.elim
  | cc n => cases h; trivial
  | cv i => cases h; trivial
  | rv i => cases h
  | expr t _ =>
    simp only [Written.build, Option.bind_eq_some_iff, Option.map_eq_some_iff] at h
    obtain ⟨_, _, _, _, h⟩ := h
    cases h
  | fn f t _ =>
    simp only [Written.build, Option.bind_eq_some_iff] at h
    obtain ⟨w, -, h⟩ := h
    cases w <;> simp only [callFn] at h
    · split at h <;> cases h
    · split at h
      · cases h
      · split at h
        · cases h
        · cases h
        · obtain ⟨_, _, h⟩ := Option.map_eq_some_iff.1 h
          cases h
        · cases h
    · split at h
      · cases h
      · split at h
        · cases h
        · split at h <;> cases h
  | bin op a b iha ihb =>
    simp only [Written.build, Option.bind_eq_some_iff] at h
    obtain ⟨u, hu, w, hw, h⟩ := h
    have gen : (u.clone.bind fun l => w.clone.map fun r => Value.rt .binary (.bin op.toRt l r)) = some (.mix e) → False := by
      intro h
      simp only [Option.bind_eq_some_iff, Option.map_eq_some_iff] at h
      obtain ⟨_, _, _, _, h⟩ := h
      cases h
    cases u <;> cases w <;> try exact (gen h).elim
    · cases h
    · rename_i c d
      simp only [operate, Option.bind_eq_some_iff] at h
      obtain ⟨r, hr, h⟩ := h
      cases r with
      | rt l op r =>
        simp only [Built.value, Option.bind_eq_some_iff, Option.map_eq_some_iff] at h
        obtain ⟨_, _, _, _, h⟩ := h
        cases h
      | ct e' =>
        cases h
        refine Props.C43_no_constants folds c d e (iha ht.1 hu) (ihb ht.2 hw) ?_
        cases op
        · exact .inl hr
        · exact .inr (.inl hr)
        · exact .inr (.inr (.inl hr))
        · exact .inr (.inr (.inr hr))

theorem plain_meaning {p : List ℝ} {op : COp} {a b : Written} {z : ℝ} (h : meaning p (.bin op a b) = some z) :
    ∃ x y, meaning p a = some x ∧ meaning p b = some y ∧ PlainOp op x y z := by
  simp only [meaning, Option.bind_eq_some_iff] at h
  obtain ⟨x, hx, y, hy, h⟩ := h
  refine ⟨x, y, hx, hy, ?_⟩
  cases op <;> simp_all [PlainOp]

theorem plainQuotients_bin {op : COp} {a b : Written} (h : PlainQuotients (.bin op a b)) :
    PlainQuotients a ∧ PlainQuotients b ∧ (op = .div → NoConstant a ∨ NoConstant b) := by
  cases op <;> simp_all [PlainQuotients]

theorem build_good {folds : Bool} {t : Written} {v : Value} {p : List ℝ} {y : ℝ} (ht : PlainQuotients t)
    (h : t.build folds = some v) (hy : meaning p t = some y) : Good p y v := by
  induction t generalizing v y with
  | num x => cases h; cases hy; rfl
  | rc x => cases h; cases hy; exact ⟨.rc _, trivial⟩
  | cc n => cases h; cases hy; exact ⟨.const _, trivial⟩
  | cv i =>
    cases h
    obtain ⟨hi, rfl⟩ := List.getElem?_eq_some_iff.1 hy
    exact ⟨mval_var.2 (by simp [vals, hi]), hi⟩
  | rv i =>
    cases h
    obtain ⟨hi, rfl⟩ := List.getElem?_eq_some_iff.1 hy
    intro o
    rw [eval, get_some hi]
    simp [vals, hi]
  | expr t ih =>
    simp only [Written.build, Option.bind_eq_some_iff, Option.map_eq_some_iff] at h
    obtain ⟨w, hw, e, he, rfl⟩ := h
    exact fun o => (ih ht hw hy).clone he o
  | fn f t ih =>
    simp only [Written.build, meaning, Option.bind_eq_some_iff] at h hy
    obtain ⟨w, hw, h⟩ := h
    obtain ⟨x, hx, hy⟩ := hy
    exact callFn_good (ih ht hw hx) hy h
  | bin op a b iha ihb =>
    obtain ⟨x, z, hx, hz, hp⟩ := plain_meaning hy
    obtain ⟨ha, hb, hd⟩ := plainQuotients_bin ht
    simp only [Written.build, Option.bind_eq_some_iff] at h
    obtain ⟨u, hu, w, hw, h⟩ := h
    refine operate_good (iha ha hu hx) (ihb hb hw hz) hp (fun hop e f h1 h2 => ?_) h
    subst h1 h2
    exact (hd hop).imp (build_noRt · hu) (build_noRt · hw)

/-! Which run-time formulas compile. -/

/-- The static type of what a run-time formula builds. -/
def Typed (t : Written) : Value → Prop
  | .num _ => IsNumber t
  | .mix _ => False
  | .rt c _ => ¬ IsNumber t ∧ (c = .unary ↔ Call t) ∧ c ≠ .fsym

theorem build_runTime {folds : Bool} {t : Written} (ht : RunTime t) :
    (ExpOfCall t → t.build folds = none) ∧ (¬ ExpOfCall t → ∃ v, t.build folds = some v ∧ Typed t v) := by
  induction t with
  | num x => exact ⟨False.elim, fun _ => ⟨_, rfl, trivial⟩⟩
  | rc x => exact ht.elim
  | cc n => exact ht.elim
  | cv i => exact ht.elim
  | rv i => exact ⟨False.elim, fun _ => ⟨_, rfl, id, by simp [Call]⟩⟩
  | expr t ih =>
    obtain ⟨h1, h2⟩ := ih ht
    refine ⟨fun h => by rw [Written.build, h1 h]; rfl, fun h => ?_⟩
    obtain ⟨v, hv, hty⟩ := h2 h
    have : ∃ e, v.clone = some e := by
      cases v with
      | num x => exact ⟨_, rfl⟩
      | mix e => exact hty.elim
      | rt c e => exact ⟨_, rfl⟩
    obtain ⟨e, he⟩ := this
    refine ⟨.rt .expr e, by rw [Written.build, hv, Option.bind_some, he]; rfl, id, by simp [Call]⟩
  | fn f t ih =>
    obtain ⟨hf, ht⟩ := ht
    obtain ⟨h1, h2⟩ := ih ht
    by_cases hx : ExpOfCall t
    · exact ⟨fun _ => by rw [Written.build, h1 hx]; rfl, fun h => (h (.inr hx)).elim⟩
    · obtain ⟨v, hv, hty⟩ := h2 hx
      rw [Written.build, hv, Option.bind_some]
      cases v with
      | num x =>
        have hn : IsNumber t := hty
        refine ⟨fun h => ?_, fun _ => ⟨.num (Num.fn f x), by simp [callFn, hf], hn⟩⟩
        obtain ⟨-, h⟩ | h := h
        · cases t <;> simp_all [Call, IsNumber]
        · exact (hx h).elim
      | mix e => exact hty.elim
      | rt c e =>
        refine ⟨fun h => ?_, fun h => ⟨.rt .unary (.un (.fn f) e), ?_, hty.1, by simp [Call, hty.1]⟩⟩
        · obtain ⟨rfl, h⟩ | h := h
          · simp [callFn, hty.2.1.2 h]
          · exact (hx h).elim
        · have : ¬ (f = .exp ∧ c = .unary) := fun ⟨h1, h2⟩ => h (.inl ⟨h1, hty.2.1.1 h2⟩)
          simp [callFn, hf, this, hty.2.2]
  | bin op a b iha ihb =>
    obtain ⟨a1, a2⟩ := iha ht.1
    obtain ⟨b1, b2⟩ := ihb ht.2
    by_cases ha : ExpOfCall a
    · exact ⟨fun _ => by rw [Written.build, a1 ha]; rfl, fun h => (h (.inl ha)).elim⟩
    by_cases hb : ExpOfCall b
    · refine ⟨fun _ => ?_, fun h => (h (.inr hb)).elim⟩
      rw [Written.build, b1 hb]
      cases a.build folds <;> rfl
    obtain ⟨u, hu, hu'⟩ := a2 ha
    obtain ⟨w, hw, hw'⟩ := b2 hb
    refine ⟨fun h => (h.elim ha hb).elim, fun _ => ?_⟩
    rw [Written.build, hu, hw, Option.bind_some, Option.bind_some]
    cases u <;> cases w <;> simp_all [Typed, operate, Value.clone, IsNumber, Call]

end VM.Ct
