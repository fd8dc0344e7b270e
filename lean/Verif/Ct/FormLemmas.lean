import Verif.Spec.Form
import Verif.Ct.WrittenLemmas
/-
Lemmas about integrands as they are written.
-/
namespace VM.Ct
open VM.Spec

theorem allOf_eq_some {α : Type} {d : Nat} {f : Fin d → Option α} {g : Fin d → α} :
    allOf f = some g ↔ ∀ i, f i = some (g i) := by
  unfold allOf
  constructor
  · intro h i
    split at h
    · cases h; simp
    · cases h
  · intro h
    rw [dif_pos (fun i => by rw [h i]; rfl)]
    congr 1
    funext i
    simp [h i]

theorem allOf_isSome {α : Type} {d : Nat} {f : Fin d → Option α} : (allOf f).isSome ↔ ∀ i, (f i).isSome := by
  unfold allOf
  split <;> simp_all

section
variable {d : Nat} {f : Fin 2 → (Fin d → ℝ) → ℝ} {p : Fin d → ℝ}

/-- The object built agrees with the meaning. -/
def Agrees (f : Fin 2 → (Fin d → ℝ) → ℝ) (p : Fin d → ℝ) : Kind → FVal d → Mean d → Prop
  | .num, .obj (.num x), .num a => x = some a
  | .num, .obj (.mix e), .num a => e = .rc a
  | .num, .obj (.rt _ e), .num a => WeakVal f p e a
  | .vec, .vec es, .vec x => ∀ i, WeakVal f p (es i) (x i)
  | .inExpr, .obj (.rt _ e), .vec x => 2 ≤ d ∧ ∃ ls, Entries d e ls ∧
      ∀ (i : Fin d) e', ls[(i : Nat)]? = some e' → WeakVal f p e' (x i)
  | _, _, _ => False

theorem Agrees.num {v : FVal d} {m : Mean d} (h : Agrees f p .num v m) :
    ∃ u a, v = .obj u ∧ m = .num a ∧ ∃ e, u.clone = some e ∧ WeakVal f p e a := by
  cases v with
  | vec es => cases m <;> exact h.elim
  | obj u =>
    cases m with
    | vec x => cases u <;> exact h.elim
    | num a =>
      refine ⟨u, a, rfl, rfl, ?_⟩
      cases u with
      | num x => obtain rfl : x = some a := h; exact ⟨_, rfl, .const a⟩
      | mix e => obtain rfl : e = .rc a := h; exact ⟨_, rfl, .const a⟩
      | rt c e => exact ⟨e, rfl, h⟩

theorem Agrees.vec {v : FVal d} {m : Mean d} (h : Agrees f p .vec v m) :
    ∃ es x, v = .vec es ∧ m = .vec x ∧ ∀ i, WeakVal f p (es i) (x i) := by
  cases v with
  | obj u => cases u <;> cases m <;> exact h.elim
  | vec es =>
    cases m with
    | num a => exact h.elim
    | vec x => exact ⟨es, x, rfl, rfl, h⟩

theorem Agrees.inExpr {v : FVal d} {m : Mean d} (h : Agrees f p .inExpr v m) :
    ∃ c e x, v = .obj (.rt c e) ∧ m = .vec x ∧ 2 ≤ d ∧ ∃ ls, Entries d e ls ∧
      ∀ (i : Fin d) e', ls[(i : Nat)]? = some e' → WeakVal f p e' (x i) := by
  cases v with
  | vec es => cases m <;> exact h.elim
  | obj u =>
    cases m with
    | num a => cases u <;> exact h.elim
    | vec x =>
      cases u with
      | num x => exact h.elim
      | mix e => exact h.elim
      | rt c e => exact ⟨c, e, x, rfl, rfl, h⟩

theorem Agrees.of {e : Expr XReal} {a : ℝ} (h : WeakVal f p e a) : Agrees f p .num (.obj (.rt .expr e)) (.num a) := h

theorem realOp_toRt (op : COp) (a b : ℝ) : realOp op.toRt a b = realCOp op a b := by
  cases op <;> rfl

theorem realCOp_apply {op : COp} {a b c : ℝ} (h : realCOp op a b = some c) : op.apply (some a : XReal) (some b) = some c := by
  cases op <;> simp only [realCOp, realOp] at h
  · cases h; rfl
  · cases h; rfl
  · cases h; rfl
  · split at h
    · cases h
    · cases h; simp_all [COp.apply, Num.div, XReal.div]

/-- The operators on numbers and expressions. -/
theorem operate_agrees {folds : Bool} {op : COp} {u w v : Value} {a b c : ℝ}
    (hu : Agrees f p .num (.obj u) (.num a)) (hw : Agrees f p .num (.obj w) (.num b)) (hc : realCOp op a b = some c)
    (h : operate folds op u w = some v) : Agrees f p .num (.obj v) (.num c) := by
  have gen : (u.clone.bind fun l => w.clone.map fun r => .rt .binary (.bin op.toRt l r)) = some v →
      Agrees f p .num (.obj v) (.num c) := by
    intro h
    simp only [Option.bind_eq_some_iff, Option.map_eq_some_iff] at h
    obtain ⟨l, hl, r, hr, rfl⟩ := h
    obtain ⟨_, _, hu1, hu2, l', hl', hul⟩ := hu.num
    obtain ⟨_, _, hw1, hw2, r', hr', hwr⟩ := hw.num
    cases hu1; cases hu2; cases hw1; cases hw2
    rw [hl] at hl'; rw [hr] at hr'
    cases hl'; cases hr'
    exact .op hul hwr (by rw [realOp_toRt, hc])
  cases u <;> cases w <;> try exact gen h
  · cases h
    rw [show _ = some a from hu, show _ = some b from hw]
    exact realCOp_apply hc
  · rename_i e e'
    obtain rfl : e = .rc a := hu
    obtain rfl : e' = .rc b := hw
    refine gen ?_
    cases op <;> simpa [operate, opAdd, opSub, opMul, opDiv, opGeneric, MixExpr.isCompiletime, MixExpr.cloneable, Built.value,
      Value.clone] using h

theorem callFn_agrees {g : Fn} {u v : Value} {a b : ℝ} (hu : Agrees f p .num (.obj u) (.num a)) (hb : realFn g a = some b)
    (h : callFn g u = some v) : Agrees f p .num (.obj v) (.num b) := by
  cases u with
  | num x =>
    obtain rfl : x = some a := hu
    simp only [callFn] at h
    split at h <;> cases h
    exact fn_real hb
  | mix e =>
    obtain rfl : e = .rc a := hu
    simp only [callFn] at h
    split at h <;> cases h
    exact .fn (.const a) hb
  | rt c e =>
    simp only [callFn] at h
    split at h
    · cases h
    · split at h
      · cases h
      · split at h
        · cases h
        · cases h
          exact .fn hu hb

theorem entrywise_agrees {g : Fin d → Option Value} {v : FVal d} {x : Fin d → ℝ} (h : entrywise g = some v)
    (hg : ∀ i u, g i = some u → Agrees f p .num (.obj u) (.num (x i))) : Agrees f p .vec v (.vec x) := by
  simp only [entrywise, Option.map_eq_some_iff, allOf_eq_some, Option.bind_eq_some_iff] at h
  obtain ⟨es, hes, rfl⟩ := h
  intro i
  obtain ⟨u, hu, he⟩ := hes i
  obtain ⟨_, _, h1, h2, e, h3, h4⟩ := (hg i u hu).num
  cases h1; cases h2
  rw [he] at h3
  cases h3
  exact h4

theorem dotFrom_val : ∀ (n : Nat) (acc : Expr XReal) (c : ℝ) (a b : Fin n → Expr XReal) (x y : Fin n → ℝ),
    WeakVal f p acc c → (∀ i, WeakVal f p (a i) (x i)) → (∀ i, WeakVal f p (b i) (y i)) →
    WeakVal f p (dotFrom acc (List.ofFn a) (List.ofFn b)) (c + ∑ i, x i * y i) := by
  intro n
  induction n with
  | zero => intro acc c a b x y h _ _; simpa [dotFrom] using h
  | succ n ih =>
    intro acc c a b x y h ha hb
    rw [List.ofFn_succ, List.ofFn_succ, dotFrom, Fin.sum_univ_succ, ← add_assoc]
    exact ih _ _ _ _ _ _ (.op h (.op (ha 0) (hb 0) rfl) rfl) (fun i => ha i.succ) (fun i => hb i.succ)

theorem dot_val {e : Expr XReal} {a b : Fin d → Expr XReal} {x y : Fin d → ℝ}
    (ha : ∀ i, WeakVal f p (a i) (x i)) (hb : ∀ i, WeakVal f p (b i) (y i))
    (h : dot (List.ofFn a) (List.ofFn b) = .ok e) : WeakVal f p e (∑ i, x i * y i) := by
  cases d with
  | zero => simp [dot] at h
  | succ n =>
    rw [List.ofFn_succ, List.ofFn_succ, dot, if_pos (by simp)] at h
    cases h
    rw [Fin.sum_univ_succ]
    exact dotFrom_val n _ _ _ _ _ _ (.op (ha 0) (hb 0) rfl) (fun i => ha i.succ) (fun i => hb i.succ)

/-- What is built agrees with what is meant. -/
theorem build_agrees {folds : Bool} {w : Form d} {k : Kind} (hk : Direct w k) : ∀ {v : FVal d} {m : Mean d},
    w.build folds = some v → Means f p w m → Agrees f p k v m := by
  induction hk with
  | number x => intro v m h hm; cases h; cases hm; rfl
  | rc x => intro v m h hm; cases h; cases hm; rfl
  | rv i => intro v m h hm; cases h; cases hm; exact .var _
  | sym t => intro v m h hm; cases h; cases hm; exact .sym _
  | vec _ ih =>
    intro v m h hm
    cases hm with
    | vec hm =>
      simp only [Form.build, Option.map_eq_some_iff, allOf_eq_some, Option.bind_eq_some_iff] at h
      obtain ⟨es, hes, rfl⟩ := h
      intro i
      obtain ⟨u, hu, he⟩ := hes i
      obtain ⟨_, _, rfl, h2, e, h3, h4⟩ := (ih i hu (hm i)).num
      cases h2
      simp only [FVal.clone, h3, Option.some.injEq] at he
      rw [← he]
      exact h4
  | expr _ ih =>
    intro v m h hm
    cases hm with
    | expr hm =>
      simp only [Form.build, Option.bind_eq_some_iff, Option.map_eq_some_iff] at h
      obtain ⟨w, hw, e, he, rfl⟩ := h
      obtain ⟨_, _, rfl, rfl, e', h3, h4⟩ := (ih hw hm).num
      simp only [FVal.clone, h3, Option.some.injEq] at he
      subst he
      exact h4
  | exprVec h2 _ ih =>
    intro v m h hm
    cases hm with
    | expr hm =>
      simp only [Form.build, Option.bind_eq_some_iff, Option.map_eq_some_iff] at h
      obtain ⟨w, hw, e, he, rfl⟩ := h
      obtain ⟨es, x, rfl, rfl, h3⟩ := (ih hw hm).vec
      cases he
      refine ⟨h2, _, .vec (by simp), fun i e' he' => ?_⟩
      simp only [List.getElem?_ofFn, i.2, dif_pos, Option.some.injEq] at he'
      rw [← he']
      exact h3 i
  | exprIn _ ih =>
    intro v m h hm
    cases hm with
    | expr hm =>
      simp only [Form.build, Option.bind_eq_some_iff, Option.map_eq_some_iff] at h
      obtain ⟨w, hw, e, he, rfl⟩ := h
      obtain ⟨c, e', x, rfl, rfl, h3⟩ := (ih hw hm).inExpr
      cases he
      exact h3
  | op _ _ ihs iht =>
    intro v m h hm
    simp only [Form.build, Option.bind_eq_some_iff] at h
    obtain ⟨a, ha, b, hb, h⟩ := h
    cases hm with
    | op hs ht hc =>
      have h1 := ihs ha hs
      have h2 := iht hb ht
      obtain ⟨_, _, rfl, -⟩ := h1.num
      obtain ⟨_, _, rfl, -⟩ := h2.num
      simp only [operateF, Option.map_eq_some_iff] at h
      obtain ⟨u, hu, rfl⟩ := h
      exact operate_agrees h1 h2 hc hu
    | add hs ht => obtain ⟨_, _, _, h, _⟩ := (ihs ha hs).num; cases h
    | sub hs ht => obtain ⟨_, _, _, h, _⟩ := (ihs ha hs).num; cases h
    | scaleL hs ht => obtain ⟨_, _, _, h, _⟩ := (iht hb ht).num; cases h
    | scaleR hs ht => obtain ⟨_, _, _, h, _⟩ := (ihs ha hs).num; cases h
    | quot hs ht => obtain ⟨_, _, _, h, _⟩ := (ihs ha hs).num; cases h
    | dot hs ht => obtain ⟨_, _, _, h, _⟩ := (ihs ha hs).num; cases h
  | add _ _ ihs iht =>
    intro v m h hm
    simp only [Form.build, Option.bind_eq_some_iff] at h
    obtain ⟨a, ha, b, hb, h⟩ := h
    cases hm with
    | op hs ht hc => obtain ⟨_, _, _, h, _⟩ := (ihs ha hs).vec; cases h
    | add hs ht =>
      obtain ⟨_, _, rfl, h1, h2⟩ := (ihs ha hs).vec
      obtain ⟨_, _, rfl, h3, h4⟩ := (iht hb ht).vec
      cases h1; cases h3
      exact entrywise_agrees h fun i u hu => operate_agrees (.of (h2 i)) (.of (h4 i)) rfl hu
  | sub _ _ ihs iht =>
    intro v m h hm
    simp only [Form.build, Option.bind_eq_some_iff] at h
    obtain ⟨a, ha, b, hb, h⟩ := h
    cases hm with
    | op hs ht hc => obtain ⟨_, _, _, h, _⟩ := (ihs ha hs).vec; cases h
    | sub hs ht =>
      obtain ⟨_, _, rfl, h1, h2⟩ := (ihs ha hs).vec
      obtain ⟨_, _, rfl, h3, h4⟩ := (iht hb ht).vec
      cases h1; cases h3
      exact entrywise_agrees h fun i u hu => operate_agrees (.of (h2 i)) (.of (h4 i)) rfl hu
  | scaleL _ _ ihs iht =>
    intro v m h hm
    simp only [Form.build, Option.bind_eq_some_iff] at h
    obtain ⟨a, ha, b, hb, h⟩ := h
    cases hm with
    | op hs ht hc => obtain ⟨_, _, _, h, _⟩ := (iht hb ht).vec; cases h
    | scaleL hs ht =>
      have h0 := ihs ha hs
      obtain ⟨_, _, rfl, -⟩ := h0.num
      obtain ⟨_, _, rfl, h3, h4⟩ := (iht hb ht).vec
      cases h3
      exact entrywise_agrees h fun i u hu => operate_agrees h0 (.of (h4 i)) rfl hu
    | scaleR hs ht => obtain ⟨_, _, _, h, _⟩ := (ihs ha hs).num; cases h
    | dot hs ht => obtain ⟨_, _, _, h, _⟩ := (ihs ha hs).num; cases h
  | scaleR _ _ ihs iht =>
    intro v m h hm
    simp only [Form.build, Option.bind_eq_some_iff] at h
    obtain ⟨a, ha, b, hb, h⟩ := h
    cases hm with
    | op hs ht hc => obtain ⟨_, _, _, h, _⟩ := (ihs ha hs).vec; cases h
    | scaleL hs ht => obtain ⟨_, _, _, h, _⟩ := (ihs ha hs).vec; cases h
    | scaleR hs ht =>
      obtain ⟨_, _, rfl, h3, h4⟩ := (ihs ha hs).vec
      have h0 := iht hb ht
      obtain ⟨_, _, rfl, -⟩ := h0.num
      cases h3
      exact entrywise_agrees h fun i u hu => operate_agrees (.of (h4 i)) h0 rfl hu
    | dot hs ht => obtain ⟨_, _, _, h, _⟩ := (iht hb ht).num; cases h
  | quot _ _ ihs iht =>
    intro v m h hm
    simp only [Form.build, Option.bind_eq_some_iff] at h
    obtain ⟨a, ha, b, hb, h⟩ := h
    cases hm with
    | op hs ht hc => obtain ⟨_, _, _, h, _⟩ := (ihs ha hs).vec; cases h
    | quot hs ht hne =>
      obtain ⟨_, _, rfl, h3, h4⟩ := (ihs ha hs).vec
      have h0 := iht hb ht
      obtain ⟨_, _, rfl, -⟩ := h0.num
      cases h3
      exact entrywise_agrees h fun i u hu => operate_agrees (.of (h4 i)) h0 (by simp [realCOp, realOp, hne]) hu
  | dotVec _ _ ihs iht =>
    intro v m h hm
    simp only [Form.build, Option.bind_eq_some_iff] at h
    obtain ⟨a, ha, b, hb, h⟩ := h
    cases hm with
    | op hs ht hc => obtain ⟨_, _, _, h, _⟩ := (ihs ha hs).vec; cases h
    | scaleL hs ht => obtain ⟨_, _, _, h, _⟩ := (ihs ha hs).vec; cases h
    | scaleR hs ht => obtain ⟨_, _, _, h, _⟩ := (iht hb ht).vec; cases h
    | dot hs ht =>
      obtain ⟨_, _, rfl, h1, h2⟩ := (ihs ha hs).vec
      obtain ⟨_, _, rfl, h3, h4⟩ := (iht hb ht).vec
      cases h1; cases h3
      simp only [operateF] at h
      split at h
      · rename_i e he
        cases h
        exact dot_val h2 h4 he
      · cases h
  | dotIn _ _ ihs iht =>
    intro v m h hm
    simp only [Form.build, Option.bind_eq_some_iff] at h
    obtain ⟨a, ha, b, hb, h⟩ := h
    cases hm with
    | op hs ht hc => obtain ⟨_, _, _, _, h, _⟩ := (ihs ha hs).inExpr; cases h
    | scaleL hs ht => obtain ⟨_, _, _, _, h, _⟩ := (ihs ha hs).inExpr; cases h
    | scaleR hs ht => obtain ⟨_, _, _, _, h, _⟩ := (iht hb ht).inExpr; cases h
    | dot hs ht =>
      obtain ⟨_, _, _, rfl, h1, hd, ls, h2, h3⟩ := (ihs ha hs).inExpr
      obtain ⟨_, _, _, rfl, h4, -, rs, h5, h6⟩ := (iht hb ht).inExpr
      cases h1; cases h4; cases h
      exact .dot _ _ hd h2 h5 h3 h6
  | fn _ _ ih =>
    intro v m h hm
    cases hm with
    | fn hm hb =>
      simp only [Form.build, Option.bind_eq_some_iff] at h
      obtain ⟨w, hw, h⟩ := h
      have h0 := ih hw hm
      obtain ⟨_, _, rfl, -⟩ := h0.num
      simp only [callFnF, Option.map_eq_some_iff] at h
      obtain ⟨u, hu, rfl⟩ := h
      exact callFn_agrees h0 hb hu
  | gradOne t hd =>
    intro v m h hm
    cases h
    cases hm with
    | gradOne h t => exact .grad h t
    | grad t h => omega
  | grad t hd =>
    intro v m h hm
    cases h
    cases hm with
    | gradOne h t => omega
    | grad t h =>
      refine ⟨hd, _, .grad t, fun i e' he' => ?_⟩
      rw [List.getElem?_map, List.getElem?_range i.2] at he'
      cases he'
      exact .pd i t
  | div t => intro v m h hm; cases h; cases hm; exact .div _
  | diff t i => intro v m h hm; cases h; cases hm; exact .pd _ _

end

/-! Which formulas compile. -/

section
variable {d : Nat}

/-- The static type of what is built. -/
def TypedF (w : Form d) : Kind → FVal d → Prop
  | .num, .obj (.num _) => Form.IsNumber w
  | .num, .obj (.mix e) => (∃ c, e = .rc c) ∧ ¬ Form.IsNumber w ∧ ¬ Form.Call w ∧ ∀ s, w ≠ .sym s
  | .num, .obj (.rt c _) => ¬ Form.IsNumber w ∧ (c = .unary ↔ Form.Call w) ∧ (c = .fsym ↔ ∃ s, w = .sym s)
  | .vec, .vec _ => ¬ Form.IsNumber w
  | .inExpr, .obj (.rt _ _) => ¬ Form.IsNumber w
  | _, _ => False

theorem TypedF.num {w : Form d} {v : FVal d} (h : TypedF w .num v) :
    ∃ u, v = .obj u ∧ (∃ e, u.clone = some e) ∧ ∀ e, u = .mix e → ∃ c, e = .rc c := by
  cases v with
  | vec es => exact h.elim
  | obj u =>
    refine ⟨u, rfl, ?_⟩
    cases u with
    | num x => exact ⟨⟨_, rfl⟩, nofun⟩
    | mix e =>
      obtain ⟨c, rfl⟩ := h.1
      exact ⟨⟨_, rfl⟩, fun e he => by cases he; exact ⟨c, rfl⟩⟩
    | rt c e => exact ⟨⟨_, rfl⟩, nofun⟩

theorem TypedF.vec {w : Form d} {v : FVal d} (h : TypedF w .vec v) : ∃ es, v = .vec es := by
  cases v with
  | obj u => cases u <;> exact h.elim
  | vec es => exact ⟨es, rfl⟩

theorem TypedF.inExpr {w : Form d} {v : FVal d} (h : TypedF w .inExpr v) : ∃ c e, v = .obj (.rt c e) := by
  cases v with
  | vec es => exact h.elim
  | obj u =>
    cases u with
    | num x => exact h.elim
    | mix e => exact h.elim
    | rt c e => exact ⟨c, e, rfl⟩

theorem operate_some {folds : Bool} {op : COp} {u w : Value} (hu : ∃ e, u.clone = some e) (hw : ∃ e, w.clone = some e)
    (mu : ∀ e, u = .mix e → ∃ c, e = .rc c) (mw : ∀ e, w = .mix e → ∃ c, e = .rc c) :
    (∃ x y, u = .num x ∧ w = .num y ∧ operate folds op u w = some (.num (op.apply x y))) ∨
    (¬ ((∃ x, u = .num x) ∧ ∃ y, w = .num y) ∧ ∃ e, operate folds op u w = some (.rt .binary e)) := by
  obtain ⟨l, hl⟩ := hu
  obtain ⟨r, hr⟩ := hw
  cases u <;> cases w <;> simp_all [operate, Value.clone, mixToRt]
  rename_i e e'
  obtain ⟨c, rfl⟩ := mu
  obtain ⟨c', rfl⟩ := mw
  cases op <;> simp [opAdd, opSub, opMul, opDiv, opGeneric, MixExpr.isCompiletime, MixExpr.cloneable, Built.value, mixToRt]

theorem entrywise_some {g : Fin d → Option Value} (hg : ∀ i, ∃ u e, g i = some u ∧ u.clone = some e) :
    ∃ es, entrywise g = some (.vec es) := by
  choose u e h1 h2 using hg
  refine ⟨e, ?_⟩
  rw [entrywise, (allOf_eq_some (g := e)).2 (fun i => by rw [h1 i, Option.bind_some, h2 i])]
  rfl

theorem operate_clone {folds : Bool} {op : COp} {u w : Value} (hu : ∃ e, u.clone = some e) (hw : ∃ e, w.clone = some e)
    (mu : ∀ e, u = .mix e → ∃ c, e = .rc c) (mw : ∀ e, w = .mix e → ∃ c, e = .rc c) :
    ∃ v e, operate folds op u w = some v ∧ v.clone = some e := by
  rcases operate_some (folds := folds) (op := op) hu hw mu mw with ⟨x, y, -, -, h⟩ | ⟨-, e, h⟩
  · exact ⟨_, _, h, rfl⟩
  · exact ⟨_, _, h, rfl⟩

theorem dot_some (hd : 0 < d) (a b : Fin d → Expr XReal) : ∃ e, dot (List.ofFn a) (List.ofFn b) = .ok e := by
  cases d with
  | zero => omega
  | succ n => rw [List.ofFn_succ, List.ofFn_succ, dot, if_pos (by simp)]; exact ⟨_, rfl⟩

/-- A faulty formula does not compile, any other one does. -/
def Ok (folds : Bool) (w : Form d) (k : Kind) : Prop :=
  (Form.Faulty w → w.build folds = none) ∧ (¬ Form.Faulty w → ∃ v, w.build folds = some v ∧ TypedF w k v)

theorem ok_both {folds : Bool} {op : COp} {s t : Form d} {ks kt k : Kind} (hs : Ok folds s ks) (ht : Ok folds t kt)
    (h : ∀ u v, TypedF s ks u → TypedF t kt v → ∃ r, operateF folds op u v = some r ∧ TypedF (.bin op s t) k r) :
    Ok folds (.bin op s t) k := by
  obtain ⟨s1, s2⟩ := hs
  obtain ⟨t1, t2⟩ := ht
  by_cases hs : Form.Faulty s
  · exact ⟨fun _ => by rw [Form.build, s1 hs]; rfl, fun h => (h (.inl hs)).elim⟩
  by_cases ht : Form.Faulty t
  · refine ⟨fun _ => ?_, fun h => (h (.inr ht)).elim⟩
    rw [Form.build, t1 ht]
    cases s.build folds <;> rfl
  obtain ⟨u, hu, hu'⟩ := s2 hs
  obtain ⟨v, hv, hv'⟩ := t2 ht
  refine ⟨fun h => (h.elim hs ht).elim, fun _ => ?_⟩
  obtain ⟨r, hr, hr'⟩ := h u v hu' hv'
  exact ⟨r, by rw [Form.build, hu, hv, Option.bind_some, Option.bind_some, hr], hr'⟩

theorem call_not_number {t : Form d} (h : Form.Call t) : ¬ Form.IsNumber t := by
  cases t with
  | fn f t => exact h
  | grad t => exact id
  | div t => exact id
  | _ => exact h.elim

theorem typed_rt {w : Form d} {c : RtClass} {e : Expr XReal} (h1 : ¬ Form.IsNumber w) (h2 : c = .unary ↔ Form.Call w)
    (h3 : c = .fsym ↔ ∃ s, w = .sym s) : TypedF w .num (.obj (.rt c e)) := ⟨h1, h2, h3⟩

theorem ok_fn {folds : Bool} {g : Fn} {t : Form d} (hg : g ≠ .id) (ih : Ok folds t .num) : Ok folds (.fn g t) .num := by
  by_cases hf : Form.Faulty t
  · exact ⟨fun _ => by rw [Form.build, ih.1 hf]; rfl, fun h => (h (.inr (.inr hf))).elim⟩
  obtain ⟨v, hv, hv'⟩ := ih.2 hf
  obtain ⟨u, rfl, -⟩ := hv'.num
  unfold Ok
  rw [Form.build, hv, Option.bind_some, callFnF]
  cases u with
  | num x =>
    have hn : Form.IsNumber t := hv'
    refine ⟨fun h => ?_, fun _ => ⟨.obj (.num (Num.fn g x)), by simp [callFn, hg], hn⟩⟩
    obtain ⟨-, h⟩ | ⟨s, rfl⟩ | h := h
    · exact (call_not_number h hn).elim
    · exact hn.elim
    · exact (hf h).elim
  | mix e =>
    obtain ⟨⟨c, rfl⟩, h1, h2, h3⟩ := hv'
    refine ⟨fun h => ?_, fun _ => ⟨.obj (.rt .unary (.un (.fn g) (.const (some c)))), by simp [callFn, hg],
      typed_rt h1 ⟨fun _ => h1, fun _ => rfl⟩ (by simp)⟩⟩
    obtain ⟨-, h⟩ | ⟨s, h⟩ | h := h
    · exact (h2 h).elim
    · exact (h3 s h).elim
    · exact (hf h).elim
  | rt c e =>
    obtain ⟨h1, h2, h3⟩ := hv'
    refine ⟨fun h => ?_, fun h => ⟨.obj (.rt .unary (.un (.fn g) e)), ?_,
      typed_rt h1 ⟨fun _ => h1, fun _ => rfl⟩ (by simp)⟩⟩
    · obtain ⟨rfl, h⟩ | h | h := h
      · simp [callFn, h2.2 h]
      · simp [callFn, h3.2 h]
      · exact (hf h).elim
    · have c1 : ¬ (g = .exp ∧ c = .unary) := fun ⟨a, b⟩ => h (.inl ⟨a, h2.1 b⟩)
      have c2 : c ≠ .fsym := fun a => h (.inr (.inl (h3.1 a)))
      simp [callFn, hg, c1, c2]

theorem build_compiles {folds : Bool} (hd : 0 < d) {w : Form d} {k : Kind} (hk : Direct w k) : Ok folds w k := by
  induction hk with
  | number x => exact ⟨False.elim, fun _ => ⟨_, rfl, trivial⟩⟩
  | rc x => exact ⟨False.elim, fun _ => ⟨_, rfl, ⟨x, rfl⟩, id, id, nofun⟩⟩
  | rv i => exact ⟨False.elim, fun _ => ⟨_, rfl, id, by simp [Form.Call], by simp⟩⟩
  | sym t => exact ⟨False.elim, fun _ => ⟨_, rfl, id, by simp [Form.Call], by simp⟩⟩
  | @vec es _ ih =>
    by_cases hf : ∃ i, Form.Faulty (es i)
    · refine ⟨fun _ => ?_, fun h => (h hf).elim⟩
      obtain ⟨i, hi⟩ := hf
      rw [Form.build, Option.map_eq_none_iff]
      cases h : allOf fun i => ((es i).build folds).bind FVal.clone with
      | none => rfl
      | some g =>
        have := allOf_eq_some.1 h i
        rw [(ih i).1 hi] at this
        cases this
    · refine ⟨fun h => (hf h).elim, fun _ => ?_⟩
      have : ∀ i, ∃ e, ((es i).build folds).bind FVal.clone = some e := by
        intro i
        obtain ⟨v, hv, hv'⟩ := (ih i).2 (fun h => hf ⟨i, h⟩)
        obtain ⟨u, rfl, ⟨e, he⟩, -⟩ := hv'.num
        exact ⟨e, by rw [hv, Option.bind_some, FVal.clone, he]⟩
      choose e he using this
      exact ⟨.vec e, by rw [Form.build, allOf_eq_some.2 he]; rfl, id⟩
  | @expr t _ ih =>
    refine ⟨fun h => by rw [Form.build, ih.1 h]; rfl, fun h => ?_⟩
    obtain ⟨v, hv, hv'⟩ := ih.2 h
    obtain ⟨u, rfl, ⟨e, he⟩, -⟩ := hv'.num
    exact ⟨.obj (.rt .expr e), by rw [Form.build, hv, Option.bind_some, FVal.clone, he]; rfl, id, by simp [Form.Call], by simp⟩
  | @exprVec t _ _ ih =>
    refine ⟨fun h => by rw [Form.build, ih.1 h]; rfl, fun h => ?_⟩
    obtain ⟨v, hv, hv'⟩ := ih.2 h
    obtain ⟨es, rfl⟩ := hv'.vec
    exact ⟨.obj (.rt .expr (.vec (List.ofFn es))), by rw [Form.build, hv, Option.bind_some, FVal.clone]; rfl, id⟩
  | @exprIn t _ ih =>
    refine ⟨fun h => by rw [Form.build, ih.1 h]; rfl, fun h => ?_⟩
    obtain ⟨v, hv, hv'⟩ := ih.2 h
    obtain ⟨c, e, rfl⟩ := hv'.inExpr
    exact ⟨.obj (.rt .expr e), by rw [Form.build, hv, Option.bind_some, FVal.clone]; rfl, id⟩
  | @op op s t _ _ ihs iht =>
    refine ok_both ihs iht fun u v hu hv => ?_
    obtain ⟨u, rfl, cu, mu⟩ := hu.num
    obtain ⟨v, rfl, cv, mv⟩ := hv.num
    rcases operate_some (folds := folds) (op := op) cu cv mu mv with ⟨x, y, rfl, rfl, h⟩ | ⟨hn, e, h⟩
    · exact ⟨.obj (.num (op.apply x y)), by rw [operateF, h]; rfl, hu, hv⟩
    · refine ⟨.obj (.rt .binary e), by rw [operateF, h]; rfl, fun ⟨h1, h2⟩ => hn ⟨?_, ?_⟩, by simp [Form.Call], by simp⟩
      · cases u with
        | num x => exact ⟨x, rfl⟩
        | mix e => exact (hu.2.1 h1).elim
        | rt c e => exact (hu.1 h1).elim
      · cases v with
        | num x => exact ⟨x, rfl⟩
        | mix e => exact (hv.2.1 h2).elim
        | rt c e => exact (hv.1 h2).elim
  | add _ _ ihs iht =>
    refine ok_both ihs iht fun u v hu hv => ?_
    have hn := hu
    obtain ⟨u, rfl⟩ := hu.vec
    obtain ⟨v, rfl⟩ := hv.vec
    obtain ⟨es, h⟩ := entrywise_some (d := d) (g := fun i => operate folds .plus (.rt .expr (u i)) (.rt .expr (v i)))
      fun i => operate_clone ⟨_, rfl⟩ ⟨_, rfl⟩ nofun nofun
    exact ⟨_, h, fun h => hn h.1⟩
  | sub _ _ ihs iht =>
    refine ok_both ihs iht fun u v hu hv => ?_
    have hn := hu
    obtain ⟨u, rfl⟩ := hu.vec
    obtain ⟨v, rfl⟩ := hv.vec
    obtain ⟨es, h⟩ := entrywise_some (d := d) (g := fun i => operate folds .minus (.rt .expr (u i)) (.rt .expr (v i)))
      fun i => operate_clone ⟨_, rfl⟩ ⟨_, rfl⟩ nofun nofun
    exact ⟨_, h, fun h => hn h.1⟩
  | scaleL _ _ ihs iht =>
    refine ok_both ihs iht fun u v hu hv => ?_
    have hn := hv
    obtain ⟨u, rfl, cu, mu⟩ := hu.num
    obtain ⟨v, rfl⟩ := hv.vec
    obtain ⟨es, h⟩ := entrywise_some (d := d) (g := fun i => operate folds .mult u (.rt .expr (v i)))
      fun i => operate_clone cu ⟨_, rfl⟩ mu nofun
    exact ⟨_, h, fun h => hn h.2⟩
  | scaleR _ _ ihs iht =>
    refine ok_both ihs iht fun u v hu hv => ?_
    have hn := hu
    obtain ⟨u, rfl⟩ := hu.vec
    obtain ⟨v, rfl, cv, mv⟩ := hv.num
    obtain ⟨es, h⟩ := entrywise_some (d := d) (g := fun i => operate folds .mult (.rt .expr (u i)) v)
      fun i => operate_clone ⟨_, rfl⟩ cv nofun mv
    exact ⟨_, h, fun h => hn h.1⟩
  | quot _ _ ihs iht =>
    refine ok_both ihs iht fun u v hu hv => ?_
    have hn := hu
    obtain ⟨u, rfl⟩ := hu.vec
    obtain ⟨v, rfl, cv, mv⟩ := hv.num
    obtain ⟨es, h⟩ := entrywise_some (d := d) (g := fun i => operate folds .div (.rt .expr (u i)) v)
      fun i => operate_clone ⟨_, rfl⟩ cv nofun mv
    exact ⟨_, h, fun h => hn h.1⟩
  | dotVec _ _ ihs iht =>
    refine ok_both ihs iht fun u v hu hv => ?_
    have hn := hu
    obtain ⟨u, rfl⟩ := hu.vec
    obtain ⟨v, rfl⟩ := hv.vec
    obtain ⟨e, he⟩ := dot_some hd u v
    exact ⟨.obj (.rt .expr e), by simp only [operateF, he], fun h => hn h.1, by simp [Form.Call], by simp⟩
  | dotIn _ _ ihs iht =>
    refine ok_both ihs iht fun u v hu hv => ?_
    have hn := hu
    obtain ⟨c, e, rfl⟩ := hu.inExpr
    obtain ⟨c', e', rfl⟩ := hv.inExpr
    exact ⟨.obj (.rt .binary (.bin .mult e e')), rfl, fun h => hn h.1, by simp [Form.Call], by simp⟩
  | fn hg _ ih => exact ok_fn hg ih
  | gradOne t h => exact ⟨False.elim, fun _ => ⟨_, rfl, id, by simp [Form.Call], by simp⟩⟩
  | grad t h => exact ⟨False.elim, fun _ => ⟨_, rfl, id⟩⟩
  | div t => exact ⟨False.elim, fun _ => ⟨_, rfl, id, by simp [Form.Call], by simp⟩⟩
  | diff t i => exact ⟨False.elim, fun _ => ⟨_, rfl, id, by simp [Form.Call], by simp⟩⟩

end

end VM.Ct
