import Verif.Spec.Calc
import Verif.Rt.ChainLemmas
import Verif.Rt.ComposeLemmas
/-
Stores of expressions and stores of functions.
-/
namespace VM
open Spec Filter Topology
variable {n : ℕ}

/-- The expression stands for the function. -/
structure StandsFor (f : RealFun n) (e : Expr XReal) : Prop where
  smooth : Smooth e
  name : ∀ x, f.name = some x → e = .var x
  dom_open : IsOpen f.dom
  reg : ∀ p ∈ f.dom, Reg p e ∧ rv p e = f.val p

theorem StandsFor.near {f : RealFun n} {e : Expr XReal} (h : StandsFor f e) {p : Fin n → ℝ} (hp : p ∈ f.dom) :
    ∀ᶠ q in 𝓝 p, q ∈ f.dom ∧ Reg q e ∧ rv q e = f.val q := by
  filter_upwards [h.dom_open.mem_nhds hp] with q hq
  exact ⟨hq, h.reg q hq⟩

theorem StandsFor.continuousAt {f : RealFun n} {e : Expr XReal} (h : StandsFor f e) {p : Fin n → ℝ} (hp : p ∈ f.dom) :
    ContinuousAt f.val p := by
  have h1 := ((h.reg p hp).1.contDiffAt (m := 0)).continuousAt
  exact h1.congr ((h.near hp).mono fun q hq => hq.2.2)

theorem put_reg {p : Fin n → ℝ} {ρ : Nat → Expr XReal} (hρ : ∀ k, k < n → Reg p (ρ k)) {e : Expr XReal}
    (he : Reg (fun k : Fin n => rv p (ρ k)) e) :
    Reg p (put ρ e) ∧ rv p (put ρ e) = rv (fun k : Fin n => rv p (ρ k)) e := by
  induction e using Expr.ind with
  | const c => exact ⟨he, rfl⟩
  | var j =>
    have hj : j < n := he
    exact ⟨hρ j hj, by simp [put, rv, hj]⟩
  | un op e ih =>
    cases op with
    | fn f =>
      obtain ⟨h1, h2⟩ := ih he.1
      exact ⟨⟨h1, by rw [h2]; exact he.2⟩, by simp only [rv, h2, put]⟩
    | _ => exact he.elim
  | bin op l r ihl ihr =>
    obtain ⟨h1, h2⟩ := ihl he.1
    obtain ⟨h3, h4⟩ := ihr he.2.1
    exact ⟨⟨h1, h3, by rw [h4]; exact he.2.2⟩, by simp [rv, h2, h4, put]⟩
  | _ => exact he.elim

theorem put_smooth {ρ : Nat → Expr XReal} (hρ : ∀ k, Smooth (ρ k)) {e : Expr XReal} (he : Smooth e) :
    Smooth (put ρ e) := by
  induction he with
  | const c => exact .const c
  | var j => exact hρ j
  | fn hf _ ih => exact .fn hf ih
  | bin ho _ _ ihl ihr => exact .bin ho ihl ihr

/-- Lists of expressions that stand for lists of functions. -/
inductive StandAll : List (RealFun n) → List (Expr XReal) → Prop
  | nil : StandAll [] []
  | cons {f e fs es} : StandsFor f e → StandAll fs es → StandAll (f :: fs) (e :: es)

theorem StandAll.length {fs : List (RealFun n)} {es : List (Expr XReal)} (h : StandAll fs es) :
    fs.length = es.length := by
  induction h with
  | nil => rfl
  | cons _ _ ih => simp [ih]

theorem StandAll.names {fs : List (RealFun n)} {es : List (Expr XReal)} (h : StandAll fs es) {xs : List (Fin n)}
    (hx : fs.map (·.name) = xs.map some) : es = (xs.map Fin.val).map .var := by
  induction h generalizing xs with
  | nil => cases xs <;> simp_all
  | cons h1 _ ih =>
    cases xs with
    | nil => simp at hx
    | cons x xs =>
      simp only [List.map_cons, List.cons.injEq] at hx ⊢
      exact ⟨h1.name x hx.1, ih hx.2⟩

theorem StandAll.pick_smooth {gs : List (RealFun n)} {es : List (Expr XReal)} (h : StandAll gs es) (xs : List Nat)
    (k : Nat) : Smooth (pick xs es k) := by
  induction h generalizing xs with
  | nil => cases xs <;> exact .var k
  | cons h1 _ ih =>
    cases xs with
    | nil => exact .var k
    | cons x xs =>
      by_cases hk : k = x
      · simpa [pick, hk] using h1.smooth
      · simpa [pick, hk] using ih xs

theorem StandAll.pick_reg {gs : List (RealFun n)} {es : List (Expr XReal)} (h : StandAll gs es) {p : Fin n → ℝ}
    (hp : ∀ g ∈ gs, p ∈ g.dom) (xs : List (Fin n)) (k : Fin n) :
    Reg p (pick (xs.map Fin.val) es k) ∧ rv p (pick (xs.map Fin.val) es k) = replaceAt xs gs p k := by
  induction h generalizing xs with
  | nil => cases xs <;> simp [pick, replaceAt, Reg, rv]
  | @cons g e gs es h1 _ ih =>
    cases xs with
    | nil => simp [pick, replaceAt, Reg, rv]
    | cons x xs =>
      have ih := ih (fun g hg => hp g (by simp [hg])) xs
      by_cases hk : k = x
      · subst hk
        simpa [pick, replaceAt] using h1.reg p (hp g (by simp))
      · have hk' : k.1 ≠ x.1 := fun h => hk (Fin.ext h)
        simpa [pick, replaceAt, hk', Function.update_of_ne hk] using ih

theorem StandAll.replace_continuous {gs : List (RealFun n)} {es : List (Expr XReal)} (h : StandAll gs es)
    {p : Fin n → ℝ} (hp : ∀ g ∈ gs, p ∈ g.dom) (xs : List (Fin n)) : ContinuousAt (replaceAt xs gs) p := by
  induction h generalizing xs with
  | nil => cases xs <;> exact continuousAt_id
  | @cons g e gs es h1 _ ih =>
    cases xs with
    | nil => exact continuousAt_id
    | cons x xs =>
      exact (ih (fun g hg => hp g (by simp [hg])) xs).update x (h1.continuousAt (hp g (by simp)))

theorem StandAll.dom_open {gs : List (RealFun n)} {es : List (Expr XReal)} (h : StandAll gs es) {p : Fin n → ℝ}
    (hp : ∀ g ∈ gs, p ∈ g.dom) : ∀ᶠ q in 𝓝 p, ∀ g ∈ gs, q ∈ g.dom := by
  induction h with
  | nil => simp
  | @cons g e gs es h1 _ ih =>
    filter_upwards [h1.near (hp g (by simp)), ih fun g hg => hp g (by simp [hg])] with q h2 h3
    simpa using ⟨h2.1, h3⟩

theorem StandsFor.unname {f : RealFun n} {e : Expr XReal} (h : StandsFor f e) (hs : Smooth e) :
    StandsFor ⟨f.val, f.dom, none⟩ e := ⟨hs, nofun, h.dom_open, h.reg⟩

/-- From a condition near each point. -/
theorem stands_of {val : (Fin n → ℝ) → ℝ} {dom : Set (Fin n → ℝ)} {e : Expr XReal} (hs : Smooth e)
    (h : ∀ p ∈ dom, (Reg p e ∧ rv p e = val p) ∧ ∀ᶠ q in 𝓝 p, q ∈ dom) : StandsFor ⟨val, dom, none⟩ e :=
  ⟨hs, nofun, isOpen_iff_mem_nhds.2 fun p hp => (h p hp).2, fun p hp => (h p hp).1⟩

theorem StandsFor.simplified {f : RealFun n} {e e' : Expr XReal} (h : StandsFor f e) (hs : simplified e = .ok e') :
    StandsFor f e' where
  smooth := (simplified_induct (P := Smooth) (fun _ _ hp hx => hp.smooth hx) hs h.smooth).1
  name x hx := by
    have := h.name x hx
    subst this
    have : VM.simplified (.var x : Expr XReal) = .ok (.var x) := rfl
    rw [this] at hs
    cases hs; rfl
  dom_open := h.dom_open
  reg p hp := by
    obtain ⟨h1, h2⟩ := (h.reg p hp).1.simplified hs
    exact ⟨h1, h2.trans (h.reg p hp).2⟩

theorem mathFn_ok {h : Fn} {F : ℝ → ℝ} {D : Set ℝ} (hm : mathFn h = some (F, D)) :
    h ≠ .fabs ∧ ∀ x, (x ∈ D ↔ fnOk h x) ∧ fnR h x = F x := by
  cases h <;> simp only [mathFn, Option.some.injEq, Prod.mk.injEq, reduceCtorEq] at hm <;>
    obtain ⟨rfl, rfl⟩ := hm <;> simp [fnOk, fnR, Real.logb]

theorem StandsFor.fn {f : RealFun n} {e : Expr XReal} (h : StandsFor f e) {g : Fn} {F : ℝ → ℝ} {D : Set ℝ}
    (hm : mathFn g = some (F, D)) :
    StandsFor ⟨fun p => F (f.val p), f.dom ∩ {p | f.val p ∈ D}, none⟩ (.un (.fn g) e) := by
  obtain ⟨hf, hF⟩ := mathFn_ok hm
  refine stands_of (.fn hf h.smooth) ?_
  rintro p ⟨hp, hd⟩
  obtain ⟨h1, h2⟩ := h.reg p hp
  have hr : Reg p (.un (.fn g) e) := ⟨h1, by rw [h2]; exact (hF _).1.1 hd⟩
  refine ⟨⟨hr, by simp [rv, h2, (hF _).2]⟩, ?_⟩
  filter_upwards [h.near hp, hr.eventually] with q h3 h4
  exact ⟨h3.1, (hF _).1.2 (by rw [← h3.2.2]; exact h4.2)⟩

theorem StandsFor.bin {f g : RealFun n} {l r : Expr XReal} (hf : StandsFor f l) (hg : StandsFor g r) {op : BOp}
    (ho : IsArithOp op) :
    StandsFor ⟨fun p => opR op (f.val p) (g.val p), f.dom ∩ g.dom ∩ {p | opOk op (g.val p)}, none⟩ (.bin op l r) := by
  refine stands_of (.bin ho hf.smooth hg.smooth) ?_
  rintro p ⟨⟨h1, h2⟩, h3⟩
  obtain ⟨a1, a2⟩ := hf.reg p h1
  obtain ⟨b1, b2⟩ := hg.reg p h2
  have hr : Reg p (.bin op l r) := ⟨a1, b1, by rw [b2]; exact h3⟩
  refine ⟨⟨hr, by simp [rv, a2, b2]⟩, ?_⟩
  filter_upwards [hf.near h1, hg.near h2, hr.eventually] with q h4 h5 h6
  exact ⟨⟨h4.1, h5.1⟩, by have := h6.2.2; rwa [h5.2.2] at this⟩

theorem StandsFor.total {f g : RealFun n} {val : (Fin n → ℝ) → ℝ} {dom : Set (Fin n → ℝ)} {e : Expr XReal}
    (h : StandsFor ⟨val, f.dom ∩ g.dom ∩ dom, none⟩ e) (hd : ∀ p, p ∈ dom) : StandsFor ⟨val, f.dom ∩ g.dom, none⟩ e := by
  have : dom = Set.univ := Set.eq_univ_of_forall hd
  simpa [this] using h

theorem StandsFor.diff {f : RealFun n} {e d : Expr XReal} (h : StandsFor f e) {x : Fin n} (hd : diff (.var x) e = .ok d) :
    StandsFor ⟨partialDeriv x f.val, f.dom, none⟩ d := by
  refine ⟨h.smooth.diff hd, nofun, h.dom_open, fun p hp => ⟨(h.reg p hp).1.diff hd, ?_⟩⟩
  have h1 := (h.reg p hp).1.hasDerivAt hd
  have h2 : f.val =ᶠ[𝓝 p] fun q => rv q e := (h.near hp).mono fun q hq => hq.2.2.symm
  exact h1.deriv.symm.trans (partialDeriv_congr x h2).eq_of_nhds.symm

theorem StandsFor.subst {f g : RealFun n} {e r t : Expr XReal} (hf : StandsFor f e) (hg : StandsFor g r) {x : Fin n}
    (ht : substitute (.var x) r e = .ok t) (hs : Smooth t) :
    StandsFor ⟨fun p => f.val (Function.update p x (g.val p)),
      {p | p ∈ g.dom ∧ Function.update p x (g.val p) ∈ f.dom}, none⟩ t := by
  refine stands_of hs ?_
  rintro p ⟨h1, h2⟩
  obtain ⟨a1, a2⟩ := hg.reg p h1
  obtain ⟨b1, b2⟩ := hf.reg _ h2
  rw [← a2] at b1
  obtain ⟨c1, c2⟩ := substitute_reg a1 b1 ht
  refine ⟨⟨c1, c2.trans (by rw [a2, b2])⟩, ?_⟩
  have hc : ContinuousAt (fun q => Function.update q x (g.val q)) p :=
    continuousAt_id.update x (hg.continuousAt h1)
  filter_upwards [hg.near h1, hc.eventually (hf.dom_open.mem_nhds h2)] with q h3 h4
  exact ⟨h3.1, h4⟩

theorem StandsFor.substMany {f : RealFun n} {gs : List (RealFun n)} {e t : Expr XReal} {rs : List (Expr XReal)}
    (hf : StandsFor f e) (hg : StandAll gs rs) {xs : List (Fin n)} (hl : xs.length = gs.length)
    (ht : substituteMany ((xs.map Fin.val).map .var) rs e = .ok t) (hs : Smooth t) :
    StandsFor ⟨fun p => f.val (replaceAt xs gs p),
      {p | (∀ g ∈ gs, p ∈ g.dom) ∧ replaceAt xs gs p ∈ f.dom}, none⟩ t := by
  refine stands_of hs ?_
  rintro p ⟨h1, h2⟩
  obtain ⟨b1, b2⟩ := hf.reg _ h2
  have hp : (fun k : Fin n => rv p (pick (xs.map Fin.val) rs k)) = replaceAt xs gs p :=
    funext fun k => (hg.pick_reg h1 xs k).2
  obtain ⟨c1, c2⟩ := put_reg (p := p) (ρ := pick (xs.map Fin.val) rs) (e := e)
    (fun k hk => (hg.pick_reg h1 xs ⟨k, hk⟩).1) (by rw [hp]; exact b1)
  have hl' : (xs.map Fin.val).length = rs.length := by simpa using hl.trans hg.length
  rw [substituteMany, if_pos (by simpa using hl'), substM_pick _ _ hl', Res.bind_ok] at ht
  obtain ⟨d1, d2⟩ := c1.simplified ht
  refine ⟨⟨d1, d2.trans (c2.trans (by rw [hp, b2]))⟩, ?_⟩
  filter_upwards [hg.dom_open h1, (hg.replace_continuous h1 xs).eventually (hf.dom_open.mem_nhds h2)] with q h3 h4
  exact ⟨h3, h4⟩

theorem substituteMany_smooth {xs : List Nat} {rs : List (Expr XReal)} {e : Expr XReal} (hl : xs.length = rs.length)
    (hr : ∀ k, Smooth (pick xs rs k)) (he : Smooth e) :
    ∃ t, substituteMany (xs.map .var) rs e = .ok t ∧ Smooth t := by
  have h := put_smooth hr he
  obtain ⟨t, ht⟩ := simplified_ok_arith h.arith
  exact ⟨t, by simp [substituteMany, substM_pick _ _ hl, ht, hl],
    (simplified_induct (P := Smooth) (fun _ _ hp hx => hp.smooth hx) ht h).1⟩

/-! ### Stores -/

/-- The store of expressions stands for the store of functions. -/
def StoreStands (φ : FunStore n) (σ : Store XReal) : Prop :=
  ∀ i, match φ i with
    | none => σ i = none
    | some none => σ i = some (.expr none)
    | some (some f) => ∃ e, σ i = some (.expr (some e)) ∧ StandsFor f e

theorem StoreStands.get {φ : FunStore n} {σ : Store XReal} (h : StoreStands φ σ) {i : Nat} {f : RealFun n}
    (hi : φ i = some (some f)) : ∃ e, σ i = some (.expr (some e)) ∧ Spec.look σ ⟨i, []⟩ = some e ∧ StandsFor f e := by
  have := h i
  rw [hi] at this
  obtain ⟨e, h1, h2⟩ := this
  exact ⟨e, h1, by simp [Spec.look, h1, Obj.part, Spec.part], h2⟩

theorem StoreStands.set {φ : FunStore n} {σ : Store XReal} (h : StoreStands φ σ) (i : Nat)
    {o : Option (Option (RealFun n))} {x : Option (Obj XReal)}
    (hx : match o with
      | none => x = none
      | some none => x = some (.expr none)
      | some (some f) => ∃ e, x = some (.expr (some e)) ∧ StandsFor f e) : StoreStands (φ.set i o) (σ.set i x) := by
  intro j
  by_cases hj : j = i
  · subst hj; simpa [FunStore.set, Store.set] using hx
  · simpa [FunStore.set, Store.set, hj] using h j

theorem StoreStands.holds {φ : FunStore n} {σ : Store XReal} (h : StoreStands φ σ) {rs : List Src}
    {fs : List (RealFun n)} (hr : HoldFuns φ rs fs) : ∃ es, lookAll σ rs = some es ∧ StandAll fs es := by
  induction hr with
  | nil => exact ⟨[], rfl, .nil⟩
  | cons h1 _ ih =>
    obtain ⟨es, h2, h3⟩ := ih
    obtain ⟨e, -, h4, h5⟩ := h.get h1
    exact ⟨e :: es, by simp [lookAll, h2, h4], .cons h5 h3⟩

theorem StoreStands.rhs {φ : FunStore n} {σ : Store XReal} (h : StoreStands φ σ) {rhs : Rhs XReal} {f : RealFun n}
    (hr : RhsFun φ rhs f) : ∃ e, RhsVal σ rhs (.ok e) ∧ StandsFor f e := by
  cases hr with
  | const c => exact ⟨_, .const _, .const _, nofun, isOpen_univ, fun p _ => ⟨by simp [Reg], rfl⟩⟩
  | var x =>
    refine ⟨_, .var _, .var _, ?_, isOpen_univ, fun p _ => ⟨x.2, by simp [rv]⟩⟩
    rintro y ⟨⟩; rfl
  | copy h1 =>
    obtain ⟨e, -, h2, h3⟩ := h.get h1
    exact ⟨e, .copy h2, h3⟩
  | plus h1 h2 =>
    obtain ⟨a, -, a1, a2⟩ := h.get h1
    obtain ⟨b, -, b1, b2⟩ := h.get h2
    exact ⟨_, .bin a1 b1, (a2.bin b2 (.inl rfl)).total fun _ => trivial⟩
  | minus h1 h2 =>
    obtain ⟨a, -, a1, a2⟩ := h.get h1
    obtain ⟨b, -, b1, b2⟩ := h.get h2
    exact ⟨_, .bin a1 b1, (a2.bin b2 (.inr (.inl rfl))).total fun _ => trivial⟩
  | mult h1 h2 =>
    obtain ⟨a, -, a1, a2⟩ := h.get h1
    obtain ⟨b, -, b1, b2⟩ := h.get h2
    exact ⟨_, .bin a1 b1, (a2.bin b2 (.inr (.inr (.inl rfl)))).total fun _ => trivial⟩
  | div h1 h2 =>
    obtain ⟨a, -, a1, a2⟩ := h.get h1
    obtain ⟨b, -, b1, b2⟩ := h.get h2
    exact ⟨_, .bin a1 b1, a2.bin b2 (.inr (.inr (.inr rfl)))⟩
  | fn hm h1 =>
    obtain ⟨a, -, a1, a2⟩ := h.get h1
    exact ⟨_, .un a1, a2.fn hm⟩
  | simplify h1 =>
    obtain ⟨a, -, a1, a2⟩ := h.get h1
    obtain ⟨b, hb⟩ := simplified_ok_arith a2.smooth.arith
    exact ⟨b, .simplify a1 hb, a2.simplified hb⟩
  | @diff x i g h1 =>
    obtain ⟨a, -, a1, a2⟩ := h.get h1
    obtain ⟨b, hb, -⟩ := Props.C11_derivative a x a2.smooth
    exact ⟨b, .diff a1 hb, a2.diff hb⟩
  | subst h1 hn h2 h3 =>
    obtain ⟨a, -, a1, a2⟩ := h.get h1
    obtain ⟨b, -, b1, b2⟩ := h.get h2
    obtain ⟨c, -, c1, c2⟩ := h.get h3
    have := a2.name _ hn
    subst this
    obtain ⟨t, ht, hs⟩ := substitute_smooth _ b2.smooth c2.smooth
    exact ⟨t, .subst a1 b1 c1 ht, c2.subst b2 ht hs⟩
  | @substMany _ _ _ _ _ _ xs h1 hn h2 hl h3 =>
    obtain ⟨as, a1, a2⟩ := h.holds h1
    obtain ⟨bs, b1, b2⟩ := h.holds h2
    obtain ⟨c, c0, c1, c2⟩ := h.get h3
    have := a2.names hn
    subst this
    obtain ⟨t, ht, hs⟩ := substituteMany_smooth (xs := xs.map Fin.val) (by simpa using hl.trans b2.length)
      (fun k => b2.pick_smooth _ k) c2.smooth
    exact ⟨t, .substMany a1 b1 c1 (.inl ⟨_, c0⟩) ht, c2.substMany b2 hl ht hs⟩

theorem StoreStands.tidy {φ : FunStore n} {σ : Store XReal} (h : StoreStands φ σ) {rhs : Rhs XReal} {f : RealFun n}
    (hr : RhsFun φ rhs f) : TidyRhs σ rhs := by
  constructor
  · intro x hx
    cases hx with
    | @diffThrow _ _ _ _ h1 h2 =>
      cases hr with
      | diff h3 =>
        obtain ⟨a, -, a1, a2⟩ := h.get h3
        obtain rfl := Option.some.inj (a1.symm.trans h1)
        obtain ⟨b, hb, -⟩ := Props.C11_derivative _ _ a2.smooth
        rw [diff, h2] at hb
        cases hb
  · rintro i t r e rfl
    cases hr

theorem StoreStands.step {φ ψ : FunStore n} {σ : Store XReal} (h : StoreStands φ σ) {c : Stmt XReal}
    (hc : Calc φ c ψ) : ∃ τ, Exec σ c τ ∧ Tidy σ c ∧ StoreStands ψ τ := by
  have free : ∀ {i}, φ i = none → σ i = none := fun {i} hi => by have := h i; rwa [hi] at this
  cases hc with
  | decl hi => exact ⟨_, .decl (free hi), trivial, h.set _ rfl⟩
  | init hi hr =>
    obtain ⟨e, h1, h2⟩ := h.rhs hr
    exact ⟨_, .init (free hi) h1, h.tidy hr, h.set _ ⟨e, rfl, h2⟩⟩
  | @assign i o rhs f hi hr =>
    obtain ⟨e, h1, h2⟩ := h.rhs hr
    have : ∃ v, σ i = some (.expr v) := by
      have := h i
      rw [hi] at this
      cases o with
      | none => exact ⟨_, this⟩
      | some g => obtain ⟨e, he, -⟩ := this; exact ⟨_, he⟩
    obtain ⟨v, hv⟩ := this
    exact ⟨_, .assign hv h1, h.tidy hr, h.set _ ⟨e, rfl, h2⟩⟩
  | @inplace i f hi =>
    obtain ⟨e, h1, -, h2⟩ := h.get hi
    obtain ⟨y, hy⟩ := simplified_ok_arith h2.smooth.arith
    refine ⟨_, .inplace h1 hy, trivial, ?_⟩
    have := h.set i (o := some (some f)) (x := some (.expr (some y))) ⟨y, rfl, h2.simplified hy⟩
    have he : φ.set i (some (some f)) = φ := by
      funext j
      by_cases hj : j = i <;> simp [FunStore.set, hj, hi]
    rwa [he] at this
  | @destroy i o hi =>
    have : ∃ v, σ i = some v := by
      have := h i
      rw [hi] at this
      cases o with
      | none => exact ⟨_, this⟩
      | some g => obtain ⟨e, he, -⟩ := this; exact ⟨_, he⟩
    obtain ⟨v, hv⟩ := this
    exact ⟨_, .destroy hv, trivial, h.set _ rfl⟩

theorem StoreStands.all {φ ψ : FunStore n} {σ : Store XReal} (h : StoreStands φ σ) {cs : List (Stmt XReal)}
    (hc : CalcAll φ cs ψ) : ∃ τ, ExecAll Tidy σ cs τ ∧ StoreStands ψ τ := by
  induction hc generalizing σ with
  | nil => exact ⟨σ, .nil, h⟩
  | cons h1 _ ih =>
    obtain ⟨τ, h2, h3, h4⟩ := h.step h1
    obtain ⟨υ, h5, h6⟩ := ih h4
    exact ⟨υ, .cons h2 h3 h5, h6⟩

theorem storeStands_empty : StoreStands (FunStore.empty : FunStore n) Store.empty := fun _ => rfl

end VM
