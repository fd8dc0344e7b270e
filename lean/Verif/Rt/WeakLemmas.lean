import Verif.Rt.CoordsLemmas
import Verif.Rt.IteratedLemmas
import Verif.Spec.Weak
import Verif.Spec.Quadrature
import Verif.Rt.QuadratureLemmas
/-
Lemmas about weak forms.
-/
namespace VM
open Spec
variable {K : Type}

mutual
/-- Replace the function symbol `(i, t)` by `r`. -/
def ry (i t : Nat) (r : Expr K) : Expr K → Expr K
  | .const c => .const c
  | .var j => .var j
  | .fsym j t' => if j = i ∧ t' = t then r else .fsym j t'
  | .un op e => .un op (ry i t r e)
  | .integ lo hi x e => .integ lo hi x (ry i t r e)
  | .bin op e f => .bin op (ry i t r e) (ry i t r f)
  | .vec es => .vec (ryL i t r es)
def ryL (i t : Nat) (r : Expr K) : List (Expr K) → List (Expr K)
  | [] => []
  | e :: es => ry i t r e :: ryL i t r es
end

theorem ryL_eq_map (i t : Nat) (r : Expr K) (es : List (Expr K)) : ryL i t r es = es.map (ry i t r) := by
  induction es with
  | nil => rfl
  | cons e es ih => simp [ryL, ih]

theorem Spec.WellFormed.ry {i t : Nat} {r e : Expr K} (hr : WellFormed r) (h : WellFormed e) :
    WellFormed (VM.ry i t r e) := by
  induction h with
  | const c => exact .const c
  | var j => exact .var j
  | fsym j u => simp only [VM.ry]; split; exact hr; exact .fsym j u
  | un op _ ih => exact .un op ih
  | integ x h1 h2 _ _ _ ih => exact .integ x h1 h2 ih
  | bin ho _ _ ihl ihr => exact .bin ho ihl ihr
  | vec _ ih =>
    simp only [VM.ry, ryL_eq_map]
    refine .vec fun e he => ?_
    obtain ⟨f, hf, rfl⟩ := List.mem_map.1 he
    exact ih f hf

theorem Spec.VecDim.ry {n i t : Nat} {r e : Expr K} (hr : VecDim n r) (h : VecDim n e) :
    VecDim n (VM.ry i t r e) := by
  induction h with
  | const c => exact .const c
  | var j => exact .var j
  | fsym j u => simp only [VM.ry]; split; exact hr; exact .fsym j u
  | un op _ ih => exact .un op ih
  | integ x h1 h2 _ _ _ ih => exact .integ x h1 h2 ih
  | bin op _ _ ihl ihr => exact .bin op ihl ihr
  | vec hl _ ih =>
    simp only [VM.ry, ryL_eq_map]
    refine .vec (by simpa using hl) fun e he => ?_
    obtain ⟨f, hf, rfl⟩ := List.mem_map.1 he
    exact ih f hf

section
variable [Num K]

theorem UOp.equal_pd (x : Nat) (op' : UOp) : UOp.equal (.pd x) op' = decide (op' = .pd x) := by
  cases op' <;> simp [UOp.equal, eq_comm]

theorem substE_fsym (i t : Nat) (r e : Expr K) : substE (.fsym i t) r e = .ok (ry i t r e) := by
  induction e using Expr.ind with
  | const | var => simp [substE, ry, deepEq]
  | fsym j u =>
    by_cases h : j = i ∧ u = t
    · obtain ⟨rfl, rfl⟩ := h; simp [substE, ry, deepEq]
    · simp only [substE, ry, deepEq, Res.map_ok, h, if_false]
      split
      · rename_i h'
        simp only [Bool.and_eq_true, decide_eq_true_eq] at h'
        exact absurd ⟨h'.1.symm, h'.2.symm⟩ h
      · rfl
  | un op e ih => simp [substE, ry, deepEq, ih]
  | integ lo hi x e _ _ ih => simp [substE, ry, deepEq, ih]
  | bin op l r' ihl ihr => simp [substE, ry, deepEq, ihl, ihr]
  | vec es ih =>
    have : substEL (.fsym i t) r es = .ok (ryL i t r es) := by
      induction es with
      | nil => rfl
      | cons e es ih' =>
        simp [substEL, ryL, ih e (by simp), ih' fun e he => ih e (by simp [he])]
    simp [substE, ry, deepEq, this]

/-- Replacing a formal derivative by an expression with its value. -/
theorem rq_pd_val {I I' : Interp K} (hint : ∀ a b f c, ¬ I.int a b f c) {x i t : Nat} {r : Expr K}
    {ρ : Nat → Option K} {e : Expr K} {a : K} (h : Val I ρ e a)
    (hs : ∀ j u b, I.sym j u = some b → I'.sym j u = some b)
    (hp : ∀ y j u b, I.pd y j u = some b →
      (y = x ∧ j = i ∧ u = t ∧ Val I' ρ r b) ∨ (¬ (y = x ∧ j = i ∧ u = t) ∧ I'.pd y j u = some b)) :
    Val I' ρ (rq (.pd x) i t r e) a := by
  induction h with
  | const => exact .const
  | var h => exact .var h
  | fsym h => exact .fsym (hs _ _ _ h)
  | fn _ ih => rw [rq_un _ _ _ _ _ _ (by simp)]; exact .fn (ih hp)
  | pd h =>
    rcases hp _ _ _ _ h with ⟨rfl, rfl, rfl, h'⟩ | ⟨h1, h2⟩
    · rw [rq_hit]; exact h'
    · simp only [rq]
      rw [if_neg (by simpa using h1)]; exact .pd h2
  | bin _ _ h ihl ihr => exact .bin (ihl hp) (ihr hp) h
  | dotOne _ ih => exact .dotOne (ih hp)
  | dotSnoc _ _ ih1 ih2 =>
    have := ih1 hp
    simp only [rq, rqL_eq_map, List.map_append, List.map_cons, List.map_nil] at this ⊢
    exact .dotSnoc this (ih2 hp)
  | integ f _ _ _ _ h => exact absurd h (hint _ _ _ _)

/-- Replacing a function symbol by an expression with its value. -/
theorem ry_val {I I' : Interp K} (hint : ∀ a b f c, ¬ I.int a b f c) {i t : Nat} {r : Expr K}
    {ρ : Nat → Option K} {e : Expr K} {a : K} (h : Val I ρ e a)
    (hs : ∀ j u b, I.sym j u = some b →
      (j = i ∧ u = t ∧ Val I' ρ r b) ∨ (¬ (j = i ∧ u = t) ∧ I'.sym j u = some b))
    (hp : ∀ y j u b, I.pd y j u = some b → ¬ (j = i ∧ u = t) ∧ I'.pd y j u = some b) :
    Val I' ρ (ry i t r e) a := by
  induction h with
  | const => exact .const
  | var h => exact .var h
  | fsym h =>
    simp only [ry]
    rcases hs _ _ _ h with ⟨rfl, rfl, h'⟩ | ⟨h1, h2⟩
    · simpa using h'
    · rw [if_neg h1]; exact .fsym h2
  | fn _ ih => exact .fn (ih hs)
  | pd h =>
    obtain ⟨h1, h2⟩ := hp _ _ _ _ h
    simp only [ry]
    rw [if_neg h1]; exact .pd h2
  | bin _ _ h ihl ihr => exact .bin (ihl hs) (ihr hs) h
  | dotOne _ ih => exact .dotOne (ih hs)
  | dotSnoc _ _ ih1 ih2 =>
    have := ih1 hs
    simp only [ry, ryL_eq_map, List.map_append, List.map_cons, List.map_nil] at this ⊢
    exact .dotSnoc this (ih2 hs)
  | integ f _ _ _ _ h => exact absurd h (hint _ _ _ _)

/-- A simplified expression without symbols that has a value is arithmetic. -/
theorem Spec.Val.arith {I : Interp K} (hint : ∀ a b f c, ¬ I.int a b f c) (hs : ∀ j u, I.sym j u = none)
    (hp : ∀ y j u, I.pd y j u = none) {ρ : Nat → Option K} {e : Expr K} {a : K} (h : Val I ρ e a)
    (hw : WellFormed e) (hc : canSimplify e = .ok false) : Arith e := by
  have either : ∀ {a b : Res Bool}, (a.bind fun x => if x then .ok true else b) = .ok false →
      a = .ok false ∧ b = .ok false := by
    intro a b h
    cases a with
    | ok x => cases x <;> simp_all
    | _ => cases h
  have check : ∀ {e : Expr K} {p : K → Bool} {rest : Res Bool}, constCheck e p rest = .ok false → rest = .ok false := by
    intro e p rest h
    simp only [constCheck] at h
    split at h
    · obtain ⟨c, -, h⟩ := Res.bind_eq_ok.1 h
      split at h
      · cases h
      · exact h
    · exact h
  induction h with
  | const => exact .const _
  | var => exact .var _
  | fsym h => simp [hs] at h
  | fn _ ih => cases hw with | un _ hw => exact .fn _ (ih hw hc)
  | pd h => simp [hp] at h
  | @bin ρ op l r a b c hl hr h ihl ihr =>
    cases hw with | bin ho hwl hwr =>
    have hcc : canSimplify l = .ok false ∧ canSimplify r = .ok false := by
      simp only [canSimplify] at hc
      split at hc
      · cases hc
      · rcases ho with rfl | rfl | rfl | rfl <;> simp only [canBin] at hc
        · exact either (check (check hc))
        · exact either (check (check hc))
        · have := check (check hc)
          split at this
          · cases this
          · exact either this
        · exact either (check (check hc))
    exact .bin ho (ihl hwl hcc.1) (ihr hwr hcc.2)
  | dotOne => simp [canSimplify, isConst, canBin, constCheck] at hc
  | dotSnoc => simp [canSimplify, isConst, canBin, constCheck] at hc
  | integ f _ _ _ _ h => exact absurd h (hint _ _ _ _)

end

/-! ### Forms: a value, or sums and differences of integrals with a value -/

/-- `e` is an expression with property `Q`, or (`b = true`) a sum of integrals whose integrands have it. -/
inductive FormOf (Q : Expr XReal → ℝ → Prop) : Bool → Expr XReal → ℝ → Prop
  | plain {e a} : Q e a → FormOf Q false e a
  | integral (k) {e a} : Q e a → FormOf Q true (.un (.symInt k) e) a
  | plus {l r a b} : FormOf Q true l a → FormOf Q true r b → FormOf Q true (.bin .plus l r) (a + b)
  | minus {l r a b} : FormOf Q true l a → FormOf Q true r b → FormOf Q true (.bin .minus l r) (a - b)

theorem FormOf.map {Q Q' : Expr XReal → ℝ → Prop} {φ : Expr XReal → Expr XReal}
    (hi : ∀ k e, φ (.un (.symInt k) e) = .un (.symInt k) (φ e)) (hb : ∀ op l r, φ (.bin op l r) = .bin op (φ l) (φ r))
    (hQ : ∀ e a, Q e a → Q' (φ e) a) {b e a} (h : FormOf Q b e a) : FormOf Q' b (φ e) a := by
  induction h with
  | plain h => exact .plain (hQ _ _ h)
  | integral k h => rw [hi]; exact .integral k (hQ _ _ h)
  | plus _ _ ihl ihr => rw [hb]; exact .plus ihl ihr
  | minus _ _ ihl ihr => rw [hb]; exact .minus ihl ihr

theorem FormOf.all {Q : Expr XReal → ℝ → Prop} {P : Expr XReal → Prop}
    (hi : ∀ k e, P e → P (.un (.symInt k) e)) (hb : ∀ op l r, IsArithOp op → P l → P r → P (.bin op l r))
    (hQ : ∀ e a, Q e a → P e) {b e a} (h : FormOf Q b e a) : P e := by
  induction h with
  | plain h => exact hQ _ _ h
  | integral k h => exact hi k _ (hQ _ _ h)
  | plus _ _ ihl ihr => exact hb _ _ _ (.inl rfl) ihl ihr
  | minus _ _ ihl ihr => exact hb _ _ _ (.inr (.inl rfl)) ihl ihr

/-- Use a property of the whole for the parts. -/
theorem FormOf.strengthen {Q Q' : Expr XReal → ℝ → Prop} {P : Expr XReal → Prop}
    (hi : ∀ k e, P (.un (.symInt k) e) → P e) (hb : ∀ op l r, op = .plus ∨ op = .minus → P (.bin op l r) → P l ∧ P r)
    (hQ : ∀ e a, Q e a → P e → Q' e a) {b e a} (h : FormOf Q b e a) (hP : P e) : FormOf Q' b e a := by
  induction h with
  | plain h => exact .plain (hQ _ _ h hP)
  | integral k h => exact .integral k (hQ _ _ h (hi _ _ hP))
  | plus _ _ ihl ihr => exact .plus (ihl (hb _ _ _ (.inl rfl) hP).1) (ihr (hb _ _ _ (.inl rfl) hP).2)
  | minus _ _ ihl ihr => exact .minus (ihl (hb _ _ _ (.inr rfl) hP).1) (ihr (hb _ _ _ (.inr rfl) hP).2)

theorem FormOf.not_const {Q : Expr XReal → ℝ → Prop} {e a} (h : FormOf Q true e a) : isConst e = false := by
  generalize hb : true = b at h
  induction h with
  | plain => cases hb
  | integral => rfl
  | plus _ _ ihl _ | minus _ _ ihl _ => simp [isConst, ihl hb]

theorem FormOf.pass {Q : Expr XReal → ℝ → Prop} (hQ : ∀ e e' a, Pass e e' → Q e a → Q e' a) {b e a}
    (h : FormOf Q b e a) {e' : Expr XReal} (hp : Pass e e') : FormOf Q b e' a := by
  induction h generalizing e' with
  | plain h => exact .plain (hQ _ _ _ hp h)
  | @integral k e a h =>
    cases hp with
    | unConst h1 h2 _ =>
      refine .integral k ?_
      cases e with
      | const c => simp only [unwrap, Res.ok.injEq] at h2; subst h2; exact h
      | bin op l r =>
        simp only [isConst, Bool.and_eq_true] at h1
        exact hQ _ _ _ (.fold h1.1 h1.2 h2) h
      | _ => simp [isConst] at h1
    | un _ hp => exact .integral k (hQ _ _ _ hp h)
  | plus hl hr ihl ihr =>
    have cl := hl.not_const
    have cr := hr.not_const
    cases hp with
    | cong _ _ _ _ h1 h2 => exact .plus (ihl h1) (ihr h2)
    | _ => simp_all
  | minus hl hr ihl ihr =>
    have cl := hl.not_const
    have cr := hr.not_const
    cases hp with
    | cong _ _ _ _ h1 h2 => exact .minus (ihl h1) (ihr h2)
    | _ => simp_all

theorem FormOf.simplified {Q : Expr XReal → ℝ → Prop} (hQ : ∀ e e' a, Pass e e' → Q e a → Q e' a) {b e a}
    (h : FormOf Q b e a) {e' : Expr XReal} (hs : VM.simplified e = .ok e') : FormOf Q b e' a :=
  (simplified_induct (P := fun e => FormOf Q b e a) (fun _ _ hp h => h.pass hQ hp) hs h).1

/-! ### The value of an integrand -/

/-- The interpretation in which the derivatives in `R` (tag, variable) and the function symbols in `S` have a value. -/
noncomputable def weakI {d : Nat} (f : Fin 2 → (Fin d → ℝ) → ℝ) (p : Fin d → ℝ) (R : Nat → Nat → Prop) (S : Nat → Prop) :
    Interp XReal :=
  open Classical in
  { sym := fun i t => if h : i = 0 ∧ t < 2 ∧ S t then some (some (f ⟨t, h.2.1⟩ p)) else none
    pd := fun x i t => if h : i = 0 ∧ t < 2 ∧ x < d ∧ R t x then
      some (some (partialDeriv ⟨x, h.2.2.1⟩ (f ⟨t, h.2.1⟩) p)) else none
    good := fun _ => False
    dom := fun _ _ _ => False
    int := fun _ _ _ _ => False }

section
variable {d : Nat} {f : Fin 2 → (Fin d → ℝ) → ℝ} {p : Fin d → ℝ}

theorem realFn_applyFn {g : Fn} {x y : ℝ} (h : realFn g x = some y) : applyFn g (some x : XReal) = some y := by
  cases g <;> simp only [realFn, applyFn, Num.fn, XReal.fn] at h ⊢ <;> (try split at h) <;> simp_all

theorem realOp_opVal {op : BOp} {x y z : ℝ} (h : realOp op x y = some z) :
    opVal op (some x : XReal) (some y) = some (some z) := by
  cases op <;> simp only [realOp, opVal, Num.add, Num.sub, Num.mul, Num.div, XReal.lift2, XReal.div] at h ⊢ <;>
    (try split at h) <;> simp_all

/-- The product of two vectors whose entries have values. -/
theorem val_dot {I : Interp XReal} {ρ : Nat → Option XReal} : ∀ (n : Nat) (ls rs : List (Expr XReal))
    (x y : Fin (n + 1) → ℝ), ls.length = n + 1 → rs.length = n + 1 →
    (∀ (i : Fin (n + 1)) e, ls[(i : Nat)]? = some e → Val I ρ e (some (x i))) →
    (∀ (i : Fin (n + 1)) e, rs[(i : Nat)]? = some e → Val I ρ e (some (y i))) →
    Val I ρ (.bin .mult (.vec ls) (.vec rs)) (some (∑ i, x i * y i)) := by
  have mul : ∀ (l r : Expr XReal) (x y : ℝ), Val I ρ l (some x) → Val I ρ r (some y) →
      Val I ρ (.bin .mult l r) (some (x * y)) := fun l r x y hl hr => .bin hl hr (by simp [opVal, Num.mul, XReal.lift2])
  intro n
  induction n with
  | zero =>
    intro ls rs x y hl hr hx hy
    obtain ⟨l, rfl⟩ := List.length_eq_one_iff.1 hl
    obtain ⟨r, rfl⟩ := List.length_eq_one_iff.1 hr
    simpa using Val.dotOne (mul l r _ _ (hx 0 l rfl) (hy 0 r rfl))
  | succ n ih =>
    intro ls rs x y hl hr hx hy
    obtain ⟨ls, l, rfl⟩ : ∃ ls' l, ls = ls' ++ [l] := by
      rcases List.eq_nil_or_concat ls with rfl | h
      · simp at hl
      · simpa using h
    obtain ⟨rs, r, rfl⟩ : ∃ rs' r, rs = rs' ++ [r] := by
      rcases List.eq_nil_or_concat rs with rfl | h
      · simp at hr
      · simpa using h
    have hl' : ls.length = n + 1 := by simpa using hl
    have hr' : rs.length = n + 1 := by simpa using hr
    have h1 := ih ls rs (fun i => x i.castSucc) (fun i => y i.castSucc) hl' hr'
      (fun i e he => hx i.castSucc e (by
        rw [Fin.val_castSucc, List.getElem?_append_left (by rw [hl']; exact i.2)]; exact he))
      (fun i e he => hy i.castSucc e (by
        rw [Fin.val_castSucc, List.getElem?_append_left (by rw [hr']; exact i.2)]; exact he))
    have h2 := mul l r _ _ (hx (Fin.last _) l (by simp [← hl'])) (hy (Fin.last _) r (by simp [← hr']))
    rw [Fin.sum_univ_castSucc]
    simpa [Num.add, XReal.lift2] using h1.dotSnoc h2

/-- The sum of the partial derivatives. -/
theorem val_sumOf {I : Interp XReal} {ρ : Nat → Option XReal} (g : Nat → Expr XReal) (x : Nat → ℝ) : ∀ n,
    (∀ i ≤ n, Val I ρ (g i) (some (x i))) →
    Val I ρ (sumOf ((List.range (n + 1)).map g)) (some (∑ i ∈ Finset.range (n + 1), x i)) := by
  intro n
  induction n with
  | zero => intro h; simpa [sumOf] using h 0 le_rfl
  | succ n ih =>
    intro h
    have h1 := ih fun i hi => h i (by omega)
    have h2 := h (n + 1) le_rfl
    have h3 : sumOf ((List.range (n + 1 + 1)).map g) = .bin .plus (sumOf ((List.range (n + 1)).map g)) (g (n + 1)) := by
      rw [List.range_succ, List.map_append, List.range_succ_eq_map]
      simp [sumOf]
    rw [h3, Finset.sum_range_succ]
    exact .bin h1 h2 (by simp [opVal, Num.add, XReal.lift2])

theorem Spec.Entries.facts {l : Expr XReal} {ls : List (Expr XReal)} (h : Entries d l ls)
    (hl : ∀ (i : Fin d) e, ls[(i : Nat)]? = some e → WellFormed e ∧ VecDim d e ∧ GradOf IsGrad (fun _ _ _ => True) e) :
    WellFormed l ∧ VecDim d l ∧ GradOf IsGrad (fun _ _ _ => True) l := by
  cases h with
  | vec hn =>
    have hl' : ∀ e ∈ ls, WellFormed e ∧ VecDim d e ∧ GradOf IsGrad (fun _ _ _ => True) e := by
      intro e he
      obtain ⟨i, hi, rfl⟩ := List.getElem_of_mem he
      exact hl ⟨i, by omega⟩ _ (List.getElem?_eq_getElem hi)
    exact ⟨.vec fun e he => (hl' e he).1, .vec hn fun e he => (hl' e he).2.1, .vec fun e he => (hl' e he).2.2⟩
  | grad t => exact ⟨.un _ (.fsym _ _), .un _ (.fsym _ _), .un (fun _ _ _ _ => trivial) (fun _ => .inr ⟨_, _, rfl⟩) (.fsym _ _)⟩

theorem Spec.WeakVal.facts {e : Expr XReal} {a : ℝ} (h : WeakVal f p e a) :
    WellFormed e ∧ VecDim d e ∧ GradOf IsGrad (fun _ _ _ => True) e := by
  have un : ∀ {op : UOp} {e : Expr XReal}, op ≠ .grad → WellFormed e ∧ VecDim d e ∧ GradOf IsGrad (fun _ _ _ => True) e →
      WellFormed (.un op e) ∧ VecDim d (.un op e) ∧ GradOf IsGrad (fun _ _ _ => True) (.un op e) :=
    fun ho h => ⟨.un _ h.1, .un _ h.2.1, .un (fun _ _ _ _ => trivial) (fun h => absurd h ho) h.2.2⟩
  have sym : ∀ t, WellFormed (.fsym 0 t : Expr XReal) ∧ VecDim d (.fsym 0 t : Expr XReal) ∧
      GradOf IsGrad (fun _ _ _ => True) (.fsym 0 t : Expr XReal) := fun t => ⟨.fsym _ _, .fsym _ _, .fsym _ _⟩
  induction h with
  | const => exact ⟨.const _, .const _, .const _⟩
  | var => exact ⟨.var _, .var _, .var _⟩
  | sym => exact sym _
  | fn _ _ ih => exact un nofun ih
  | @op op l r x y z _ _ h ihl ihr =>
    have ho : IsArithOp op := by cases op <;> simp [realOp, IsArithOp] at h ⊢
    exact ⟨.bin ho ihl.1 ihr.1, .bin _ ihl.2.1 ihr.2.1, .bin _ ihl.2.2 ihr.2.2⟩
  | pd => exact un nofun (sym _)
  | div => exact un nofun (sym _)
  | grad h t => exact ⟨.un _ (sym _).1, .un _ (sym _).2.1, .un (fun _ _ _ _ => trivial) (fun _ => .inr ⟨_, _, rfl⟩) (sym _).2.2⟩
  | dot x y hd h1 h2 _ _ ihl ihr =>
    have hl := h1.facts ihl
    have hr := h2.facts ihr
    exact ⟨.bin (.inr (.inr (.inl rfl))) hl.1 hr.1, .bin _ hl.2.1 hr.2.1, .bin _ hl.2.2 hr.2.2⟩

theorem Spec.Entries.writtenOut {l : Expr XReal} {ls : List (Expr XReal)} (h : Entries d l ls) (hd : 2 ≤ d)
    {x : Fin d → ℝ} (hx : ∀ (i : Fin d) e, ls[(i : Nat)]? = some e → WeakVal f p e (x i)) :
    VM.Spec.writtenOut d l = .vec (ls.map (VM.Spec.writtenOut d)) ∧ ls.length = d := by
  cases h with
  | vec hn => exact ⟨by simp [VM.Spec.writtenOut, writtenOutL_eq_map], hn⟩
  | grad t =>
    have h0 := hx ⟨0, by omega⟩ (.un (.pd 0) (.fsym 0 t)) (by rw [List.getElem?_map, List.getElem?_range (by omega)]; rfl)
    have ht : t = 0 ∨ t = 1 := by
      generalize he : (Expr.un (.pd 0) (.fsym 0 t) : Expr XReal) = e at h0
      generalize x ⟨0, by omega⟩ = a at h0
      cases h0 with
      | pd i u =>
        simp only [Expr.un.injEq, Expr.fsym.injEq] at he
        have := u.2
        omega
      | _ => cases he
    have hd' : d ≠ 1 := by omega
    refine ⟨?_, by simp⟩
    rcases ht with rfl | rfl <;> simp [VM.Spec.writtenOut, ofUV, gradIn, hd', partials]

theorem weakI_pd {R : Nat → Nat → Prop} {S : Nat → Prop} (i : Fin d) (t : Fin 2) (h : R t i) :
    (weakI f p R S).pd i 0 t = some (some (partialDeriv i (f t) p)) := by
  have := t.2
  simp [weakI, h]; omega

theorem weakI_sym {R : Nat → Nat → Prop} {S : Nat → Prop} (t : Fin 2) (h : S t) :
    (weakI f p R S).sym 0 t = some (some (f t p)) := by
  have := t.2
  simp [weakI, h]; omega

theorem ofVec_realPoint (i : Fin d) : ofVec (realPoint p) i = some (some (p i)) := by
  simp [ofVec, realPoint]

theorem Spec.WeakVal.val {e : Expr XReal} {a : ℝ} (h : WeakVal f p e a) (hd : 0 < d) :
    Val (weakI f p (fun _ _ => True) fun _ => True) (ofVec (realPoint p)) (writtenOut d e) (some a) := by
  induction h with
  | const c => exact .const
  | var i => exact .var (ofVec_realPoint i)
  | sym t => exact .fsym (weakI_sym t trivial)
  | fn _ hf ih =>
    have := ih.fn (f := ‹Fn›)
    rw [realFn_applyFn hf] at this
    simpa [writtenOut, ofUV] using this
  | op _ _ h ihl ihr => exact .bin ihl ihr (realOp_opVal h)
  | pd i t => simpa [writtenOut, ofUV] using Val.pd (weakI_pd i t trivial)
  | div t =>
    obtain ⟨n, rfl⟩ : ∃ n, d = n + 1 := ⟨d - 1, by omega⟩
    have ho : ofUV (n + 1) .divg (.fsym 0 t : Expr XReal) = some (divIn (n + 1) 0 t) := by
      obtain rfl | rfl : t = 0 ∨ t = 1 := by omega
      · rfl
      · rfl
    simp only [writtenOut, ho, Option.getD_some, divIn, partials]
    have := val_sumOf (I := weakI f p (fun _ _ => True) fun _ => True) (ρ := ofVec (realPoint p))
      (fun x => .un (.pd x) (.fsym 0 t)) (fun x => if h : x < n + 1 then partialDeriv ⟨x, h⟩ (f t) p else 0) n
      (by
        intro i hi
        rw [dif_pos (by omega : i < n + 1)]
        exact .pd (weakI_pd ⟨i, by omega⟩ t trivial))
    rw [Finset.sum_range] at this
    simpa only [Fin.is_lt, dite_true] using this
  | grad h t =>
    have ho : ofUV d .grad (.fsym 0 t : Expr XReal) = some (.un (.pd 0) (.fsym 0 t)) := by
      obtain rfl | rfl : t = 0 ∨ t = 1 := by omega
      · simp [ofUV, gradIn, h]
      · simp [ofUV, gradIn, h]
    simp only [writtenOut, ho, Option.getD_some]
    exact .pd (weakI_pd ⟨0, by omega⟩ t trivial)
  | @dot l r ls rs x y hd h1 h2 hx hy ihx ihy =>
    obtain ⟨g1, l1⟩ := h1.writtenOut hd hx
    obtain ⟨g2, l2⟩ := h2.writtenOut hd hy
    obtain ⟨n, rfl⟩ : ∃ n, d = n + 1 := ⟨d - 1, by omega⟩
    simp only [writtenOut, g1, g2]
    refine val_dot n _ _ x y (by simpa using l1) (by simpa using l2) ?_ ?_
    · intro i e he
      obtain ⟨e', h1, rfl⟩ : ∃ e', ls[(i : Nat)]? = some e' ∧ writtenOut (n + 1) e' = e := by simpa using he
      exact ihx i e' h1
    · intro i e he
      obtain ⟨e', h1, rfl⟩ : ∃ e', rs[(i : Nat)]? = some e' ∧ writtenOut (n + 1) e' = e := by simpa using he
      exact ihy i e' h1

/-! ### The steps -/

/-- A form whose parts satisfy `Q`, with the properties that make every step succeed. -/
structure Good (d : Nat) (Q : Expr XReal → ℝ → Prop) (b : Bool) (e : Expr XReal) (a : ℝ) : Prop where
  form : FormOf Q b e a
  wf : WellFormed e
  dim : VecDim d e

theorem Good.simplified {Q : Expr XReal → ℝ → Prop} (hp : ∀ e e' a, Pass e e' → Q e a → Q e' a) (hd : 0 < d)
    {b : Bool} {e : Expr XReal} {a : ℝ} (h : Good d Q b e a) :
    ∃ e', VM.simplified e = .ok e' ∧ Good d Q b e' a ∧ canSimplify e' = .ok false := by
  obtain ⟨e', he'⟩ := simplified_ok hd h.wf h.dim
  have := simplified_induct (P := fun e => FormOf Q b e a ∧ WellFormed e ∧ VecDim d e)
    (fun _ _ hq h => ⟨h.1.pass hp hq, hq.wellFormed h.2.1, hq.vecDim h.2.2⟩) he' ⟨h.form, h.wf, h.dim⟩
  exact ⟨e', he', ⟨this.1.1, this.1.2.1, this.1.2.2⟩, this.2⟩

theorem weakI_pass {R : Nat → Nat → Prop} {S : Nat → Prop} {ρ : Nat → Option XReal} (e e' : Expr XReal) (a : ℝ)
    (hp : Pass e e') (h : Val (weakI f p R S) ρ e (some a)) : Val (weakI f p R S) ρ e' (some a) :=
  hp.val (I := weakI f p R S) (fun _ h => False.elim h) h (by simp [SimpLaws.bad])

/-- The coordinate system. -/
theorem Good.coords {D : Dim} (hD : D.toNat = d) {R : Nat → Nat → Prop} {S : Nat → Prop} {ρ : Nat → Option XReal}
    {b : Bool} {e : Expr XReal} {a : ℝ} (hg : GradOf IsGrad (fun _ _ _ => True) e)
    (h : Good d (fun e a => Val (weakI f p R S) ρ (writtenOut d e) (some a)) b e a) :
    ∃ e', VM.coords D e = .ok e' ∧ Good d (fun e a => Val (weakI f p R S) ρ e (some a)) b e' a := by
  have hd : 0 < d := by rw [← hD]; cases D <;> simp [Dim.toNat]
  have st : ∀ op t (e : Expr XReal), (op = .grad ∨ op = .divg) → (t = 0 ∨ t = 1) →
      Good d (fun e a => Val (weakI f p R S) ρ (writtenOut d e) (some a)) b e a →
      ∃ e', coordStep d op t e = .ok e' ∧
        Good d (fun e a => Val (weakI f p R S) ρ (writtenOut d e) (some a)) b e' a := by
    intro op t e hop ht h
    have hr := replOf_props (K := XReal) D hop ht
    rw [hD] at hr
    have hn : ∀ k, op ≠ .symInt k := by rcases hop with rfl | rfl <;> simp
    have h1 : Good d (fun e a => Val (weakI f p R S) ρ (writtenOut d e) (some a)) b (rq op 0 t (replOf d op t) e) a := by
      refine ⟨h.form.map (fun k e => rq_un _ _ _ _ _ _ fun h => hn k h.1.symm) (fun _ _ _ => by simp [rq]) ?_,
        hr.2.2.2.1.rq h.wf, (hr.2.2.2.2 d (.inr rfl)).rq h.dim⟩
      intro e a he
      rwa [writtenOut_rq hr.1 hd (hr.2.1.gradOf (A := IsGrad) (fun _ h => .inl h)).writtenOut]
    obtain ⟨e', he', h2, -⟩ := h1.simplified (fun e e' a hp h => hp.val_writtenOut (I := weakI f p R S) (ρ := ρ) (a := some a) hd (fun _ h => False.elim h) h
      (by simp [SimpLaws.bad])) hd
    exact ⟨e', he', h2⟩
  obtain ⟨e1, h1, g1⟩ := st .grad 0 e (.inl rfl) (.inl rfl) h
  obtain ⟨e2, h2, g2⟩ := st .grad 1 e1 (.inl rfl) (.inr rfl) g1
  obtain ⟨e3, h3, g3⟩ := st .divg 0 e2 (.inr rfl) (.inl rfl) g2
  obtain ⟨e4, h4, g4⟩ := st .divg 1 e3 (.inr rfl) (.inr rfl) g3
  have hc : VM.coords D e = .ok e4 := by simp [coords_eq, hD, h1, h2, h3, h4, Res.bind]
  refine ⟨e4, hc, ?_, g4.wf, g4.dim⟩
  refine g4.form.strengthen (P := GradOf IsGrad NotUV) (fun k e h => ?_) (fun op l r _ h => ?_) (fun e a h hP => ?_)
    (coords_gradOf hc hg)
  · cases h with | un _ _ h => exact h
  · cases h with | bin _ h1 h2 => exact ⟨h1, h2⟩
  · rwa [hP.writtenOut] at h

theorem Spec.Smooth.vecDim' {e : Expr XReal} (h : Smooth e) : VecDim d e := by
  induction h with
  | const => exact .const _
  | var => exact .var _
  | fn _ _ ih => exact .un _ ih
  | bin _ _ _ ihl ihr => exact .bin _ ihl ihr

variable {F : Nat → Expr XReal} (hF : ∀ t : Fin 2, Reg p (F t)) (hf : ∀ t : Fin 2, f t = denotes (F t))

include hF hf in
/-- One derivative. -/
theorem Good.derivative (hd : 0 < d) {R : Nat → Nat → Prop} {S : Nat → Prop} {b : Bool} {e : Expr XReal} {a : ℝ} {t x : Nat}
    (ht : t < 2) (hx : x < d) (h : Good d (fun e a => Val (weakI f p R S) (ofVec (realPoint p)) e (some a)) b e a) :
    ∃ D e', diff (.var x) (F t) = .ok D ∧ substitute (diffSymbol 0 t x) D e = .ok e' ∧
      Good d (fun e a => Val (weakI f p (fun t' x' => R t' x' ∧ ¬ (t' = t ∧ x' = x)) S) (ofVec (realPoint p)) e (some a)) b e' a := by
  have hr := hF ⟨t, ht⟩
  obtain ⟨D, hD, -⟩ := Props.C11_derivative (F t) x hr.smooth
  have hs := hr.smooth.diff hD
  have hDr : Reg p D := hr.diff hD
  have hv : rv p D = partialDeriv ⟨x, hx⟩ (f ⟨t, ht⟩) p := by
    rw [hf, (partialDeriv_congr ⟨x, hx⟩ (denotes_eventually hr)).self_of_nhds]
    exact (Reg.hasDerivAt (i := ⟨x, hx⟩) hD hr).deriv.symm
  have h1 : Good d (fun e a => Val (weakI f p (fun t' x' => R t' x' ∧ ¬ (t' = t ∧ x' = x)) S) (ofVec (realPoint p)) e (some a))
      b (rq (.pd x) 0 t D e) a := by
    refine ⟨h.form.map (fun k e => rq_un _ _ _ _ _ _ (by simp)) (fun _ _ _ => by simp [rq]) ?_, hs.arith.wellFormed.rq h.wf,
      hs.vecDim'.rq h.dim⟩
    intro e a he
    refine rq_pd_val (fun _ _ _ _ h => h) he (fun _ _ _ h => h) ?_
    intro y j u c hc
    by_cases hh : y = x ∧ j = 0 ∧ u = t
    · obtain ⟨rfl, rfl, rfl⟩ := hh
      refine .inl ⟨rfl, rfl, rfl, ?_⟩
      have := Val.of_eval (I := weakI f p (fun t' x' => R t' x' ∧ ¬ (t' = u ∧ x' = y)) S) (hDr.eval leftFirst)
      simp only [weakI] at hc
      split at hc
      · cases hc; rwa [hv] at this
      · cases hc
    · refine .inr ⟨hh, ?_⟩
      simp only [weakI] at hc ⊢
      split at hc
      · rename_i h'
        rw [dif_pos ⟨h'.1, h'.2.1, h'.2.2.1, h'.2.2.2, fun h'' => hh ⟨h''.2, h'.1, h''.1⟩⟩]
        exact hc
      · cases hc
  obtain ⟨e', he', h2, -⟩ := h1.simplified weakI_pass hd
  refine ⟨D, e', hD, ?_, h2⟩
  simp [substitute, diffSymbol, substE_un _ (UOp.equal_pd x), Res.bind, he']

include hF hf in
/-- All derivatives. -/
theorem Good.derivatives (hd : 0 < d) {S : Nat → Prop} {b : Bool} {a : ℝ} (l : List (Nat × Nat)) :
    ∀ {R : Nat → Nat → Prop} {e : Expr XReal}, (∀ t x, (t, x) ∈ l → t < 2 ∧ x < d) →
    Good d (fun e a => Val (weakI f p R S) (ofVec (realPoint p)) e (some a)) b e a →
    ∃ e', replaceDerivatives F l e = .ok e' ∧
      Good d (fun e a => Val (weakI f p (fun t x => R t x ∧ (t, x) ∉ l) S) (ofVec (realPoint p)) e (some a)) b e' a := by
  induction l with
  | nil => intro R e _ h; exact ⟨e, rfl, by simpa using h⟩
  | cons tx l ih =>
    obtain ⟨t, x⟩ := tx
    intro R e hl h
    obtain ⟨ht, hx⟩ := hl t x (by simp)
    obtain ⟨D, e1, h1, h2, h3⟩ := h.derivative hF hf hd ht hx
    obtain ⟨e', h4, h5⟩ := ih (fun t x h => hl t x (by simp [h])) h3
    refine ⟨e', by simp [replaceDerivatives, h1, h2, h4, Res.bind], ?_⟩
    have : (fun t' x' => (R t' x' ∧ ¬ (t' = t ∧ x' = x)) ∧ (t', x') ∉ l) = fun t' x' => R t' x' ∧ (t', x') ∉ (t, x) :: l := by
      funext t' x'; simp [and_assoc]
    rwa [this] at h5

include hF hf in
/-- A function symbol. -/
theorem Good.symbol (hd : 0 < d) {S : Nat → Prop} {b : Bool} {e : Expr XReal} {a : ℝ} {t : Nat} (ht : t < 2)
    (h : Good d (fun e a => Val (weakI f p (fun _ _ => False) S) (ofVec (realPoint p)) e (some a)) b e a) :
    ∃ e', substitute (.fsym 0 t) (F t) e = .ok e' ∧
      Good d (fun e a => Val (weakI f p (fun _ _ => False) fun t' => S t' ∧ t' ≠ t) (ofVec (realPoint p)) e (some a)) b e' a ∧
      canSimplify e' = .ok false := by
  have hr := hF ⟨t, ht⟩
  have hs : Smooth (F t) := hr.smooth
  have h1 : Good d (fun e a => Val (weakI f p (fun _ _ => False) fun t' => S t' ∧ t' ≠ t) (ofVec (realPoint p)) e (some a))
      b (ry 0 t (F t) e) a := by
    refine ⟨h.form.map (fun k e => by simp [ry]) (fun _ _ _ => by simp [ry]) ?_, hs.arith.wellFormed.ry h.wf,
      hs.vecDim'.ry h.dim⟩
    intro e a he
    refine ry_val (fun _ _ _ _ h => h) he ?_ ?_
    · intro j u c hc
      simp only [weakI] at hc ⊢
      split at hc
      · rename_i h'
        cases hc
        by_cases hu : u = t
        · subst hu
          refine .inl ⟨h'.1, rfl, ?_⟩
          rw [hf, denotes_reg hr]
          exact Val.of_eval (hr.eval leftFirst)
        · exact .inr ⟨fun h => hu h.2, by rw [dif_pos ⟨h'.1, h'.2.1, h'.2.2, hu⟩]⟩
      · cases hc
    · intro y j u c hc
      simp [weakI] at hc
  obtain ⟨e', he', h2, h3⟩ := h1.simplified weakI_pass hd
  exact ⟨e', by simp [substitute, substE_fsym, he'], h2, h3⟩

include hF hf in
/-- The whole program. -/
theorem Good.insertFunctions (hd : 0 < d) {b : Bool} {e : Expr XReal} {a : ℝ} {l : List (Nat × Nat)}
    (hl : ∀ t x, (t, x) ∈ l ↔ t < 2 ∧ x < d)
    (h : Good d (fun e a => Val (weakI f p (fun _ _ => True) fun _ => True) (ofVec (realPoint p)) e (some a)) b e a) :
    ∃ e', Spec.insertFunctions F l e = .ok e' ∧
      Good d (fun e a => Val Interp.none (ofVec (realPoint p)) e (some a)) b e' a ∧ canSimplify e' = .ok false := by
  obtain ⟨e1, h1, g1⟩ := h.derivatives hF hf hd l fun t x h => (hl t x).1 h
  have g1' : Good d (fun e a => Val (weakI f p (fun _ _ => False) fun _ => True) (ofVec (realPoint p)) e (some a)) b e1 a := by
    have : weakI f p (fun t x => True ∧ (t, x) ∉ l) (fun _ => True) = weakI f p (fun _ _ => False) fun _ => True := by
      simp only [weakI, Interp.mk.injEq, true_and, and_true]
      funext x i t
      split
      · rename_i h'
        exact absurd ((hl _ _).2 ⟨h'.2.1, h'.2.2.1⟩) h'.2.2.2
      · simp
    rwa [this] at g1
  obtain ⟨e2, h2, g2, -⟩ := g1'.symbol hF hf hd (t := 0) (by omega)
  obtain ⟨e3, h3, g3, hc⟩ := g2.symbol hF hf hd (t := 1) (by omega)
  refine ⟨e3, by simp [Spec.insertFunctions, h1, h2, h3, Res.bind], ?_, hc⟩
  have : weakI f p (fun _ _ => False) (fun t => (True ∧ t ≠ 0) ∧ t ≠ 1) = (Interp.none : Interp XReal) := by
    simp only [weakI, Interp.none, Interp.mk.injEq, and_true]
    refine ⟨?_, ?_⟩
    · funext i t
      split
      · rename_i h'; omega
      · rfl
    · simp
  rwa [this] at g3

/-- An expression with a value has values for its variables. -/
theorem Spec.Val.occurs {I : Interp XReal} (hint : ∀ a b f c, ¬ I.int a b f c) {ρ : Nat → Option XReal} {e : Expr XReal}
    {a : XReal} (h : Val I ρ e a) {j : Nat} (hj : Occurs j e) : ρ j ≠ none := by
  induction h with
  | const => cases hj
  | var h => cases hj; simp [h]
  | fsym => cases hj
  | fn _ ih => cases hj with | un hj => exact ih hj
  | pd => cases hj with | un hj => cases hj
  | bin _ _ _ ihl ihr => cases hj with | binL hj => exact ihl hj | binR hj => exact ihr hj
  | dotOne _ ih =>
    cases hj with
    | binL hj => cases hj with | vec hm hj => simp only [List.mem_singleton] at hm; subst hm; exact ih (.binL hj)
    | binR hj => cases hj with | vec hm hj => simp only [List.mem_singleton] at hm; subst hm; exact ih (.binR hj)
  | dotSnoc _ _ ih1 ih2 =>
    cases hj with
    | binL hj =>
      cases hj with
      | vec hm hj =>
        rcases List.mem_append.1 hm with hm | hm
        · exact ih1 (.binL (.vec hm hj))
        · simp only [List.mem_singleton] at hm; subst hm; exact ih2 (.binL hj)
    | binR hj =>
      cases hj with
      | vec hm hj =>
        rcases List.mem_append.1 hm with hm | hm
        · exact ih1 (.binR (.vec hm hj))
        · simp only [List.mem_singleton] at hm; subst hm; exact ih2 (.binR hj)
  | integ f _ _ _ _ h => exact absurd h (hint _ _ _ _)

/-- Quadrature of a form in one dimension. -/
theorem quad_form (o : Order XReal) {lo hi : Expr XReal} {a b : ℝ} (hlo : ConstArith lo) (hhi : ConstArith hi)
    (ha : eval o [] lo = .ok (some a)) (hb : eval o [] hi = .ok (some b)) (k : Nat) {e : Expr XReal} {c : ℝ}
    (h : FormOf (fun e a' => eval o (realPoint fun _ : Fin 1 => (a + b) / 2) e = .ok (some a')) true e c) :
    ∃ e', substituteInterval k lo hi 0 e = .ok e' ∧ SumOf (fun lo hi x f c => gaussQuad1 o lo hi x f = .ok c) e'
      (some (c * (b - a))) := by
  generalize hbool : true = b' at h
  induction h with
  | plain => cases hbool
  | @integral k e c he =>
    refine ⟨.integ lo hi 0 e, rfl, .integ ?_⟩
    have := gaussQuad1_value (x := 0) (w := realPoint fun _ : Fin 1 => (a + b) / 2) o hlo hhi ha hb ?_ ?_ he (by simp [SimpLaws.bad])
    · simpa [Num.mul, Num.sub, XReal.lift2] using this
    · intro j hj
      have := (Val.of_eval (I := Interp.none) he).occurs (fun _ _ _ _ h => h) hj
      simp only [ofVec, realPoint, ne_eq, List.getElem?_eq_none_iff, List.length_ofFn] at this
      omega
    · simp [realPoint, Num.div, Num.add, Num.lit, XReal.lift2, XReal.div]
  | plus _ _ ihl ihr =>
    obtain ⟨l', hl, sl⟩ := ihl hbool
    obtain ⟨r', hr, sr⟩ := ihr hbool
    refine ⟨.bin .plus l' r', ?_, ?_⟩
    · simp only [substituteInterval] at hl hr ⊢
      simp [manipulate, symIntFunctor] at hl hr ⊢
      simp [hl, hr]
    · have := sl.plus sr
      simp only [Num.add, XReal.lift2] at this
      rwa [add_mul]
  | minus _ _ ihl ihr =>
    obtain ⟨l', hl, sl⟩ := ihl hbool
    obtain ⟨r', hr, sr⟩ := ihr hbool
    refine ⟨.bin .minus l' r', ?_, ?_⟩
    · simp only [substituteInterval] at hl hr ⊢
      simp [manipulate, symIntFunctor] at hl hr ⊢
      simp [hl, hr]
    · have := sl.minus sr
      simp only [Num.sub, XReal.lift2] at this
      rwa [sub_mul]

/-- The parts of a simplified form are simplified. -/
theorem canSimplify_parts {op : BOp} {l r : Expr XReal} (ho : op = .plus ∨ op = .minus)
    (h : canSimplify (.bin op l r) = .ok false) : canSimplify l = .ok false ∧ canSimplify r = .ok false := by
  have either : ∀ {a b : Res Bool}, (a.bind fun x => if x then .ok true else b) = .ok false →
      a = .ok false ∧ b = .ok false := by
    intro a b h
    cases a with
    | ok x => cases x <;> simp_all
    | _ => cases h
  have check : ∀ {e : Expr XReal} {p : XReal → Bool} {rest : Res Bool}, constCheck e p rest = .ok false → rest = .ok false := by
    intro e p rest h
    simp only [constCheck] at h
    split at h
    · obtain ⟨c, -, h⟩ := Res.bind_eq_ok.1 h
      split at h
      · cases h
      · exact h
    · exact h
  simp only [canSimplify] at h
  split at h
  · cases h
  · rcases ho with rfl | rfl <;> simp only [canBin] at h <;> exact either (check (check h))

/-- At the end every part can be evaluated. -/
theorem Good.eval {b : Bool} {e : Expr XReal} {a : ℝ}
    (h : Good d (fun e a => Val Interp.none (ofVec (realPoint p)) e (some a)) b e a) (hc : canSimplify e = .ok false)
    (o : Order XReal) : FormOf (fun e a => VM.eval o (realPoint p) e = .ok (some a)) b e a := by
  refine h.form.strengthen (P := fun e => WellFormed e ∧ canSimplify e = .ok false) (fun k e h => ?_)
    (fun op l r ho h => ?_) (fun e a h hP => ?_) ⟨h.wf, hc⟩
  · obtain ⟨h1, h2⟩ := h
    cases h1 with | un _ h1 => exact ⟨h1, h2⟩
  · obtain ⟨h1, h2⟩ := h
    cases h1 with | bin _ hl hr => exact ⟨⟨hl, (canSimplify_parts ho h2).1⟩, ⟨hr, (canSimplify_parts ho h2).2⟩⟩
  · exact h.eval o (h.arith (fun _ _ _ _ h => h) (fun _ _ => rfl) (fun _ _ _ => rfl) hP.1 hP.2)

include hF hf in
/-- Everything together. -/
theorem weak_insert {D : Dim} (hD : D.toNat = d) {b : Bool} {e : Expr XReal} {a : ℝ} {l : List (Nat × Nat)}
    (hl : ∀ t x, (t, x) ∈ l ↔ t < 2 ∧ x < d) (h : FormOf (WeakVal f p) b e a) :
    ∃ e1 e2, VM.coords D e = .ok e1 ∧ Spec.insertFunctions F l e1 = .ok e2 ∧
      ∀ o, FormOf (fun e a => VM.eval o (realPoint p) e = .ok (some a)) b e2 a := by
  have hd : 0 < d := by rw [← hD]; cases D <;> simp [Dim.toNat]
  have hfacts := h.all (P := fun e => WellFormed e ∧ VecDim d e ∧ GradOf IsGrad (fun _ _ _ => True) e)
    (fun k e h => ⟨.un _ h.1, .un _ h.2.1, .un (fun _ _ _ _ => trivial) nofun h.2.2⟩)
    (fun op l r ho hl hr => ⟨.bin ho hl.1 hr.1, .bin _ hl.2.1 hr.2.1, .bin _ hl.2.2 hr.2.2⟩) fun e a h => h.facts
  have g : Good d (fun e a => Val (weakI f p (fun _ _ => True) fun _ => True) (ofVec (realPoint p)) (writtenOut d e) (some a)) b e a :=
    ⟨h.map (φ := id) (fun _ _ => rfl) (fun _ _ _ => rfl) fun e a h => h.val hd, hfacts.1, hfacts.2.1⟩
  obtain ⟨e1, h1, g1⟩ := g.coords hD hfacts.2.2
  obtain ⟨e2, h2, g2, hc⟩ := g1.insertFunctions hF hf hd hl
  exact ⟨e1, e2, h1, h2, fun o => g2.eval hc o⟩

end

end VM
