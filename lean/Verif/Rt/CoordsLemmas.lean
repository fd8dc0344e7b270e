import Verif.Rt.Coords
import Verif.Rt.SubstLemmas
import Verif.Rt.ValLemmas
import Verif.Spec.Coords
/-
Lemmas about the transformation to Cartesian coordinates.
-/
namespace VM
open Spec
variable {K : Type}

mutual
/-- Replace the nodes `op (symbol (i, t))` by `r`. -/
def rq (op : UOp) (i t : Nat) (r : Expr K) : Expr K → Expr K
  | .const c => .const c
  | .var j => .var j
  | .fsym j t' => .fsym j t'
  | .un op' (.fsym j t') => if op' = op ∧ j = i ∧ t' = t then r else .un op' (.fsym j t')
  | .un op' e => .un op' (rq op i t r e)
  | .integ lo hi x e => .integ lo hi x (rq op i t r e)
  | .bin op' e f => .bin op' (rq op i t r e) (rq op i t r f)
  | .vec es => .vec (rqL op i t r es)
def rqL (op : UOp) (i t : Nat) (r : Expr K) : List (Expr K) → List (Expr K)
  | [] => []
  | e :: es => rq op i t r e :: rqL op i t r es
end

theorem rqL_eq_map (op : UOp) (i t : Nat) (r : Expr K) (es : List (Expr K)) :
    rqL op i t r es = es.map (rq op i t r) := by
  induction es with
  | nil => rfl
  | cons e es ih => simp [rqL, ih]

theorem writtenOutL_eq_map (d : Nat) (es : List (Expr K)) : writtenOutL d es = es.map (writtenOut d) := by
  induction es with
  | nil => rfl
  | cons e es ih => simp [writtenOutL, ih]

section
variable [Num K]

theorem substE_un (op : UOp) (hop : ∀ op', UOp.equal op op' = decide (op' = op)) (i t : Nat) (r e : Expr K) :
    substE (.un op (.fsym i t)) r e = .ok (rq op i t r e) := by
  have notSym : ∀ e : Expr K, (∀ j t', e ≠ .fsym j t') → deepEq e (.fsym i t) = .ok false := by
    intro e h
    cases e with
    | fsym j t' => exact absurd rfl (h j t')
    | _ => simp [deepEq]
  induction e using Expr.ind with
  | const | var | fsym => simp [substE, rq, deepEq]
  | un op' e ih =>
    by_cases h : ∃ j t', e = .fsym j t'
    · obtain ⟨j, t', rfl⟩ := h
      by_cases h : op' = op ∧ j = i ∧ t' = t
      · obtain ⟨rfl, rfl, rfl⟩ := h
        simp [substE, rq, deepEq, hop]
      · simp only [substE, rq, deepEq, hop, Res.map_ok, Res.bind_ok, h, if_false]
        have : (decide (i = j) && decide (t = t') && decide (op' = op)) = false := by
          simp only [Bool.and_eq_false_iff, decide_eq_false_iff_not]
          simp only [not_and] at h
          by_cases h1 : op' = op
          · by_cases h2 : j = i
            · exact .inl (.inr (Ne.symm (h h1 h2)))
            · exact .inl (.inl (Ne.symm h2))
          · exact .inr h1
        simp [this]
    · have h' : ∀ j t', e ≠ .fsym j t' := fun j t' he => h ⟨j, t', he⟩
      have hrq : rq op i t r (.un op' e) = .un op' (rq op i t r e) := by
        cases e with
        | fsym j t' => exact absurd rfl (h' j t')
        | _ => simp [rq]
      simp [substE, hrq, deepEq, notSym e h', ih]
  | integ lo hi x e _ _ ih =>
    have : ∃ b, deepEq e (.fsym i t) = .ok b := by
      cases e <;> simp [deepEq]
    obtain ⟨b, hb⟩ := this
    simp [substE, rq, deepEq, ih, hb]
  | bin op l r' ihl ihr => simp [substE, rq, deepEq, ihl, ihr]
  | vec es ih =>
    have : substEL (.un op (.fsym i t)) r es = .ok (rqL op i t r es) := by
      induction es with
      | nil => rfl
      | cons e es ih' =>
        simp [substEL, rqL, ih e (by simp), ih' fun e he => ih e (by simp [he])]
    simp [substE, rq, deepEq, this]

end

theorem rq_un (op op' : UOp) (i t : Nat) (r e : Expr K) (h : ¬ (op' = op ∧ e = .fsym i t)) :
    rq op i t r (.un op' e) = .un op' (rq op i t r e) := by
  cases e with
  | fsym j t' =>
    simp only [rq]
    rw [if_neg]
    rintro ⟨rfl, rfl, rfl⟩; exact h ⟨rfl, rfl⟩
  | _ => simp [rq]

theorem rq_hit (op : UOp) (i t : Nat) (r : Expr K) : rq op i t r (.un op (.fsym i t)) = r := by
  simp [rq]

theorem Spec.NoGrad.gradOf [Num K] {A : UOp → Prop} (hA : ∀ op, A op → op = .grad ∨ op = .divg)
    {P : UOp → Nat → Nat → Prop} {e : Expr K} (h : NoGrad e) : GradOf A P e := by
  induction h with
  | const c => exact .const c
  | var i => exact .var i
  | fsym i t => exact .fsym i t
  | @un op e h1 h2 _ ih =>
    have h3 : ¬ (op = .grad ∨ op = .divg) := by rintro (h | h); exact h1 h; exact h2 h
    exact .un (fun h => absurd h h3) (fun h => absurd (hA _ h) h3) ih
  | integ x h1 h2 _ _ _ ih => exact .integ x h1 h2 ih
  | bin op _ _ ihl ihr => exact .bin op ihl ihr
  | vec _ ih => exact .vec ih

theorem Spec.GradOf.mono [Num K] {A B : UOp → Prop} {P Q : UOp → Nat → Nat → Prop} (hAB : ∀ op, B op → A op)
    (hPQ : ∀ op i t, op = .grad ∨ op = .divg → P op i t → Q op i t) {e : Expr K}
    (h : GradOf A P e) : GradOf B Q e := by
  induction h with
  | const c => exact .const c
  | var i => exact .var i
  | fsym i t => exact .fsym i t
  | un h1 h2 _ ih => exact .un (fun h i t he => hPQ _ _ _ h (h1 h i t he)) (fun h => h2 (hAB _ h)) ih
  | integ x h1 h2 _ ih => exact .integ x h1 h2 ih
  | bin op _ _ ihl ihr => exact .bin op ihl ihr
  | vec _ ih => exact .vec ih

theorem rq_fsym {op : UOp} {i t : Nat} {r e : Expr K} {j u : Nat} (hr : ∀ j u, r ≠ .fsym j u)
    (h : rq op i t r e = .fsym j u) : e = .fsym j u := by
  cases e with
  | un op' e =>
    by_cases hh : op' = op ∧ e = .fsym i t
    · obtain ⟨rfl, rfl⟩ := hh; rw [rq_hit] at h; exact absurd h (hr _ _)
    · rw [rq_un _ _ _ _ _ _ hh] at h; cases h
  | fsym => simpa [rq] using h
  | _ => simp [rq] at h

theorem Spec.Firm.rq [Num K] {op : UOp} {i t : Nat} {r e : Expr K} (hr : Firm r) (h : Firm e) :
    Firm (rq op i t r e) := by
  induction h with
  | var i => exact .var i
  | fsym i t => exact .fsym i t
  | @fn f e _ ih =>
    by_cases h : UOp.fn f = op ∧ e = .fsym i t
    · obtain ⟨rfl, rfl⟩ := h; rw [rq_hit]; exact hr
    · rw [rq_un _ _ _ _ _ _ h]; exact .fn _ ih
  | @un op' e h' =>
    by_cases h : op' = op ∧ e = .fsym i t
    · obtain ⟨rfl, rfl⟩ := h; rw [rq_hit]; exact hr
    · rw [rq_un _ _ _ _ _ _ h]; exact .un _ h'
  | integ => exact .integ _ _ _ _
  | vec _ ih =>
    refine .vec ?_
    rw [rqL_eq_map]
    intro e he
    obtain ⟨f, hf, rfl⟩ := List.mem_map.1 he
    exact ih f hf
  | bin op _ _ ihl ihr => exact .bin op ihl ihr
  | binL op h1 h2 _ ih => exact .binL op h1 h2 ih
  | binR op h1 h2 _ ih => exact .binR op h1 h2 ih

/-- Solid expressions stay solid when a part is replaced by a solid expression. -/
theorem Spec.Solid.rq [Num K] {op : UOp} {i t : Nat} {r e : Expr K} (hr : Firm r) (hr' : ∀ i t, r ≠ .fsym i t)
    (h : Solid e) : Solid (rq op i t r e) := by
  induction h with
  | const c => exact .const c
  | un op' e =>
    by_cases h : op' = op ∧ e = .fsym i t
    · obtain ⟨rfl, rfl⟩ := h; rw [rq_hit]; exact .firm hr hr'
    · rw [rq_un _ _ _ _ _ _ h]; exact .un _ _
  | integ => exact .integ _ _ _ _
  | vec => exact .vec _
  | plus _ _ ihl ihr => exact .plus ihl ihr
  | firm h h' => exact .firm (hr.rq h) fun i t he => h' i t (rq_fsym hr' he)

/-- Replacing the gradients or divergences of one symbol removes it from the symbols of which there are
gradients. -/
theorem Spec.GradOf.rq [Num K] {A : UOp → Prop} {P Q : UOp → Nat → Nat → Prop} {op : UOp} {i t : Nat} {r e : Expr K} (hr : Firm r)
    (hrs : ∀ i t, r ≠ .fsym i t) (hA : ∀ op, A op → op = .grad ∨ op = .divg) (hr' : NoGrad r) (h : GradOf A P e)
    (hP : ∀ op' j t', (op' = .grad ∨ op' = .divg) → ¬ (op' = op ∧ j = i ∧ t' = t) → P op' j t' → Q op' j t') :
    GradOf A Q (VM.rq op i t r e) := by
  induction h with
  | const c => exact .const c
  | var i => exact .var i
  | fsym i t => exact .fsym i t
  | @un op' e h1 h2 _ ih =>
    by_cases h : op' = op ∧ e = .fsym i t
    · obtain ⟨rfl, rfl⟩ := h; rw [rq_hit]; exact hr'.gradOf hA
    · rw [rq_un _ _ _ _ _ _ h]
      refine .un (fun ho j t' he => ?_) (fun ha => ?_) ih
      · obtain rfl := rq_fsym hrs he
        exact hP op' j t' ho (by rintro ⟨rfl, rfl, rfl⟩; exact h ⟨rfl, rfl⟩) (h1 ho j t' rfl)
      · rcases h2 ha with h3 | ⟨j, t', rfl⟩
        · exact .inl (Solid.rq hr hrs h3)
        · exact .inr ⟨j, t', rfl⟩
  | integ x h1 h2 _ ih => exact .integ x h1 h2 ih
  | bin op _ _ ihl ihr => exact .bin op ihl ihr
  | vec _ ih =>
    simp only [VM.rq, rqL_eq_map]
    refine .vec fun e he => ?_
    obtain ⟨e', he', rfl⟩ := List.mem_map.1 he
    exact ih e' he'

theorem Spec.Firm.isConst [Num K] {e : Expr K} (h : Firm e) : isConst e = false := by
  induction h with
  | bin _ _ _ ih _ => simp [VM.isConst, ih]
  | binL _ _ _ _ ih => simp [VM.isConst, ih]
  | binR _ _ _ _ ih => simp [VM.isConst, ih]
  | _ => rfl

theorem Spec.Firm.dotFrom [Num K] {acc : Expr K} {ls rs : List (Expr K)}
    (ha : Firm acc) (hl : ∀ e ∈ ls, Firm e) (hr : ∀ e ∈ rs, Firm e) :
    Firm (dotFrom acc ls rs) := by
  induction ls generalizing acc rs with
  | nil => cases rs <;> exact ha
  | cons l ls ih => cases rs with
    | nil => exact ha
    | cons r rs =>
      exact ih (.bin _ ha (.bin _ (hl l (by simp)) (hr r (by simp)))) (fun e he => hl e (by simp [he]))
        (fun e he => hr e (by simp [he]))

theorem dotFrom_not_fsym {op : BOp} {l r : Expr K} {ls rs : List (Expr K)} (i t : Nat) :
    dotFrom (.bin op l r) ls rs ≠ .fsym i t := by
  induction ls generalizing op l r rs with
  | nil => cases rs <;> exact nofun
  | cons _ ls ih => cases rs with
    | nil => exact nofun
    | cons _ rs => exact ih

/-- Simplification keeps firm expressions firm, and makes none of them a function symbol. -/
theorem Spec.Firm.pass [Num K] {e e' : Expr K} (h : Firm e) (hp : Pass e e') :
    Firm e' ∧ ∀ i t, e' = .fsym i t → e = .fsym i t := by
  induction h generalizing e' with
  | var i => cases hp; exact ⟨.var i, fun _ _ h => h⟩
  | fsym i t => cases hp; exact ⟨.fsym i t, fun _ _ h => h⟩
  | fn f h ih =>
    cases hp with
    | unFold hc => rw [h.isConst] at hc; cases hc
    | unConst hc => rw [h.isConst] at hc; cases hc
    | un _ hp => exact ⟨.fn _ (ih hp).1, nofun⟩
  | un e h =>
    cases hp with
    | unFold => exact absurd rfl (h _)
    | unConst => exact ⟨.un _ h, nofun⟩
    | un => exact ⟨.un _ h, nofun⟩
  | integ => cases hp <;> exact ⟨.integ _ _ _ _, nofun⟩
  | vec h => cases hp; exact ⟨.vec h, nofun⟩
  | @bin op l r hl hr ihl ihr =>
    have cl := hl.isConst
    have cr := hr.isConst
    cases hp with
    | dotp h =>
      rename_i ls rs
      cases ls with
      | nil => simp [dot] at h
      | cons a ls => cases rs with
        | nil => simp [dot] at h
        | cons b rs =>
          simp only [dot] at h
          split at h
          · cases h
            cases hl with | vec hl =>
            cases hr with | vec hr =>
            exact ⟨.dotFrom (.bin _ (hl a (by simp)) (hr b (by simp))) (fun e he => hl e (by simp [he]))
              (fun e he => hr e (by simp [he])), fun i t h => absurd h (dotFrom_not_fsym i t)⟩
          · cases h
    | cong _ _ _ _ h1 h2 => exact ⟨.bin _ (ihl h1).1 (ihr h2).1, nofun⟩
    | uid => exact ⟨.bin _ hl hr, nofun⟩
    | _ => simp_all
  | @binL op c r h0 h1 hr ihr =>
    have cr := hr.isConst
    cases hp with
    | constL _ _ _ hu _ h =>
      simp only [unwrap, Res.ok.injEq] at hu; subst hu
      exact ⟨.binL _ h0 h1 (ihr h).1, nofun⟩
    | uid => exact ⟨.binL _ h0 h1 hr, nofun⟩
    | _ => simp_all [unwrap, VM.isConst]
  | @binR op c l h0 h1 hl ihl =>
    have cl := hl.isConst
    cases hp with
    | constR _ _ _ hu _ h =>
      simp only [unwrap, Res.ok.injEq] at hu; subst hu
      exact ⟨.binR _ h0 h1 (ihl h).1, nofun⟩
    | uid => exact ⟨.binR _ h0 h1 hl, nofun⟩
    | _ => simp_all [unwrap, VM.isConst]

/-- Simplification keeps solid expressions solid. -/
theorem Spec.Solid.pass [Num K] {e e' : Expr K} (h : Solid e) (hp : Pass e e') : Solid e' := by
  induction h generalizing e' with
  | const c => cases hp; exact .const c
  | un op e => cases hp <;> first | exact .const _ | exact .un _ _
  | integ => cases hp <;> exact .integ _ _ _ _
  | vec => cases hp; exact .vec _
  | plus _ _ ihl ihr =>
    cases hp with
    | fold => exact .const _
    | plusZeroL _ _ _ _ h => exact ihr h
    | plusZeroR _ _ _ _ h => exact ihl h
    | constL _ _ _ _ _ h => exact .plus (.const _) (ihr h)
    | constR _ _ _ _ _ h => exact .plus (ihl h) (.const _)
    | cong _ _ _ _ h h' => exact .plus (ihl h) (ihr h')
  | firm h h' => exact .firm (h.pass hp).1 fun i t he => h' i t ((h.pass hp).2 i t he)

theorem Spec.Solid.not_fsym [Num K] {i t : Nat} : ¬ Solid (.fsym i t : Expr K) := by
  intro h; cases h with | firm _ h => exact h _ _ rfl

theorem Spec.GradOf.dotFrom [Num K] {A : UOp → Prop} {P : UOp → Nat → Nat → Prop} {acc : Expr K} {ls rs : List (Expr K)}
    (ha : GradOf A P acc) (hl : ∀ e ∈ ls, GradOf A P e) (hr : ∀ e ∈ rs, GradOf A P e) :
    GradOf A P (dotFrom acc ls rs) := by
  induction ls generalizing acc rs with
  | nil => cases rs <;> exact ha
  | cons l ls ih => cases rs with
    | nil => exact ha
    | cons r rs =>
      exact ih (.bin _ ha (.bin _ (hl l (by simp)) (hr r (by simp)))) (fun e he => hl e (by simp [he]))
        (fun e he => hr e (by simp [he]))

theorem Spec.GradOf.pass [Num K] {A : UOp → Prop} {P : UOp → Nat → Nat → Prop} {e e' : Expr K} (hp : Pass e e')
    (hA : ∀ op, op = .grad ∨ op = .divg → A op ∨ ∀ i t, P op i t) (h : GradOf A P e) : GradOf A P e' := by
  induction hp with
  | const | var | fsym | vec | uid => exact h
  | unFold | fold | multZeroL | multZeroR | divZeroL => exact .const _
  | unConst => exact .un nofun (fun _ => .inl (.const _)) (.const _)
  | un _ hp ih =>
    cases h with
    | un h1 h2 h3 =>
      refine .un (fun h i t he => ?_) (fun h => ?_) (ih h3)
      · rcases hA _ h with ha | h'
        · rcases h2 ha with h4 | ⟨j, u, rfl⟩
          · subst he; exact absurd (h4.pass hp) Solid.not_fsym
          · cases hp; exact h1 h i t he
        · exact h' i t
      · rcases h2 h with h4 | ⟨i, t, rfl⟩
        · exact .inl (h4.pass hp)
        · cases hp; exact .inr ⟨i, t, rfl⟩
  | integConst => cases h with | integ _ h1 h2 _ => exact .integ _ h1 h2 (.const _)
  | integ _ _ ih => cases h with | integ _ h1 h2 h3 => exact .integ _ h1 h2 (ih h3)
  | plusZeroL _ _ _ _ _ ih => cases h with | bin _ h1 h2 => exact ih h2
  | plusZeroR _ _ _ _ _ ih => cases h with | bin _ h1 h2 => exact ih h1
  | minusZeroL _ _ _ _ _ ih => cases h with | bin _ h1 h2 => exact .bin _ (.const _) (ih h2)
  | minusZeroR _ _ _ _ _ ih => cases h with | bin _ h1 h2 => exact ih h1
  | multOneL _ _ _ _ _ ih => cases h with | bin _ h1 h2 => exact ih h2
  | multOneR _ _ _ _ _ ih => cases h with | bin _ h1 h2 => exact ih h1
  | divOneR _ _ _ _ _ ih => cases h with | bin _ h1 h2 => exact ih h1
  | constL _ _ _ _ _ _ ih => cases h with | bin _ h1 h2 => exact .bin _ (.const _) (ih h2)
  | constR _ _ _ _ _ _ ih => cases h with | bin _ h1 h2 => exact .bin _ (ih h1) (.const _)
  | dotp hd =>
    cases h with
    | bin _ h1 h2 =>
      cases h1 with | vec h1 =>
      cases h2 with | vec h2 =>
      rename_i ls rs _
      cases ls with
      | nil => simp [dot] at hd
      | cons l ls => cases rs with
        | nil => simp [dot] at hd
        | cons r rs =>
          simp only [dot] at hd
          split at hd
          · cases hd
            exact .dotFrom (.bin _ (h1 l (by simp)) (h2 r (by simp))) (fun e he => h1 e (by simp [he]))
              (fun e he => h2 e (by simp [he]))
          · cases hd
  | cong _ _ _ _ _ _ ihl ihr => cases h with | bin _ h1 h2 => exact .bin _ (ihl h1) (ihr h2)

theorem Spec.GradOf.simplified [Num K] {A : UOp → Prop} {P : UOp → Nat → Nat → Prop} {e e' : Expr K} (h : GradOf A P e)
    (hA : ∀ op, op = .grad ∨ op = .divg → A op ∨ ∀ i t, P op i t) (hs : simplified e = .ok e') : GradOf A P e' :=
  (simplified_induct (P := GradOf A P) (fun _ _ hp h => h.pass hp hA) hs h).1

/-! ### Meaning -/

theorem ofUV_fsym {d : Nat} {op : UOp} {e r : Expr K} (h : ofUV d op e = some r) :
    (op = .grad ∨ op = .divg) ∧ ∃ t, (t = 0 ∨ t = 1) ∧ e = .fsym 0 t := by
  unfold ofUV at h
  split at h <;> simp_all

theorem ofUV_none {d : Nat} {op : UOp} {e : Expr K} (h : ∀ i t, e ≠ .fsym i t) : ofUV d op e = none := by
  cases h' : ofUV d op e with
  | none => rfl
  | some r =>
    obtain ⟨_, t, _, rfl⟩ := ofUV_fsym h'
    exact absurd rfl (h 0 t)

theorem sumOf_form {es : List (Expr K)} (h : es ≠ []) (he : ∀ e ∈ es, ∃ op f, e = .un op f) :
    (∃ op f, sumOf es = .un op f) ∨ ∃ l r, sumOf es = .bin .plus l r := by
  have key : ∀ (es : List (Expr K)) (a : Expr K), ((∃ op f, a = .un op f) ∨ ∃ l r, a = .bin .plus l r) →
      (∃ op f, es.foldl (.bin .plus) a = .un op f) ∨ ∃ l r, es.foldl (.bin .plus) a = .bin .plus l r := by
    intro es
    induction es with
    | nil => exact fun a h => h
    | cons e es ih => exact fun a _ => ih _ (.inr ⟨_, _, rfl⟩)
  cases es with
  | nil => exact absurd rfl h
  | cons e es => exact key es e (.inl (he e (by simp)))

theorem ofUV_not_fsym {d : Nat} (hd : 0 < d) {op : UOp} {e : Expr K} {i t : Nat} :
    ofUV d op e ≠ some (.fsym i t) := by
  have h1 : ∀ j u, (gradIn d j u : Expr K) ≠ .fsym i t := by
    intro j u; unfold gradIn; split <;> simp
  have h2 : ∀ j u, (divIn d j u : Expr K) ≠ .fsym i t := by
    intro j u
    have := sumOf_form (es := partials (K := K) d j u) (by simp [partials]; omega)
      (by intro e he; simp only [partials, List.mem_map] at he; obtain ⟨x, _, rfl⟩ := he; exact ⟨_, _, rfl⟩)
    unfold divIn
    rcases this with ⟨_, _, h⟩ | ⟨_, _, h⟩ <;> simp [h]
  unfold ofUV
  split <;> simp [h1, h2]

theorem writtenOut_fsym {d : Nat} (hd : 0 < d) {e : Expr K} {i t : Nat} (h : writtenOut d e = .fsym i t) :
    e = .fsym i t := by
  cases e with
  | fsym => simpa [writtenOut] using h
  | un op e =>
    simp only [writtenOut] at h
    cases h' : ofUV d op e with
    | none => simp [h'] at h
    | some r => simp only [h', Option.getD_some] at h; subst h; exact absurd h' (ofUV_not_fsym hd)
  | _ => simp [writtenOut] at h

theorem writtenOut_const {d : Nat} {e : Expr K} (h : isConst e = true) : writtenOut d e = e := by
  induction e using Expr.ind with
  | const => rfl
  | bin op l r ihl ihr =>
    simp only [isConst, Bool.and_eq_true] at h
    simp [writtenOut, ihl h.1, ihr h.2]
  | _ => simp [isConst] at h

theorem writtenOut_vec {d : Nat} {e : Expr K} {es : List (Expr K)} (h : writtenOut d e = .vec es) :
    (∃ fs, e = .vec fs) ∨ ∃ op i t, e = .un op (.fsym i t) := by
  cases e with
  | vec fs => exact .inl ⟨fs, rfl⟩
  | un op e =>
    simp only [writtenOut] at h
    cases h' : ofUV d op e with
    | none => simp [h'] at h
    | some r =>
      obtain ⟨_, t, _, rfl⟩ := ofUV_fsym h'
      exact .inr ⟨_, _, _, rfl⟩
  | _ => simp [writtenOut] at h

theorem dotFrom_writtenOut (d : Nat) (acc : Expr K) (ls rs : List (Expr K)) :
    writtenOut d (dotFrom acc ls rs) =
      dotFrom (writtenOut d acc) (ls.map (writtenOut d)) (rs.map (writtenOut d)) := by
  induction ls generalizing acc rs with
  | nil => cases rs <;> rfl
  | cons l ls ih => cases rs with
    | nil => rfl
    | cons r rs => simp [dotFrom, ih, writtenOut]

theorem dot_writtenOut (d : Nat) {ls rs : List (Expr K)} {e : Expr K} (h : dot ls rs = .ok e) :
    dot (ls.map (writtenOut d)) (rs.map (writtenOut d)) = .ok (writtenOut d e) := by
  cases ls with
  | nil => simp [dot] at h
  | cons l ls => cases rs with
    | nil => simp [dot] at h
    | cons r rs =>
      simp only [dot] at h
      split at h
      · cases h
        simp [dot, dotFrom_writtenOut, writtenOut, *]
      · cases h

section
variable [Num K]

theorem Spec.Val.bin_cases {I : Interp K} {ρ : Nat → Option K} {op : BOp} {l r : Expr K} {c : K}
    (h : Val I ρ (.bin op l r) c) : (∃ a b, Val I ρ l a ∧ Val I ρ r b ∧ opVal op a b = some c) ∨
      ∃ ls rs, l = .vec ls ∧ r = .vec rs := by
  cases h with
  | bin h1 h2 h3 => exact .inl ⟨_, _, h1, h2, h3⟩
  | dotOne => exact .inr ⟨_, _, rfl, rfl⟩
  | dotSnoc => exact .inr ⟨_, _, rfl, rfl⟩

theorem Spec.Val.bin_num {I : Interp K} {ρ : Nat → Option K} {op : BOp} {l r : Expr K} {c : K}
    (h : Val I ρ (.bin op l r) c) (hc : isConst l = true ∨ isConst r = true) :
    ∃ a b, Val I ρ l a ∧ Val I ρ r b ∧ opVal op a b = some c := by
  rcases h.bin_cases with h | ⟨_, _, rfl, rfl⟩
  · exact h
  · simp [isConst] at hc

theorem Spec.Val.un_cases {I : Interp K} {ρ : Nat → Option K} {op : UOp} {e : Expr K} {c : K}
    (h : Val I ρ (.un op e) c) : (∃ f a, op = .fn f ∧ c = applyFn f a ∧ Val I ρ e a) ∨ ∃ i t, e = .fsym i t := by
  cases h with
  | fn h => exact .inl ⟨_, _, rfl, rfl, h⟩
  | pd => exact .inr ⟨_, _, rfl⟩

theorem Pass.of_writtenOut_vec {d : Nat} {e e' : Expr K} {es : List (Expr K)} (h : Pass e e')
    (hv : writtenOut d e = .vec es) : e' = e := by
  rcases writtenOut_vec hv with ⟨fs, rfl⟩ | ⟨op, i, t, rfl⟩
  · cases h; rfl
  · cases h with
    | unFold h => cases h
    | unConst h => cases h
    | un _ h => cases h; rfl

variable [SimpLaws K]
open SimpLaws (bad)

/-- One pass preserves the meaning with gradients and divergences written out. -/
theorem Pass.val_writtenOut {d : Nat} (hd : 0 < d) {e e' : Expr K}
    (h : Pass e e') {I : Interp K} (hI : ∀ x, I.good x → ¬ bad x) {ρ : Nat → Option K} {a : K}
    (he : Val I ρ (writtenOut d e) a) (hb : ¬ bad a) : Val I ρ (writtenOut d e') a := by
  induction h generalizing a ρ with
  | const | var | fsym | vec | uid => exact he
  | @unFold f e c hc hu =>
    rw [writtenOut, ofUV_none (by rintro i t rfl; cases hc), Option.getD_none, writtenOut_const hc] at he
    exact (Pass.unFold hc hu).val hI he hb
  | @unConst op e c hc hu ho =>
    rw [writtenOut, ofUV_none (by rintro i t rfl; cases hc), Option.getD_none, writtenOut_const hc] at he
    rw [writtenOut, ofUV_none (by simp), Option.getD_none]
    exact (Pass.unConst hc hu ho).val hI he hb
  | @un op e e' hc hp ih =>
    cases hof : ofUV d op e with
    | some r =>
      obtain ⟨_, t, _, rfl⟩ := ofUV_fsym hof
      cases hp; exact he
    | none =>
      simp only [writtenOut, hof, Option.getD_none] at he
      rcases he.un_cases with ⟨f, b, rfl, rfl, hv⟩ | ⟨i, t, hf⟩
      · simp only [writtenOut, ofUV, Option.getD_none]
        exact .fn (ih hv fun h' => hb (bad_applyFn h'))
      · obtain rfl := writtenOut_fsym hd hf
        cases hp
        simp only [writtenOut, hof, Option.getD_none]
        exact he
  | integConst hc hu =>
    simp only [writtenOut, writtenOut_const hc] at he
    exact (Pass.integConst hc hu).val hI he hb
  | integ _ _ ih =>
    simp only [writtenOut] at he ⊢
    cases he with
    | integ f h1 h2 h3 h4 h5 =>
      exact .integ f h1 h2 (fun t ht => ih (h3 t ht) (hI _ (h4 t ht))) h4 h5
  | fold hc1 hc2 hu =>
    rw [writtenOut_const (by simp [isConst, hc1, hc2])] at he
    exact (Pass.fold hc1 hc2 hu).val hI he hb
  | dotp h =>
    simp only [writtenOut, writtenOutL_eq_map] at he
    exact he.of_dot (dot_writtenOut d h)
  | plusZeroL h1 h2 h3 h4 h5 ih =>
    simp only [writtenOut, writtenOut_const h1] at he
    obtain ⟨x, y, hx, hy, h⟩ := he.bin_num (.inl h1)
    rw [hx.of_isConst h1 h3] at h
    simp only [opVal, Option.some.injEq] at h
    rw [SimpLaws.zero_add h4] at h; subst h
    exact ih hy hb
  | plusZeroR h1 h2 h3 h4 h5 ih =>
    simp only [writtenOut, writtenOut_const h2] at he
    obtain ⟨x, y, hx, hy, h⟩ := he.bin_num (.inr h2)
    rw [hy.of_isConst h2 h3] at h
    simp only [opVal, Option.some.injEq] at h
    rw [SimpLaws.add_zero h4] at h; subst h
    exact ih hx hb
  | minusZeroL h1 h2 h3 h4 h5 ih =>
    simp only [writtenOut, writtenOut_const h1] at he
    obtain ⟨x, y, hx, hy, h⟩ := he.bin_num (.inl h1)
    rw [hx.of_isConst h1 h3] at h
    simp only [opVal, Option.some.injEq] at h
    have hy' := ih hy (fun h' => hb (h ▸ SimpLaws.bad_sub (.inr h')))
    rw [SimpLaws.zero_sub h4] at h
    exact .bin .const hy' (by simp [opVal, h])
  | minusZeroR h1 h2 h3 h4 h5 ih =>
    simp only [writtenOut, writtenOut_const h2] at he
    obtain ⟨x, y, hx, hy, h⟩ := he.bin_num (.inr h2)
    rw [hy.of_isConst h2 h3] at h
    simp only [opVal, Option.some.injEq] at h
    rw [SimpLaws.sub_zero h4] at h; subst h
    exact ih hx hb
  | multZeroL h1 h2 h3 h4 =>
    simp only [writtenOut, writtenOut_const h1] at he
    obtain ⟨x, y, hx, hy, h⟩ := he.bin_num (.inl h1)
    rw [hx.of_isConst h1 h3] at h
    simp only [opVal, Option.some.injEq] at h
    rcases SimpLaws.zero_mul (x := y) h4 with h' | h'
    · rw [h'] at h; subst h; exact .const
    · rw [h] at h'; exact absurd h' hb
  | multZeroR h1 h2 h3 h4 =>
    simp only [writtenOut, writtenOut_const h2] at he
    obtain ⟨x, y, hx, hy, h⟩ := he.bin_num (.inr h2)
    rw [hy.of_isConst h2 h3] at h
    simp only [opVal, Option.some.injEq] at h
    rcases SimpLaws.mul_zero (x := x) h4 with h' | h'
    · rw [h'] at h; subst h; exact .const
    · rw [h] at h'; exact absurd h' hb
  | multOneL h1 h2 h3 h4 h5 ih =>
    simp only [writtenOut, writtenOut_const h1] at he
    obtain ⟨x, y, hx, hy, h⟩ := he.bin_num (.inl h1)
    rw [hx.of_isConst h1 h3] at h
    simp only [opVal, Option.some.injEq] at h
    rw [SimpLaws.one_mul h4] at h; subst h
    exact ih hy hb
  | multOneR h1 h2 h3 h4 h5 ih =>
    simp only [writtenOut, writtenOut_const h2] at he
    obtain ⟨x, y, hx, hy, h⟩ := he.bin_num (.inr h2)
    rw [hy.of_isConst h2 h3] at h
    simp only [opVal, Option.some.injEq] at h
    rw [SimpLaws.mul_one h4] at h; subst h
    exact ih hx hb
  | divZeroL h1 h2 h3 h4 =>
    simp only [writtenOut, writtenOut_const h1] at he
    obtain ⟨x, y, hx, hy, h⟩ := he.bin_num (.inl h1)
    rw [hx.of_isConst h1 h3] at h
    simp only [opVal, Option.some.injEq] at h
    rcases SimpLaws.zero_div (x := y) h4 with h' | h'
    · rw [h'] at h; subst h; exact .const
    · rw [h] at h'; exact absurd h' hb
  | divOneR h1 h2 h3 h4 h5 ih =>
    simp only [writtenOut, writtenOut_const h2] at he
    obtain ⟨x, y, hx, hy, h⟩ := he.bin_num (.inr h2)
    rw [hy.of_isConst h2 h3] at h
    simp only [opVal, Option.some.injEq] at h
    rw [SimpLaws.div_one h4] at h; subst h
    exact ih hx hb
  | constL _ h1 _ h3 _ _ ih =>
    simp only [writtenOut, writtenOut_const h1] at he ⊢
    obtain ⟨x, y, hx, hy, h⟩ := he.bin_num (.inl h1)
    rw [hx.of_isConst h1 h3] at h
    exact .bin .const (ih hy fun h' => hb (bad_opVal h (.inr h'))) h
  | constR _ _ h2 h3 _ _ ih =>
    simp only [writtenOut, writtenOut_const h2] at he ⊢
    obtain ⟨x, y, hx, hy, h⟩ := he.bin_num (.inr h2)
    rw [hy.of_isConst h2 h3] at h
    exact .bin (ih hx fun h' => hb (bad_opVal h (.inl h'))) .const h
  | cong _ _ _ hv hp1 hp2 ihl ihr =>
    simp only [writtenOut] at he ⊢
    rcases he.bin_cases with ⟨x, y, hx, hy, h⟩ | ⟨ls, rs, hl, hr⟩
    · exact .bin (ihl hx fun h' => hb (bad_opVal h (.inl h')))
        (ihr hy fun h' => hb (bad_opVal h (.inr h'))) h
    · rw [hp1.of_writtenOut_vec hl, hp2.of_writtenOut_vec hr]; exact he

theorem simplified_val_writtenOut {d : Nat} (hd : 0 < d) {e e' : Expr K}
    (h : simplified e = .ok e') {I : Interp K} (hI : ∀ x, I.good x → ¬ bad x)
    {ρ : Nat → Option K} {a : K} (he : Val I ρ (writtenOut d e) a) (hb : ¬ bad a) :
    Val I ρ (writtenOut d e') a :=
  (simplified_induct (P := fun e => Val I ρ (writtenOut d e) a)
    (fun _ _ hp he => hp.val_writtenOut hd hI he hb) h he).1

end

/-! ### The four substitutions -/

theorem writtenOut_rq {d : Nat} {op : UOp} {t : Nat} {r : Expr K} (hr : ofUV d op (.fsym 0 t) = some r)
    (hd : 0 < d) (hw : writtenOut d r = r) (e : Expr K) : writtenOut d (rq op 0 t r e) = writtenOut d e := by
  have hf : ∀ j u, r ≠ .fsym j u := by rintro j u rfl; exact ofUV_not_fsym hd hr
  induction e using Expr.ind with
  | const | var | fsym => rfl
  | un op' e ih =>
    by_cases hh : op' = op ∧ e = .fsym 0 t
    · obtain ⟨rfl, rfl⟩ := hh; rw [rq_hit, hw]; simp [writtenOut, hr]
    · rw [rq_un _ _ _ _ _ _ hh]
      simp only [writtenOut, ih]
      by_cases hs : ∃ j u, e = .fsym j u
      · obtain ⟨j, u, rfl⟩ := hs; rfl
      · rw [ofUV_none (e := e) (fun j u h => hs ⟨j, u, h⟩),
          ofUV_none (e := rq op 0 t r e) (fun j u h => hs ⟨j, u, rq_fsym hf h⟩)]
  | integ lo hi x e _ _ ih => simp [rq, writtenOut, ih]
  | bin op l r ihl ihr => simp [rq, writtenOut, ihl, ihr]
  | vec es ih =>
    simp only [rq, writtenOut, rqL_eq_map, writtenOutL_eq_map, List.map_map, Expr.vec.injEq]
    exact List.map_congr_left ih

theorem Spec.GradOf.writtenOut [Num K] {A : UOp → Prop} {d : Nat} {e : Expr K} (h : GradOf A NotUV e) : writtenOut d e = e := by
  induction h with
  | const | var | fsym => rfl
  | @un op e h1 _ _ ih =>
    cases h : ofUV d op e with
    | none => simp [Spec.writtenOut, h, ih]
    | some r =>
      obtain ⟨ho, t, ht, rfl⟩ := ofUV_fsym h
      exact absurd ⟨rfl, ht⟩ (h1 ho 0 t rfl)
  | integ _ _ _ _ ih => simp [Spec.writtenOut, ih]
  | bin _ _ _ ihl ihr => simp [Spec.writtenOut, ihl, ihr]
  | vec _ ih =>
    simp only [Spec.writtenOut, writtenOutL_eq_map, Expr.vec.injEq]
    exact (List.map_congr_left ih).trans (List.map_id _)

theorem rq_of_gradOf [Num K] {op : UOp} (hop : op = .grad ∨ op = .divg) {A : UOp → Prop} {P : UOp → Nat → Nat → Prop} {i t : Nat}
    {r e : Expr K} (hP : ¬ P op i t) (h : GradOf A P e) : rq op i t r e = e := by
  induction h with
  | const | var | fsym => rfl
  | @un op' e h1 _ _ ih =>
    by_cases hh : op' = op ∧ e = .fsym i t
    · obtain ⟨rfl, rfl⟩ := hh
      exact absurd (h1 hop i t rfl) hP
    · rw [rq_un _ _ _ _ _ _ hh, ih]
  | integ _ _ _ _ ih => simp [rq, ih]
  | bin _ _ _ ihl ihr => simp [rq, ihl, ihr]
  | vec _ ih =>
    simp only [rq, rqL_eq_map, Expr.vec.injEq]
    exact (List.map_congr_left ih).trans (List.map_id _)

theorem Spec.WellFormed.rq {op : UOp} {i t : Nat} {r e : Expr K} (hr : WellFormed r) (h : WellFormed e) :
    WellFormed (rq op i t r e) := by
  induction h with
  | const c => exact .const c
  | var i => exact .var i
  | fsym i t => exact .fsym i t
  | @un op' e h ih =>
    by_cases hh : op' = op ∧ e = .fsym i t
    · obtain ⟨rfl, rfl⟩ := hh; rw [rq_hit]; exact hr
    · rw [rq_un _ _ _ _ _ _ hh]; exact .un _ ih
  | integ x h1 h2 _ _ _ ih => exact .integ x h1 h2 ih
  | bin ho _ _ ihl ihr => exact .bin ho ihl ihr
  | vec _ ih =>
    refine .vec ?_
    rw [rqL_eq_map]
    intro e he
    obtain ⟨f, hf, rfl⟩ := List.mem_map.1 he
    exact ih f hf

theorem Spec.VecDim.rq {n : Nat} {op : UOp} {i t : Nat} {r e : Expr K} (hr : VecDim n r) (h : VecDim n e) :
    VecDim n (rq op i t r e) := by
  induction h with
  | const c => exact .const c
  | var i => exact .var i
  | fsym i t => exact .fsym i t
  | @un op' e h ih =>
    by_cases hh : op' = op ∧ e = .fsym i t
    · obtain ⟨rfl, rfl⟩ := hh; rw [rq_hit]; exact hr
    · rw [rq_un _ _ _ _ _ _ hh]; exact .un _ ih
  | integ x h1 h2 _ _ _ ih => exact .integ x h1 h2 ih
  | bin op _ _ ihl ihr => exact .bin op ihl ihr
  | vec hl _ ih =>
    refine .vec (by rw [rqL_eq_map]; simpa using hl) ?_
    rw [rqL_eq_map]
    intro e he
    obtain ⟨f, hf, rfl⟩ := List.mem_map.1 he
    exact ih f hf

/-- The replacement for `op` of symbol `(0, t)`. -/
def replOf (d : Nat) (op : UOp) (t : Nat) : Expr K := if op = .grad then gradIn d 0 t else divIn d 0 t

theorem replOf_props [Num K] (d : Dim) {op : UOp} (hop : op = .grad ∨ op = .divg) {t : Nat} (ht : t = 0 ∨ t = 1) :
    ofUV d.toNat op (.fsym 0 t : Expr K) = some (replOf d.toNat op t) ∧ NoGrad (replOf d.toNat op t : Expr K) ∧
    Firm (replOf d.toNat op t : Expr K) ∧ WellFormed (replOf d.toNat op t : Expr K) ∧
    (∀ n, d = .one ∨ n = d.toNat → VecDim n (replOf d.toNat op t : Expr K)) := by
  have hp : ∀ x, NoGrad (.un (.pd x) (.fsym 0 t) : Expr K) ∧ Firm (.un (.pd x) (.fsym 0 t) : Expr K) ∧
      WellFormed (.un (.pd x) (.fsym 0 t) : Expr K) ∧ ∀ n, VecDim n (.un (.pd x) (.fsym 0 t) : Expr K) :=
    fun x => ⟨.un nofun nofun (.fsym _ _), .un _ nofun, .un _ (.fsym _ _), fun _ => .un _ (.fsym _ _)⟩
  have hs : ∀ l r : Expr K, (NoGrad l ∧ Firm l ∧ WellFormed l ∧ ∀ n, VecDim n l) →
      (NoGrad r ∧ Firm r ∧ WellFormed r ∧ ∀ n, VecDim n r) → (NoGrad (.bin .plus l r) ∧ Firm (.bin .plus l r) ∧
        WellFormed (.bin .plus l r) ∧ ∀ n, VecDim n (.bin .plus l r)) := fun l r hl hr =>
    ⟨.bin _ hl.1 hr.1, .bin _ hl.2.1 hr.2.1, .bin (.inl rfl) hl.2.2.1 hr.2.2.1, fun n => .bin _ (hl.2.2.2 n) (hr.2.2.2 n)⟩
  have hv : ∀ es : List (Expr K), (∀ e ∈ es, (NoGrad e ∧ Firm e ∧ WellFormed e ∧ ∀ n, VecDim n e)) →
      es.length = d.toNat → d ≠ .one → (NoGrad (.vec es) ∧ Firm (.vec es) ∧ WellFormed (.vec es) ∧
        ∀ n, d = .one ∨ n = d.toNat → VecDim n (.vec es)) := fun es he hl hd =>
    ⟨.vec fun e h => (he e h).1, .vec fun e h => (he e h).2.1, .vec fun e h => (he e h).2.2.1, fun n hn => by
      rcases hn with hn | rfl
      · exact absurd hn hd
      · exact .vec hl fun e h => (he e h).2.2.2 _⟩
  refine ⟨by rcases hop with rfl | rfl <;> rcases ht with rfl | rfl <;> simp [ofUV, replOf], ?_⟩
  have w : ∀ e : Expr K, (NoGrad e ∧ Firm e ∧ WellFormed e ∧ ∀ n, VecDim n e) →
      (NoGrad e ∧ Firm e ∧ WellFormed e ∧ ∀ n, d = .one ∨ n = d.toNat → VecDim n e) :=
    fun e h => ⟨h.1, h.2.1, h.2.2.1, fun n _ => h.2.2.2 n⟩
  rcases hop with rfl | rfl
  · simp only [replOf, if_true, gradIn]
    cases d with
    | one => exact w _ (hp 0)
    | two => exact hv _ (by simp only [partials, List.mem_map]; rintro e ⟨x, _, rfl⟩; exact hp x) (by simp [partials]) nofun
    | three => exact hv _ (by simp only [partials, List.mem_map]; rintro e ⟨x, _, rfl⟩; exact hp x) (by simp [partials]) nofun
  · simp only [replOf, reduceCtorEq, if_false, divIn]
    cases d with
    | one => exact w _ (hp 0)
    | two => exact w _ (hs _ _ (hp 0) (hp 1))
    | three => exact w _ (hs _ _ (hs _ _ (hp 0) (hp 1)) (hp 2))

section
variable [Num K]

theorem UOp.equal_grad (op' : UOp) : UOp.equal .grad op' = decide (op' = .grad) := by
  cases op' <;> rfl

theorem UOp.equal_divg (op' : UOp) : UOp.equal .divg op' = decide (op' = .divg) := by
  cases op' <;> rfl

theorem replOf_not_fsym (d : Dim) {op : UOp} (hop : op = .grad ∨ op = .divg) {t : Nat} (ht : t = 0 ∨ t = 1)
    (i u : Nat) : (replOf d.toNat op t : Expr K) ≠ .fsym i u := by
  intro h
  have := (replOf_props (K := K) d hop ht).1
  rw [h] at this
  exact ofUV_not_fsym (by cases d <;> simp [Dim.toNat]) this

/-- One replacement followed by simplification. -/
def coordStep (d : Nat) (op : UOp) (t : Nat) (e : Expr K) : Res (Expr K) :=
  simplified (rq op 0 t (replOf d op t) e)

theorem coords_eq (d : Dim) (e : Expr K) : coords d e =
    (coordStep d.toNat .grad 0 e).bind fun e1 => (coordStep d.toNat .grad 1 e1).bind fun e2 =>
    (coordStep d.toNat .divg 0 e2).bind fun e3 => coordStep d.toNat .divg 1 e3 := by
  have hg : ∀ t (r e : Expr K), substitute (.un .grad (.fsym 0 t)) r e = simplified (rq .grad 0 t r e) := by
    intro t r e
    simp [substitute, substE_un _ UOp.equal_grad, Res.bind]
  have hd : ∀ t (r e : Expr K), substitute (.un .divg (.fsym 0 t)) r e = simplified (rq .divg 0 t r e) := by
    intro t r e
    simp [substitute, substE_un _ UOp.equal_divg, Res.bind]
  cases d <;>
  · simp only [coords, coords1, coords2, coords3, coordsWith, symU, symV, hg, hd]
    rfl

/-- An induction principle: what every step preserves. -/
theorem coords_induct {P : Nat → Expr K → Prop} {d : Dim} {e e' : Expr K} (h : coords d e = .ok e') (h0 : P 0 e)
    (h1 : ∀ e e', P 0 e → coordStep d.toNat .grad 0 e = .ok e' → P 1 e')
    (h2 : ∀ e e', P 1 e → coordStep d.toNat .grad 1 e = .ok e' → P 2 e')
    (h3 : ∀ e e', P 2 e → coordStep d.toNat .divg 0 e = .ok e' → P 3 e')
    (h4 : ∀ e e', P 3 e → coordStep d.toNat .divg 1 e = .ok e' → P 4 e') : P 4 e' := by
  rw [coords_eq] at h
  obtain ⟨e1, g1, h⟩ := Res.bind_eq_ok.1 h
  obtain ⟨e2, g2, h⟩ := Res.bind_eq_ok.1 h
  obtain ⟨e3, g3, g4⟩ := Res.bind_eq_ok.1 h
  exact h4 _ _ (h3 _ _ (h2 _ _ (h1 _ _ h0 g1) g2) g3) g4

/-- The check for two vectors in `canBin`. -/
def vecsOr (l r : Expr K) (k : Res Bool) : Res Bool :=
  match l, r with
  | .vec _, .vec _ => .ok true
  | _, _ => k

omit [Num K] in
theorem vecs_congr {l l' r r' : Expr K} (hl : (∃ es, l' = .vec es) ↔ ∃ es, l = .vec es)
    (hr : (∃ es, r' = .vec es) ↔ ∃ es, r = .vec es) (k : Res Bool) :
    vecsOr l' r' k = vecsOr l r k := by
  unfold vecsOr
  split
  · obtain ⟨_, rfl⟩ := hl.1 ⟨_, rfl⟩
    obtain ⟨_, rfl⟩ := hr.1 ⟨_, rfl⟩
    rfl
  · rename_i h
    split
    · obtain ⟨_, h1⟩ := hl.2 ⟨_, rfl⟩
      obtain ⟨_, h2⟩ := hr.2 ⟨_, rfl⟩
      exact absurd h2 (h _ _ h1)
    · rfl

theorem canSimplify_rq {op : UOp} {i t : Nat} {r : Expr K} (hc : isConst r = false)
    (hv : ∀ es, r ≠ .vec es) (hr : canSimplify r = .ok false) (e : Expr K) :
    canSimplify (rq op i t r e) = canSimplify e ∧ isConst (rq op i t r e) = isConst e ∧
      ((∃ es, rq op i t r e = .vec es) ↔ ∃ es, e = .vec es) ∧
      (isConst e = true → rq op i t r e = e) := by
  induction e using Expr.ind with
  | const | var | fsym => simp [rq]
  | vec es => simp [rq, canSimplify, isConst]
  | un op' e ih =>
    by_cases hh : op' = op ∧ e = .fsym i t
    · obtain ⟨rfl, rfl⟩ := hh; rw [rq_hit]
      exact ⟨by rw [hr]; rfl, hc, by simpa using hv, nofun⟩
    · rw [rq_un _ _ _ _ _ _ hh]
      exact ⟨by simp [canSimplify, ih.1], rfl, by simp, nofun⟩
  | integ lo hi x e _ _ ih => exact ⟨by simp [rq, canSimplify, ih.1], rfl, by simp [rq], nofun⟩
  | bin op' l r' ihl ihr =>
    refine ⟨?_, by simp [rq, isConst, ihl.2.1, ihr.2.1], by simp [rq], fun h => ?_⟩
    · simp only [rq, canSimplify, ihl.1, ihr.1, ihl.2.1, ihr.2.1]
      split
      · rfl
      · have cc : ∀ (e : Expr K) (p : K → Bool) (k : Res Bool),
            (isConst (rq op i t r e) = isConst e ∧ (isConst e = true → rq op i t r e = e)) →
            constCheck (rq op i t r e) p k = constCheck e p k := by
          intro e p k he
          cases h : isConst e with
          | false => simp [constCheck, he.1, h]
          | true => rw [he.2 h]
        cases op' <;> simp only [canBin, cc _ _ _ ⟨ihl.2.1, ihl.2.2.2⟩, cc _ _ _ ⟨ihr.2.1, ihr.2.2.2⟩]
        exact congrArg (constCheck l _) (congrArg (constCheck r' _) (vecs_congr ihl.2.2.1 ihr.2.2.1 _))
    · simp only [isConst, Bool.and_eq_true] at h
      simp [rq, ihl.2.2.2 h.1, ihr.2.2.2 h.2]

theorem canSimplify_replOf_divg (d : Dim) (t : Nat) :
    isConst (replOf d.toNat .divg t : Expr K) = false ∧ (∀ es, (replOf d.toNat .divg t : Expr K) ≠ .vec es) ∧
    canSimplify (replOf d.toNat .divg t : Expr K) = .ok false := by
  cases d <;> exact ⟨rfl, nofun, rfl⟩

/-- Replacing divergences in a simplified expression gives a simplified expression. -/
theorem coordStep_divg {d : Dim} {t : Nat} {e e' : Expr K} (hc : canSimplify e = .ok false)
    (h : coordStep d.toNat .divg t e = .ok e') :
    e' = rq .divg 0 t (replOf d.toNat .divg t) e ∧ canSimplify e' = .ok false := by
  have hr := canSimplify_replOf_divg (K := K) d t
  have h2 := (canSimplify_rq (op := .divg) (i := 0) (t := t) hr.1 hr.2.1 hr.2.2 e).1
  rw [hc] at h2
  rw [coordStep, simplified_eq, h2] at h
  cases h
  exact ⟨rfl, h2⟩

theorem Spec.GradOf.step {A : UOp → Prop} (hA : ∀ op, A op → op = .grad ∨ op = .divg)
    {P Q : UOp → Nat → Nat → Prop} {d : Dim} {op : UOp} (hop : op = .grad ∨ op = .divg)
    {t : Nat} (ht : t = 0 ∨ t = 1) {e : Expr K} (h : GradOf A P e)
    (hP : ∀ op' j t', (op' = .grad ∨ op' = .divg) → ¬ (op' = op ∧ j = 0 ∧ t' = t) → P op' j t' → Q op' j t') :
    GradOf A Q (VM.rq op 0 t (replOf d.toNat op t) e) :=
  have hr := replOf_props (K := K) d hop ht
  GradOf.rq hr.2.2.1 (replOf_not_fsym d hop ht) hA hr.2.1 h hP

/-- After `n` steps. -/
def doneAfter (n : Nat) (op : UOp) (i t : Nat) : Prop :=
  ¬ (0 < n ∧ op = .grad ∧ i = 0 ∧ t = 0) ∧ ¬ (1 < n ∧ op = .grad ∧ i = 0 ∧ t = 1) ∧
  ¬ (2 < n ∧ op = .divg ∧ i = 0 ∧ t = 0) ∧ ¬ (3 < n ∧ op = .divg ∧ i = 0 ∧ t = 1)

theorem coords_gradOf {d : Dim} {e e' : Expr K} (h : coords d e = .ok e')
    (hg : GradOf IsGrad (fun _ _ _ => True) e) : GradOf IsGrad NotUV e' := by
  have hA : ∀ op, IsGrad op → op = .grad ∨ op = .divg := fun op h => .inl h
  have hs : ∀ n, n ≤ 2 → ∀ op, op = .grad ∨ op = .divg → IsGrad op ∨ ∀ i t, doneAfter n op i t := by
    rintro n hn op (rfl | rfl)
    · exact .inl rfl
    · exact .inr fun i t => by simp [doneAfter]; omega
  have fin : ∀ {e e' : Expr K}, simplified e = .ok e' → canSimplify e' = .ok false := fun h =>
    (simplified_induct (P := fun _ => True) (fun _ _ _ _ => trivial) h trivial).2
  refine (coords_induct (P := fun n e => GradOf IsGrad (doneAfter n) e ∧ (2 ≤ n → canSimplify e = .ok false)) h
    ⟨hg.mono (fun _ h => h) fun op i t _ _ => by simp [doneAfter], by omega⟩ ?_ ?_ ?_ ?_).1.mono (fun _ h => h) ?_
  · exact fun e e' h hq => ⟨(h.1.step hA (.inl rfl) (.inl rfl) (by
      rintro op' j t' (rfl | rfl) <;> simp [doneAfter] <;> omega)).simplified (hs 1 (by omega)) hq, by omega⟩
  · exact fun e e' h hq => ⟨(h.1.step hA (.inl rfl) (.inr rfl) (by
      rintro op' j t' (rfl | rfl) <;> simp [doneAfter] <;> omega)).simplified (hs 2 (by omega)) hq, fun _ => fin hq⟩
  · intro e e' h hq
    obtain ⟨rfl, hc⟩ := coordStep_divg (h.2 (by omega)) hq
    exact ⟨h.1.step hA (.inr rfl) (.inl rfl) (by rintro op' j t' (rfl | rfl) <;> simp [doneAfter] <;> omega), fun _ => hc⟩
  · intro e e' h hq
    obtain ⟨rfl, hc⟩ := coordStep_divg (h.2 (by omega)) hq
    exact ⟨h.1.step hA (.inr rfl) (.inr rfl) (by rintro op' j t' (rfl | rfl) <;> simp [doneAfter] <;> omega), fun _ => hc⟩
  · intro op i t hop h
    simp only [doneAfter, NotUV] at *
    rcases hop with rfl | rfl <;> simp at h ⊢ <;> omega

theorem coordStep_ok {d : Dim} {op : UOp} (hop : op = .grad ∨ op = .divg) {t : Nat} (ht : t = 0 ∨ t = 1) {n : Nat}
    (hn : 0 < n) (hd : d = .one ∨ n = d.toNat) {e : Expr K} (hw : WellFormed e) (hv : VecDim n e) :
    ∃ e', coordStep d.toNat op t e = .ok e' ∧ WellFormed e' ∧ VecDim n e' := by
  have hr := replOf_props (K := K) d hop ht
  have hw' := WellFormed.rq (op := op) (i := 0) (t := t) hr.2.2.2.1 hw
  have hv' := VecDim.rq (op := op) (i := 0) (t := t) (hr.2.2.2.2 n hd) hv
  obtain ⟨e', he'⟩ := simplified_ok hn hw' hv'
  have := (simplified_induct (P := fun e => WellFormed e ∧ VecDim n e)
    (fun _ _ hp h => ⟨hp.wellFormed h.1, hp.vecDim h.2⟩) he' ⟨hw', hv'⟩).1
  exact ⟨e', he', this.1, this.2⟩

theorem coords_ok {d : Dim} {n : Nat} (hn : 0 < n) (hd : d = .one ∨ n = d.toNat) {e : Expr K} (hw : WellFormed e)
    (hv : VecDim n e) : ∃ e', coords d e = .ok e' := by
  obtain ⟨e1, h1, hw, hv⟩ := coordStep_ok (.inl rfl) (.inl rfl) hn hd hw hv
  obtain ⟨e2, h2, hw, hv⟩ := coordStep_ok (.inl rfl) (.inr rfl) hn hd hw hv
  obtain ⟨e3, h3, hw, hv⟩ := coordStep_ok (.inr rfl) (.inl rfl) hn hd hw hv
  obtain ⟨e4, h4, hw, hv⟩ := coordStep_ok (.inr rfl) (.inr rfl) hn hd hw hv
  exact ⟨e4, by simp [coords_eq, h1, h2, h3, h4, Res.bind]⟩

theorem simplified_again {e e' : Expr K} (h : simplified e = .ok e') : simplified e' = .ok e' := by
  have := (simplified_induct (P := fun _ => True) (fun _ _ _ _ => trivial) h trivial).2
  rw [simplified_eq, this]; rfl

theorem coords_plain {d : Dim} {e : Expr K} (h : GradOf IsGradDiv NotUV e) : coords d e = simplified e := by
  have st : ∀ op t (e : Expr K), (op = .grad ∨ op = .divg) → (t = 0 ∨ t = 1) → GradOf IsGradDiv NotUV e →
      coordStep d.toNat op t e = simplified e := by
    intro op t e hop ht h
    rw [coordStep, rq_of_gradOf hop (by rcases ht with rfl | rfl <;> simp [NotUV]) h]
  rw [coords_eq, st _ _ _ (.inl rfl) (.inl rfl) h]
  cases hs : simplified e with
  | throw x => rfl
  | ub => rfl
  | ok e' =>
    have hg := h.simplified (fun _ h => .inl h) hs
    have := simplified_again hs
    simp [Res.bind, st _ _ _ (.inl rfl) (.inr rfl) hg, st _ _ _ (.inr rfl) (.inl rfl) hg,
      st _ _ _ (.inr rfl) (.inr rfl) hg, this]

variable [SimpLaws K]
open SimpLaws (bad)

theorem coords_val {d : Dim} {e e' : Expr K} (h : coords d e = .ok e')
    (hg : GradOf IsGrad (fun _ _ _ => True) e)
    {I : Interp K} (hI : ∀ x, I.good x → ¬ bad x) {ρ : Nat → Option K} {a : K}
    (he : Val I ρ (writtenOut d.toNat e) a) (hb : ¬ bad a) : Val I ρ e' a := by
  have hd : 0 < d.toNat := by cases d <;> simp [Dim.toNat]
  have st : ∀ op t (e e' : Expr K), (op = .grad ∨ op = .divg) → (t = 0 ∨ t = 1) →
      Val I ρ (writtenOut d.toNat e) a → coordStep d.toNat op t e = .ok e' →
      Val I ρ (writtenOut d.toNat e') a := by
    intro op t e e' hop ht h hs
    have hr := replOf_props (K := K) d hop ht
    refine simplified_val_writtenOut hd hs hI ?_ hb
    rw [writtenOut_rq hr.1 hd (hr.2.1.gradOf (A := IsGrad) (fun _ h => .inl h)).writtenOut]
    exact h
  have := coords_induct (P := fun _ e => Val I ρ (writtenOut d.toNat e) a) h he
    (st _ _ · · (.inl rfl) (.inl rfl)) (st _ _ · · (.inl rfl) (.inr rfl)) (st _ _ · · (.inr rfl) (.inl rfl))
    (st _ _ · · (.inr rfl) (.inr rfl))
  rw [← (coords_gradOf h hg).writtenOut (d := d.toNat)]
  exact this

end

end VM
