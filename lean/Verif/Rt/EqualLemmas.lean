import Verif.Rt.Equal
import Verif.Rt.EvalLemmas
/-
Helper lemmas about `deep_equal`.
-/
namespace VM
open Spec
variable {K : Type} [Num K]

theorem UOp.equal_refl (op : UOp) : UOp.equal op op = true := by cases op <;> simp [UOp.equal]

theorem UOp.equal_symm {a b : UOp} (h : UOp.equal a b = true) : UOp.equal b a = true := by
  cases a <;> cases b <;> simp_all [UOp.equal]

theorem UOp.equal_trans {a b c : UOp} (h : UOp.equal a b = true) (h' : UOp.equal b c = true) :
    UOp.equal a c = true := by
  cases a <;> cases b <;> cases c <;> simp_all [UOp.equal]

theorem UOp.equal_eq {a b : UOp} (ha : ∀ id, a ≠ .symInt id) (h : UOp.equal a b = true) : a = b := by
  cases a <;> cases b <;> simp_all [UOp.equal]

theorem deepEq_refl {e : Expr K} (h : NoNaN e) : deepEq e e = .ok true := by
  induction h with
  | const h => simp [deepEq, h]
  | var | fsym => simp [deepEq]
  | un op _ ih => simp [deepEq, ih, UOp.equal_refl]
  | integ _ _ _ _ ih => simpa [deepEq] using ih
  | bin _ _ _ h1 h2 => simp [deepEq, h1, h2]
  | @vec es hn ih =>
    simp only [deepEq]
    induction es with
    | nil => simp [deepEqL]
    | cons e es ihl =>
      simp only [deepEqL, ih e (by simp), Res.bind_ok, if_true]
      exact ihl (fun e he => hn e (by simp [he])) (fun e he => ih e (by simp [he]))

theorem deepEq_total {n : Nat} {e : Expr K} : ∀ {f : Expr K}, VecDim n e → VecDim n f →
    ∃ b, deepEq e f = .ok b := by
  induction e using Expr.ind with
  | const | var | fsym => intro f _ _; cases f <;> simp [deepEq]
  | un op e ih =>
    intro f he hf
    cases he with | un _ he =>
    cases hf with
    | un _ hf | integ _ _ _ hf => obtain ⟨b, hb⟩ := ih he hf; simp [deepEq, hb]
    | _ => simp [deepEq]
  | integ lo hi x e _ _ ih =>
    intro f he hf
    cases he with | integ _ _ _ he =>
    cases hf with
    | un _ hf | integ _ _ _ hf => obtain ⟨b, hb⟩ := ih he hf; simp [deepEq, hb]
    | _ => simp [deepEq]
  | bin op l r ihl ihr =>
    intro f he hf
    cases he with | bin _ hl hr =>
    cases hf with
    | bin op' hl' hr' =>
      obtain ⟨b, hb⟩ := ihl hl hl'
      obtain ⟨b', hb'⟩ := ihr hr hr'
      simp only [deepEq, hb, hb', Res.bind_ok]
      split <;> simp
    | _ => simp [deepEq]
  | vec es ih =>
    intro f he hf
    cases he with | vec hn he =>
    cases hf with
    | @vec fs hn' hf =>
      simp only [deepEq]
      have hlen : es.length = fs.length := hn.trans hn'.symm
      clear hn hn'
      induction es generalizing fs with
      | nil => cases fs with
        | nil => simp [deepEqL]
        | cons => simp at hlen
      | cons e es ihl => cases fs with
        | nil => simp at hlen
        | cons f fs =>
          obtain ⟨b, hb⟩ := ih e (by simp) (he e (by simp)) (hf f (by simp))
          simp only [deepEqL, hb, Res.bind_ok]
          split
          · exact ihl (fun e h => ih e (by simp [h])) (fun e h => he e (by simp [h]))
              (fun e h => hf e (by simp [h])) (by simpa using hlen)
          · simp
    | _ => simp [deepEq]

theorem deepEq_symm [EqbPER K] {n : Nat} {e : Expr K} : ∀ {f : Expr K}, VecDim n e → VecDim n f →
    deepEq e f = .ok true → deepEq f e = .ok true := by
  induction e using Expr.ind with
  | const c =>
    intro f _ _ h
    cases f <;> simp only [deepEq, Res.ok.injEq, reduceCtorEq] at h ⊢
    exact EqbPER.symm h
  | var | fsym => intro f _ _ h; cases f <;> simp_all [deepEq]
  | un op e ih =>
    intro f he hf h
    cases he with | un _ he =>
    cases hf with
    | un _ hf =>
      simp only [deepEq, Res.map_eq_ok, Bool.and_eq_true] at h ⊢
      obtain ⟨b, hb, rfl, ho⟩ := h
      exact ⟨true, ih he hf hb, rfl, UOp.equal_symm ho⟩
    | integ _ _ _ hf => simp [deepEq, Res.map_eq_ok] at h
    | _ => simp [deepEq] at h
  | integ lo hi x e _ _ ih =>
    intro f he hf h
    cases he with | integ _ _ _ he =>
    cases hf with
    | integ _ _ _ hf => simp only [deepEq] at h ⊢; exact ih he hf h
    | un _ hf => simp [deepEq, Res.map_eq_ok] at h
    | _ => simp [deepEq] at h
  | bin op l r ihl ihr =>
    intro f he hf h
    cases he with | bin _ hl hr =>
    cases hf with
    | bin op' hl' hr' =>
      simp only [deepEq, Res.bind_eq_ok] at h ⊢
      obtain ⟨b, hb, h⟩ := h
      split at h
      · rename_i hbo
        simp only [Bool.and_eq_true, decide_eq_true_eq] at hbo
        obtain ⟨rfl, rfl⟩ := hbo
        exact ⟨true, ihl hl hl' hb, by simpa using ihr hr hr' h⟩
      · cases h
    | _ => simp [deepEq] at h
  | vec es ih =>
    intro f he hf h
    cases he with | vec hn he =>
    cases hf with
    | @vec fs hn' hf =>
      simp only [deepEq] at h ⊢
      have hlen : es.length = fs.length := hn.trans hn'.symm
      clear hn hn'
      induction es generalizing fs with
      | nil => cases fs with
        | nil => simp [deepEqL]
        | cons => simp at hlen
      | cons e es ihl => cases fs with
        | nil => simp at hlen
        | cons f fs =>
          simp only [deepEqL, Res.bind_eq_ok] at h ⊢
          obtain ⟨b, hb, h⟩ := h
          cases b with
          | false => simp at h
          | true =>
            exact ⟨true, ih e (by simp) (he e (by simp)) (hf f (by simp)) hb, by
              simp only [if_true] at h ⊢
              exact ihl (fun e h => ih e (by simp [h])) (fun e h => he e (by simp [h]))
                (fun e h => hf e (by simp [h])) h (by simpa using hlen)⟩
    | _ => simp [deepEq] at h

theorem deepEq_trans [EqbPER K] {e : Expr K} : ∀ {f g : Expr K},
    deepEq e f = .ok true → deepEq f g = .ok true → deepEq e g = .ok true := by
  induction e using Expr.ind with
  | const c =>
    intro f g h h'
    cases f <;> simp only [deepEq, Res.ok.injEq, reduceCtorEq] at h
    cases g <;> simp only [deepEq, Res.ok.injEq, reduceCtorEq] at h' ⊢
    exact EqbPER.trans h' h
  | var i | fsym i t =>
    intro f g h h'
    cases f <;> simp [deepEq] at h
    cases g <;> simp [deepEq] at h'
    simp_all [deepEq]
  | un op e ih =>
    intro f g h h'
    cases f with
    | un op' e' =>
      cases g with
      | un op'' e'' =>
        simp only [deepEq, Res.map_eq_ok, Bool.and_eq_true] at h h' ⊢
        obtain ⟨b, hb, rfl, ho⟩ := h
        obtain ⟨b', hb', rfl, ho'⟩ := h'
        exact ⟨true, ih hb hb', rfl, UOp.equal_trans ho' ho⟩
      | _ => simp [deepEq, Res.map_eq_ok] at h'
    | _ => simp [deepEq, Res.map_eq_ok] at h
  | integ lo hi x e _ _ ih =>
    intro f g h h'
    cases f with
    | integ =>
      cases g with
      | integ => simp only [deepEq] at h h' ⊢; exact ih h h'
      | _ => simp [deepEq, Res.map_eq_ok] at h'
    | _ => simp [deepEq, Res.map_eq_ok] at h
  | bin op l r ihl ihr =>
    intro f g h h'
    cases f with
    | bin op' l' r' =>
      cases g with
      | bin op'' l'' r'' =>
        simp only [deepEq, Res.bind_eq_ok] at h h' ⊢
        obtain ⟨b, hb, h⟩ := h
        obtain ⟨b', hb', h'⟩ := h'
        cases b <;> cases b' <;> simp only [Bool.false_and, Bool.true_and, Bool.false_eq_true,
          if_false, Res.ok.injEq] at h h'
        split at h
        · split at h'
          · rename_i h1 h2
            simp only [decide_eq_true_eq] at h1 h2
            subst h1 h2
            exact ⟨true, ihl hb hb', by simpa using ihr h h'⟩
          · cases h'
        · cases h
      | _ => simp [deepEq] at h'
    | _ => simp [deepEq] at h
  | vec es ih =>
    intro f g h h'
    cases f with
    | vec fs =>
      cases g with
      | vec gs =>
        simp only [deepEq] at h h' ⊢
        induction es generalizing fs gs with
        | nil => cases fs with
          | nil => exact h'
          | cons => simp [deepEqL] at h
        | cons e es ihl => cases fs with
          | nil => cases gs with
            | nil => simp [deepEqL]
            | cons => simp [deepEqL] at h'
          | cons f fs => cases gs with
            | nil => simp [deepEqL]
            | cons g gs =>
              simp only [deepEqL, Res.bind_eq_ok] at h h' ⊢
              obtain ⟨b, hb, h⟩ := h
              obtain ⟨b', hb', h'⟩ := h'
              cases b <;> cases b' <;> simp only [Bool.false_eq_true, if_false, if_true,
                Res.ok.injEq] at h h'
              exact ⟨true, ih e (by simp) hb hb', by
                simpa using ihl (fun e h => ih e (by simp [h])) _ h _ h'⟩
      | _ => simp [deepEq] at h'
    | _ => simp [deepEq] at h

theorem deepEq_eq [EqbSound K] {n : Nat} {e : Expr K} : ∀ {f : Expr K}, VecDim n e → VecDim n f →
    NoInteg e → deepEq e f = .ok true → e = f := by
  induction e using Expr.ind with
  | const c =>
    intro f _ _ _ h
    cases f <;> simp only [deepEq, Res.ok.injEq, reduceCtorEq] at h
    rw [EqbSound.eq_of_eqb h]
  | var | fsym => intro f _ _ _ h; cases f <;> simp_all [deepEq]
  | un op e ih =>
    intro f he hf hi h
    cases he with | un _ he =>
    cases hi with | un ho hi =>
    cases hf with
    | un _ hf =>
      simp only [deepEq, Res.map_eq_ok, Bool.and_eq_true] at h
      obtain ⟨b, hb, rfl, heq⟩ := h
      rw [ih he hf hi hb, UOp.equal_eq ho (UOp.equal_symm heq)]
    | integ _ _ _ hf => simp [deepEq, Res.map_eq_ok] at h
    | _ => simp [deepEq] at h
  | integ lo hi x e => intro f _ _ hi; cases hi
  | bin op l r ihl ihr =>
    intro f he hf hi h
    cases he with | bin _ hl hr =>
    cases hi with | bin _ hil hir =>
    cases hf with
    | bin op' hl' hr' =>
      simp only [deepEq, Res.bind_eq_ok] at h
      obtain ⟨b, hb, h⟩ := h
      split at h
      · rename_i hbo
        simp only [Bool.and_eq_true, decide_eq_true_eq] at hbo
        obtain ⟨rfl, rfl⟩ := hbo
        rw [ihl hl hl' hil hb, ihr hr hr' hir h]
      · cases h
    | _ => simp [deepEq] at h
  | vec es ih =>
    intro f he hf hi h
    cases he with | vec hn he =>
    cases hi with | vec hi =>
    cases hf with
    | @vec fs hn' hf =>
      simp only [deepEq] at h
      have hlen : es.length = fs.length := hn.trans hn'.symm
      clear hn hn'
      congr 1
      induction es generalizing fs with
      | nil => cases fs with
        | nil => rfl
        | cons => simp at hlen
      | cons e es ihl => cases fs with
        | nil => simp at hlen
        | cons f fs =>
          simp only [deepEqL, Res.bind_eq_ok] at h
          obtain ⟨b, hb, h⟩ := h
          cases b with
          | false => simp at h
          | true =>
            rw [ih e (by simp) (he e (by simp)) (hf f (by simp)) (hi e (by simp)) hb]
            congr 1
            exact ihl (fun e h => ih e (by simp [h])) (fun e h => he e (by simp [h]))
              (fun e h => hi e (by simp [h]))
              (fun e h => hf e (by simp [h])) (by simpa using h) (by simpa using hlen)
    | _ => simp [deepEq] at h

theorem deepEq_var (e : Expr K) (i : Nat) : deepEq e (.var i) = .ok true ∧ e = .var i ∨
    deepEq e (.var i) = .ok false ∧ e ≠ .var i := by
  cases e <;> simp [deepEq]
  rename_i j; by_cases h : i = j <;> simp [h, eq_comm]

/-- Structurally equal expressions evaluate alike (any node kinds). -/
theorem deepEq_eval [EqbSound K] {o : Order K}
    (ho : ∀ l l' r r', deepEq l l' = .ok true → deepEq r r' = .ok true → o l r = o l' r') (v : List K)
    {e : Expr K} : ∀ {f : Expr K}, deepEq e f = .ok true → eval o v e = eval o v f := by
  induction e using Expr.ind with
  | const c =>
    intro f h
    cases f <;> simp only [deepEq, Res.ok.injEq, reduceCtorEq] at h
    rw [EqbSound.eq_of_eqb h]
  | var | fsym => intro f h; cases f <;> simp_all [deepEq]
  | un op e ih =>
    intro f h
    cases f with
    | un op' e' =>
      simp only [deepEq, Res.map_eq_ok, Bool.and_eq_true] at h
      obtain ⟨b, hb, rfl, heq⟩ := h
      simp only [eval, ih hb]
      congr 1; funext x
      cases op <;> cases op' <;> simp_all [UOp.equal, applyU]
    | _ => simp [deepEq, Res.map_eq_ok] at h
  | integ lo hi x e _ _ ih =>
    intro f h
    cases f with
    | integ => simp only [deepEq] at h; simp only [eval, ih h]
    | _ => simp [deepEq, Res.map_eq_ok] at h
  | bin op l r ihl ihr =>
    intro f h
    cases f with
    | bin op' l' r' =>
      simp only [deepEq, Res.bind_eq_ok] at h
      obtain ⟨b, hb, h⟩ := h
      split at h
      · rename_i hbo
        simp only [Bool.and_eq_true, decide_eq_true_eq] at hbo
        obtain ⟨rfl, rfl⟩ := hbo
        simp only [eval, ihl hb, ihr h, ho _ _ _ _ hb h]
      · cases h
    | _ => simp [deepEq] at h
  | vec es =>
    intro f h
    cases f with
    | vec => rfl
    | _ => simp [deepEq] at h

end VM
