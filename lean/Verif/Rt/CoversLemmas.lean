import Verif.Rt.EqualLemmas
import Verif.Spec.Covers
import Verif.Spec.Syntax
/-
`deep_equal` and what it takes for equal, for C21.
-/
namespace VM
open Spec
variable {K : Type} [Num K]

theorem deepEqL_true : ∀ es fs : List (Expr K), deepEqL es fs = .ok true ↔
    fs.length ≤ es.length ∧ ∀ (i : Nat) e f, es[i]? = some e → fs[i]? = some f → deepEq e f = .ok true
  | es, [] => by simp [deepEqL]
  | [], f :: fs => by simp [deepEqL]
  | e :: es, f :: fs => by
    have ih := deepEqL_true es fs
    simp only [deepEqL]
    constructor
    · intro h
      obtain ⟨b, hb, h⟩ := Res.bind_eq_ok.1 h
      cases b
      · cases h
      · obtain ⟨h1, h2⟩ := ih.1 h
        refine ⟨by simpa using h1, fun i a b ha hb' => ?_⟩
        cases i with
        | zero => simp at ha hb'; rw [← ha, ← hb']; exact hb
        | succ i => exact h2 i a b (by simpa using ha) (by simpa using hb')
    · rintro ⟨h1, h2⟩
      rw [h2 0 e f rfl rfl, Res.bind_ok, if_pos rfl]
      exact ih.2 ⟨by simpa using h1, fun i a b ha hb => h2 (i + 1) a b (by simpa using ha) (by simpa using hb)⟩

theorem covers_of_deepEq (e : Expr K) : ∀ f : Expr K, deepEq e f = .ok true → Covers e f := by
  induction e using Expr.ind with
  | const c =>
    intro f h
    cases f <;> simp only [deepEq, Res.ok.injEq, Bool.false_eq_true] at h
    exact .const h
  | var i =>
    intro f h
    cases f <;> simp only [deepEq, Res.ok.injEq, Bool.false_eq_true, decide_eq_true_eq] at h
    subst h; exact .var
  | fsym i t =>
    intro f h
    cases f <;> simp only [deepEq, Res.ok.injEq, Bool.false_eq_true, Bool.and_eq_true, decide_eq_true_eq] at h
    obtain ⟨rfl, rfl⟩ := h; exact .fsym
  | un op e ih =>
    intro f h
    cases f with
    | un op' f =>
      simp only [deepEq] at h
      rcases he : deepEq e f with (_ | _) | x | _ <;> rw [he] at h <;> simp at h
      have := ih f he
      cases op <;> cases op' <;> simp [UOp.equal] at h <;> (try subst h) <;>
        first | exact .un this | exact .symInt this
    | integ lo hi x f =>
      simp only [deepEq] at h
      rcases he : deepEq e f with (_ | _) | x | _ <;> rw [he] at h <;> simp at h
    | _ => simp [deepEq] at h
  | integ lo hi x e _ _ ih =>
    intro f h
    cases f with
    | integ lo' hi' x' f => exact .integ (ih f h)
    | un op f =>
      simp only [deepEq] at h
      rcases he : deepEq e f with (_ | _) | x | _ <;> rw [he] at h <;> simp at h
    | _ => simp [deepEq] at h
  | bin op l r ihl ihr =>
    intro f h
    cases f with
    | bin op' l' r' =>
      simp only [deepEq] at h
      obtain ⟨b, hb, h1⟩ := Res.bind_eq_ok.1 h
      split at h1
      · rename_i hc
        obtain ⟨rfl, hc⟩ := Bool.and_eq_true_iff.1 hc
        obtain rfl := of_decide_eq_true hc
        exact .bin (ihl _ hb) (ihr _ h1)
      · cases h1
    | _ => simp [deepEq] at h
  | vec es ih =>
    intro f h
    cases f with
    | vec fs =>
      obtain ⟨h1, h2⟩ := (deepEqL_true es fs).1 h
      exact .vec h1 fun i e f he hf => ih e (List.mem_of_getElem? he) f (h2 i e f he hf)
    | _ => simp [deepEq] at h

theorem deepEq_of_covers {e f : Expr K} (h : Covers e f) : deepEq e f = .ok true := by
  induction h with
  | const h => simp [deepEq, h]
  | var => simp [deepEq]
  | fsym => simp [deepEq]
  | un _ ih => simp [deepEq, ih, UOp.equal_refl]
  | symInt _ ih => simp [deepEq, ih, UOp.equal]
  | integ _ ih => simpa [deepEq] using ih
  | bin _ _ ih1 ih2 => simp [deepEq, ih1, ih2]
  | vec h1 _ ih =>
    simp only [deepEq]
    exact (deepEqL_true _ _).2 ⟨h1, ih⟩

theorem deepEq_defined (e : Expr K) : ∀ f : Expr K,
    (∀ es fs, SubV (.vec es) e → SubV (.vec fs) f → fs.length ≤ es.length) → ∃ b, deepEq e f = .ok b := by
  induction e using Expr.ind with
  | const | var | fsym => intro f _; cases f <;> simp [deepEq]
  | un op e ih =>
    intro f h
    cases f with
    | un op' f =>
      obtain ⟨b, hb⟩ := ih f fun es fs h1 h2 => h es fs (.un h1) (.un h2)
      simp [deepEq, hb]
    | integ lo hi x f =>
      obtain ⟨b, hb⟩ := ih f fun es fs h1 h2 => h es fs (.un h1) (.integ h2)
      simp [deepEq, hb]
    | _ => simp [deepEq]
  | integ lo hi x e _ _ ih =>
    intro f h
    cases f with
    | un op' f =>
      obtain ⟨b, hb⟩ := ih f fun es fs h1 h2 => h es fs (.integ h1) (.un h2)
      simp [deepEq, hb]
    | integ lo hi x f =>
      obtain ⟨b, hb⟩ := ih f fun es fs h1 h2 => h es fs (.integ h1) (.integ h2)
      simp [deepEq, hb]
    | _ => simp [deepEq]
  | bin op l r ihl ihr =>
    intro f h
    cases f with
    | bin op' l' r' =>
      obtain ⟨b, hb⟩ := ihl l' fun es fs h1 h2 => h es fs (.binL h1) (.binL h2)
      obtain ⟨c, hc⟩ := ihr r' fun es fs h1 h2 => h es fs (.binR h1) (.binR h2)
      simp only [deepEq, hb, hc, Res.bind_ok]
      split <;> simp
    | _ => simp [deepEq]
  | vec es ih =>
    intro f h
    cases f with
    | vec fs =>
      have hl : ∀ as bs : List (Expr K), (∀ a ∈ as, a ∈ es) → (∀ b ∈ bs, b ∈ fs) → bs.length ≤ as.length →
          ∃ b, deepEqL as bs = .ok b := by
        intro as
        induction as with
        | nil => intro bs _ _ hn; cases bs <;> simp_all [deepEqL]
        | cons a as iha =>
          intro bs ha hb hn
          cases bs with
          | nil => simp [deepEqL]
          | cons b bs =>
            obtain ⟨c, hc⟩ := ih a (ha a (by simp)) b fun xs ys h1 h2 =>
              h xs ys (.vec (ha a (by simp)) h1) (.vec (hb b (by simp)) h2)
            obtain ⟨d, hd⟩ := iha bs (fun x hx => ha x (by simp [hx])) (fun x hx => hb x (by simp [hx])) (by simpa using hn)
            simp only [deepEqL, hc, Res.bind_ok, hd]
            split <;> simp
      exact hl es fs (fun _ h => h) (fun _ h => h) (h es fs .refl .refl)
    | _ => simp [deepEq]

end VM
