import Verif.Spec.BottomUp
import Verif.Rt.SimplifySound
/-
The bottom-up form (C82).
-/
namespace VM
open Spec
variable {K : Type} [Num K]

/-- The recursive form of `Ordinary`. -/
def Clean [SimpLaws K] : Expr K → Prop
  | .un (.fn _) e => Clean e ∧ ∀ c, bottomUp e ≠ .const c
  | .un _ e => Clean e
  | .integ _ _ _ e => Clean e
  | .bin op l r => Clean l ∧ Clean r ∧ (∀ c, combine op (bottomUp l) (bottomUp r) = .const c → ¬ SimpLaws.bad c) ∧
      (op = .mult → ∀ us vs, bottomUp l = .vec us → bottomUp r ≠ .vec vs)
  | _ => True

theorem Clean.un' [SimpLaws K] {op : UOp} {e : Expr K} (h : Clean (.un op e)) : Clean e := by
  cases op
  case fn => exact h.1
  all_goals exact h

section
variable [SimpLaws K]
open SimpLaws (bad)

theorem combine_plusZeroL {c : K} (h : Num.eqb c (Num.lit 0) = true) (R : Expr K) :
    combine .plus (.const c) R = R := by
  cases R <;> simp [combine, h, SimpLaws.zero_add h]

theorem combine_plusZeroR {c : K} (h : Num.eqb c (Num.lit 0) = true) (L : Expr K) :
    combine .plus L (.const c) = L := by
  cases L <;> simp [combine, h, SimpLaws.add_zero h]

theorem combine_minusZeroL {c : K} (h : Num.eqb c (Num.lit 0) = true) (R : Expr K) :
    combine .minus (.const c) R = combine .mult (.const (Num.lit (-1))) R := by
  cases R <;> simp [combine, h, SimpLaws.zero_sub h]

theorem combine_minusZeroR {c : K} (h : Num.eqb c (Num.lit 0) = true) (L : Expr K) :
    combine .minus L (.const c) = L := by
  cases L <;> simp [combine, h, SimpLaws.sub_zero h]

theorem combine_multZeroL {c : K} (h : Num.eqb c (Num.lit 0) = true) (R : Expr K)
    (hb : ∀ b, combine .mult (.const c) R = .const b → ¬ bad b) :
    combine .mult (.const c) R = .const (Num.lit 0) := by
  cases R
  case const b => rcases SimpLaws.zero_mul (x := b) h with h | h
                  · simp [combine, h]
                  · exact absurd h (hb _ rfl)
  all_goals simp [combine, h]

theorem combine_multZeroR {c : K} (h : Num.eqb c (Num.lit 0) = true) (L : Expr K)
    (hb : ∀ b, combine .mult L (.const c) = .const b → ¬ bad b) :
    combine .mult L (.const c) = .const (Num.lit 0) := by
  cases L
  case const b => rcases SimpLaws.mul_zero (x := b) h with h | h
                  · simp [combine, h]
                  · exact absurd h (hb _ rfl)
  all_goals simp [combine, h]

theorem combine_divZeroL {c : K} (h : Num.eqb c (Num.lit 0) = true) (R : Expr K)
    (hb : ∀ b, combine .div (.const c) R = .const b → ¬ bad b) :
    combine .div (.const c) R = .const (Num.lit 0) := by
  cases R
  case const b => rcases SimpLaws.zero_div (x := b) h with h | h
                  · simp [combine, h]
                  · exact absurd h (hb _ rfl)
  all_goals simp [combine, h]

theorem combine_multOneL {c : K} (h0 : Num.eqb c (Num.lit 0) = false) (h : Num.eqb c (Num.lit 1) = true)
    (R : Expr K) : combine .mult (.const c) R = R := by
  cases R <;> simp [combine, h, h0, SimpLaws.one_mul h]

theorem combine_multOneR {c : K} (h0 : Num.eqb c (Num.lit 0) = false) (h : Num.eqb c (Num.lit 1) = true)
    (L : Expr K) : combine .mult L (.const c) = L := by
  cases L <;> simp [combine, h, h0, SimpLaws.mul_one h]

theorem combine_divOneR {c : K} (h : Num.eqb c (Num.lit 1) = true) (L : Expr K) :
    combine .div L (.const c) = L := by
  cases L <;> simp [combine, h, SimpLaws.div_one h]

omit [SimpLaws K] in
theorem not_zero_of_one [EqbPER K] (h01 : Num.eqb (Num.lit 0 : K) (Num.lit 1) = false) {c : K}
    (h : Num.eqb c (Num.lit 1) = true) : Num.eqb c (Num.lit 0) = false := by
  cases h0 : Num.eqb c (Num.lit 0) with
  | false => rfl
  | true => simp [EqbPER.trans (EqbPER.symm h0) h] at h01

theorem Spec.Ordinary.clean {e : Expr K} (h : Ordinary e) : Clean e := by
  induction e using Expr.ind with
  | const | var | fsym | vec => trivial
  | un op e ih =>
    have h' : Clean e := ih ⟨fun _ _ _ _ hs => h.1 _ _ _ _ (.un hs), fun _ _ _ hs => h.2.1 _ _ _ (.un hs),
      fun _ _ _ _ hs => h.2.2 _ _ _ _ (.un hs)⟩
    cases op
    case fn f => exact ⟨h', fun c => h.2.1 _ _ c .refl⟩
    all_goals exact h'
  | integ lo hi x e _ _ ih =>
    exact ih ⟨fun _ _ _ _ hs => h.1 _ _ _ _ (.integ hs), fun _ _ _ hs => h.2.1 _ _ _ (.integ hs),
      fun _ _ _ _ hs => h.2.2 _ _ _ _ (.integ hs)⟩
  | bin op l r ihl ihr =>
    refine ⟨ihl ⟨fun _ _ _ _ hs => h.1 _ _ _ _ (.binL hs), fun _ _ _ hs => h.2.1 _ _ _ (.binL hs),
      fun _ _ _ _ hs => h.2.2 _ _ _ _ (.binL hs)⟩, ihr ⟨fun _ _ _ _ hs => h.1 _ _ _ _ (.binR hs),
      fun _ _ _ hs => h.2.1 _ _ _ (.binR hs), fun _ _ _ _ hs => h.2.2 _ _ _ _ (.binR hs)⟩,
      fun c hc => h.1 op l r c .refl hc, ?_⟩
    rintro rfl us vs hu
    exact h.2.2 l r us vs .refl hu

theorem Clean.sub {s e : Expr K} (hs : Sub s e) (h : Clean e) : Clean s := by
  induction hs with
  | refl => exact h
  | un _ ih => exact ih h.un'
  | integ _ ih => exact ih h
  | binL _ ih => exact ih h.1
  | binR _ ih => exact ih h.2.1

theorem Clean.ordinary {e : Expr K} (h : Clean e) : Ordinary e :=
  ⟨fun _ _ _ _ hs hb => (h.sub hs).2.2.1 _ hb, fun _ _ c hs => (h.sub hs).2 c,
    fun _ _ _ _ hs => (h.sub hs).2.2.2 rfl _ _⟩

end

theorem combine_of_not_trivial {op : BOp} {l r : Expr K} (h : ¬ Trivial (.bin op l r)) :
    combine op l r = .bin op l r := by
  unfold combine
  split
  · exact absurd (.consts (.const _) (.const _)) h
  · exact absurd (.consts (.const _) (.const _)) h
  · exact absurd (.consts (.const _) (.const _)) h
  · exact absurd (.consts (.const _) (.const _)) h
  · split
    · exact absurd (.plusL ‹_›) h
    · rfl
  · split
    · exact absurd (.plusR ‹_›) h
    · rfl
  · split
    · exact absurd (.minusL ‹_›) h
    · rfl
  · split
    · exact absurd (.minusR ‹_›) h
    · rfl
  · split
    · exact absurd (.multZeroL ‹_›) h
    · split
      · exact absurd (.multOneL ‹_›) h
      · rfl
  · split
    · exact absurd (.multZeroR ‹_›) h
    · split
      · exact absurd (.multOneR ‹_›) h
      · rfl
  · split
    · exact absurd (.divL ‹_›) h
    · rfl
  · split
    · exact absurd (.divR ‹_›) h
    · rfl
  · rfl

end VM
