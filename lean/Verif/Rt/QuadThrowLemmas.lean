import Verif.Rt.QuadThrow
import Verif.Spec.QuadThrow
import Verif.Rt.ThrowLemmas
import Verif.Rt.SubstIntegLemmas
import Verif.Rt.MentionsLemmas
/-
Lemmas about failing numerical integrations.
-/
namespace VM
open Spec
variable {K : Type}

/-- What a node says by itself. -/
def headItem : Expr K → Option Item
  | .var i => some (.var i)
  | .fsym i t => some (.sym i t)
  | .un op _ => opItem op
  | .integ .. => some .integral
  | .vec _ => some .vector
  | _ => none

/-- All nodes outside of bounds say things in `S`. -/
def Outside (S : Item → Prop) (e : Expr K) : Prop := ∀ t, SubV t e → ∀ m, headItem t = some m → S m

variable {S : Item → Prop}

theorem outside_const {c : K} : Outside S (.const c) := fun _ h _ hm => by cases h; cases hm

theorem outside_un {op : UOp} {e : Expr K} : Outside S (.un op e) ↔ (∀ m, opItem op = some m → S m) ∧ Outside S e := by
  refine ⟨fun h => ⟨h _ .refl, fun t ht => h t (.un ht)⟩, fun ⟨h1, h2⟩ t ht => ?_⟩
  cases ht with
  | refl => exact h1
  | un ht => exact h2 t ht

theorem outside_integ {lo hi e : Expr K} {x : Nat} :
    Outside S (.integ lo hi x e) ↔ S .integral ∧ Outside S e := by
  refine ⟨fun h => ⟨h _ .refl _ rfl, fun t ht => h t (.integ ht)⟩, fun ⟨h1, h2⟩ t ht => ?_⟩
  cases ht with
  | refl => intro m hm; cases hm; exact h1
  | integ ht => exact h2 t ht

theorem outside_bin {op : BOp} {l r : Expr K} : Outside S (.bin op l r) ↔ Outside S l ∧ Outside S r := by
  refine ⟨fun h => ⟨fun t ht => h t (.binL ht), fun t ht => h t (.binR ht)⟩, fun ⟨h1, h2⟩ t ht => ?_⟩
  cases ht with
  | refl => exact nofun
  | binL ht => exact h1 t ht
  | binR ht => exact h2 t ht

theorem outside_vec {es : List (Expr K)} : Outside S (.vec es) ↔ S .vector ∧ ∀ e ∈ es, Outside S e := by
  refine ⟨fun h => ⟨h _ .refl _ rfl, fun e he t ht => h t (.vec he ht)⟩, fun ⟨h1, h2⟩ t ht => ?_⟩
  cases ht with
  | refl => intro m hm; cases hm; exact h1
  | vec he ht => exact h2 _ he t ht

theorem Outside.dotFrom {acc : Expr K} {ls rs : List (Expr K)} (ha : Outside S acc) (hl : ∀ e ∈ ls, Outside S e)
    (hr : ∀ e ∈ rs, Outside S e) : Outside S (dotFrom acc ls rs) := by
  induction ls generalizing acc rs with
  | nil => cases rs <;> exact ha
  | cons l ls ih => cases rs with
    | nil => exact ha
    | cons r rs =>
      exact ih (outside_bin.2 ⟨ha, outside_bin.2 ⟨hl _ (by simp), hr _ (by simp)⟩⟩)
        (fun e he => hl e (by simp [he])) (fun e he => hr e (by simp [he]))

/-- Replacing a variable by a number. -/
theorem rp_outside (x : Nat) (c : K) {e : Expr K} (h : Outside S e) :
    Outside (fun m => S m ∧ m ≠ .var x) (rp x (.const c) e) := by
  induction e using Expr.ind with
  | const c => exact outside_const
  | var i =>
    simp only [rp]
    split
    · exact outside_const
    · next hi =>
      intro t ht m hm
      cases ht; cases hm
      exact ⟨h _ .refl _ rfl, fun hh => hi (Item.var.inj hh).symm⟩
  | fsym i t => intro _ ht m hm; cases ht; cases hm; exact ⟨h _ .refl _ rfl, nofun⟩
  | un op e ih =>
    refine outside_un.2 ⟨fun m hm => ⟨(outside_un.1 h).1 m hm, fun hh => ?_⟩, ih (outside_un.1 h).2⟩
    subst hh; cases op <;> cases hm
  | integ lo hi y e _ _ ih => exact outside_integ.2 ⟨⟨(outside_integ.1 h).1, nofun⟩, ih (outside_integ.1 h).2⟩
  | bin op l r ihl ihr => exact outside_bin.2 ⟨ihl (outside_bin.1 h).1, ihr (outside_bin.1 h).2⟩
  | vec es ih =>
    rw [rp, rpL_eq_map]
    refine outside_vec.2 ⟨⟨(outside_vec.1 h).1, nofun⟩, fun e he => ?_⟩
    obtain ⟨d, hd, rfl⟩ := List.mem_map.1 he
    exact ih d hd ((outside_vec.1 h).2 d hd)

theorem rp_wf (x : Nat) (c : K) {e : Expr K} (h : WellFormed e) : WellFormed (rp x (.const c) e) := by
  induction h with
  | const c => exact .const c
  | var i => simp only [rp]; split; exact .const c; exact .var i
  | fsym i t => exact .fsym i t
  | un op _ ih => exact .un op ih
  | integ y h1 h2 _ _ _ ih => exact .integ y h1 h2 ih
  | bin ho _ _ ihl ihr => exact .bin ho ihl ihr
  | vec _ ih =>
    rw [rp, rpL_eq_map]
    refine .vec fun e he => ?_
    obtain ⟨d, hd, rfl⟩ := List.mem_map.1 he
    exact ih d hd

/-- Nodes with operators. -/
theorem head_gradient {t : Expr K} (h : headItem t = some .gradient) : ∃ f, t = .un .grad f := by
  cases t with
  | un op f => cases op <;> simp [headItem, opItem] at h; exact ⟨f, rfl⟩
  | _ => simp [headItem] at h

theorem head_divergence {t : Expr K} (h : headItem t = some .divergence) : ∃ f, t = .un .divg f := by
  cases t with
  | un op f => cases op <;> simp [headItem, opItem] at h; exact ⟨f, rfl⟩
  | _ => simp [headItem] at h

theorem head_deriv {t : Expr K} {i : Nat} (h : headItem t = some (.deriv i)) : ∃ f, t = .un (.pd i) f := by
  cases t with
  | un op f => cases op <;> simp [headItem, opItem] at h; subst h; exact ⟨f, rfl⟩
  | _ => simp [headItem] at h

theorem head_interval {t : Expr K} {k : Nat} (h : headItem t = some (.interval k)) : ∃ f, t = .un (.symInt k) f := by
  cases t with
  | un op f => cases op <;> simp [headItem, opItem] at h; subst h; exact ⟨f, rfl⟩
  | _ => simp [headItem] at h

theorem head_integral {t : Expr K} (h : headItem t = some .integral) : ∃ lo hi x f, t = .integ lo hi x f := by
  cases t with
  | un op f => cases op <;> simp [headItem, opItem] at h
  | integ lo hi x f => exact ⟨lo, hi, x, f, rfl⟩
  | _ => simp [headItem] at h

theorem head_vector {t : Expr K} (h : headItem t = some .vector) : ∃ es, t = .vec es := by
  cases t with
  | un op f => cases op <;> simp [headItem, opItem] at h
  | vec es => exact ⟨es, rfl⟩
  | _ => simp [headItem] at h

theorem head_sym {t : Expr K} {i g : Nat} (h : headItem t = some (.sym i g)) : t = .fsym i g := by
  cases t with
  | un op f => cases op <;> simp [headItem, opItem] at h
  | fsym => simp [headItem] at h; obtain ⟨rfl, rfl⟩ := h; rfl
  | _ => simp [headItem] at h

theorem head_var {t : Expr K} {i : Nat} (h : headItem t = some (.var i)) : t = .var i := by
  cases t with
  | un op f => cases op <;> simp [headItem, opItem] at h
  | var => simp [headItem] at h; subst h; rfl
  | _ => simp [headItem] at h

/-- The nodes at which `unwrap` throws. -/
theorem unwrapSite_at (o : Order K) {e : Expr K} (hw : WellFormed e) {s : Site} (h : unwrapSite o e = some s) :
    ∃ t, SubV t e ∧
      ((s = .unwrapVariable ∧ ∃ i, t = .var i) ∨ (s = .unwrapSymbol ∧ ∃ i g, t = .fsym i g) ∨
        (s = .unwrapVector ∧ ∃ es, t = .vec es) ∨ (s = .evalIntegral ∧ ∃ lo hi x f, t = .integ lo hi x f) ∨
        ∃ op f, t = .un op f ∧ op.site = some s) := by
  induction hw with
  | const c => cases h
  | var i => cases h; exact ⟨_, .refl, .inl ⟨rfl, i, rfl⟩⟩
  | fsym i t => cases h; exact ⟨_, .refl, .inr (.inl ⟨rfl, i, t, rfl⟩)⟩
  | un op _ ih =>
    rcases or_cases h with h | h
    · obtain ⟨t, h1, h2⟩ := ih h
      exact ⟨t, .un h1, h2⟩
    · exact ⟨_, .refl, .inr (.inr (.inr (.inr ⟨op, _, rfl, h⟩)))⟩
  | integ x _ _ _ _ _ ih =>
    rcases or_cases h with h | h
    · obtain ⟨t, h1, h2⟩ := ih h
      exact ⟨t, .integ h1, h2⟩
    · cases h; exact ⟨_, .refl, .inr (.inr (.inr (.inl ⟨rfl, _, _, _, _, rfl⟩)))⟩
  | @bin op l r ho _ _ ihl ihr =>
    have key : ∀ {u}, u = some s → ∀ {op : BOp}, (op = .plus ∨ op = .minus ∨ op = .mult ∨ op = .div) → u = op.site → False := by
      rintro _ h _ (rfl | rfl | rfl | rfl) rfl <;> cases h
    rw [unwrapSite] at h
    have h : (unwrapSite o l = some s ∨ unwrapSite o r = some s) ∨ op.site = some s := by
      split at h
      · exact (or_cases h).imp_left or_cases
      · exact (or_cases h).imp_left fun h => (or_cases h).symm
    rcases h with (h | h) | h
    · obtain ⟨t, h1, h2⟩ := ihl h
      exact ⟨t, .binL h1, h2⟩
    · obtain ⟨t, h1, h2⟩ := ihr h
      exact ⟨t, .binR h1, h2⟩
    · exact (key h ho rfl).elim
  | vec _ _ => cases h; exact ⟨_, .refl, .inr (.inr (.inl ⟨rfl, _, rfl⟩))⟩

variable [Num K]

theorem Pass.outside {e e' : Expr K} (h : Pass e e') (hw : Outside S e) : Outside S e' := by
  induction h with
  | const | var | fsym | vec | uid => exact hw
  | unFold | fold | multZeroL | multZeroR | divZeroL => exact outside_const
  | unConst => exact outside_un.2 ⟨(outside_un.1 hw).1, outside_const⟩
  | un _ _ ih => exact outside_un.2 ⟨(outside_un.1 hw).1, ih (outside_un.1 hw).2⟩
  | integConst => exact outside_integ.2 ⟨(outside_integ.1 hw).1, outside_const⟩
  | integ _ _ ih => exact outside_integ.2 ⟨(outside_integ.1 hw).1, ih (outside_integ.1 hw).2⟩
  | plusZeroL _ _ _ _ _ ih | multOneL _ _ _ _ _ ih => exact ih (outside_bin.1 hw).2
  | plusZeroR _ _ _ _ _ ih | minusZeroR _ _ _ _ _ ih | multOneR _ _ _ _ _ ih
  | divOneR _ _ _ _ _ ih => exact ih (outside_bin.1 hw).1
  | minusZeroL _ _ _ _ _ ih | constL _ _ _ _ _ _ ih => exact outside_bin.2 ⟨outside_const, ih (outside_bin.1 hw).2⟩
  | constR _ _ _ _ _ _ ih => exact outside_bin.2 ⟨ih (outside_bin.1 hw).1, outside_const⟩
  | cong _ _ _ _ _ _ ihl ihr => exact outside_bin.2 ⟨ihl (outside_bin.1 hw).1, ihr (outside_bin.1 hw).2⟩
  | dotp h =>
    obtain ⟨l, ls, r, rs, rfl, rfl, _, rfl⟩ := dot_eq_ok h
    obtain ⟨h1, h2⟩ := outside_bin.1 hw
    have h1 := (outside_vec.1 h1).2
    have h2 := (outside_vec.1 h2).2
    exact Outside.dotFrom (outside_bin.2 ⟨h1 _ (by simp), h2 _ (by simp)⟩) (fun e he => h1 e (by simp [he]))
      (fun e he => h2 e (by simp [he]))

/-- The integrand at the midpoint has no nodes but those of the integrand, and not the integration variable. -/
theorem midpoint_outside {x : Nat} {c : K} {f tmp : Expr K} (h : substitute (.var x) (.const c) f = .ok tmp)
    (hw : WellFormed f) : WellFormed tmp ∧
      ∀ t, SubV t tmp → ∀ m, headItem t = some m → (∃ s, SubV s f ∧ headItem s = some m) ∧ m ≠ .var x := by
  simp only [substitute, substE_var, Res.bind_ok] at h
  have h1 : Outside (fun m => ∃ s, SubV s f ∧ headItem s = some m) f := fun t ht m hm => ⟨t, ht, hm⟩
  exact (simplified_induct (P := fun e => WellFormed e ∧ Outside _ e) (fun _ _ hp ⟨h1, h2⟩ => ⟨hp.wellFormed h1, hp.outside h2⟩)
    h ⟨rp_wf x c hw, rp_outside x c h1⟩).1

end VM
