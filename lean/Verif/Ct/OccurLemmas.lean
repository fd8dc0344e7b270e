import Verif.Ct.SimplifySound
import Verif.Spec.CtManip
import Mathlib.Tactic.Tauto
namespace VM.Ct
open VM.Spec

/-! Simplification introduces no variables and moves none into a denominator. -/

theorem frac_has {cv : Conv} {x y : CExp} {e : CtExpr} (h : frac cv x y = some e) (i : Nat) :
    ¬ Has i e ∧ PolyIn i e := by
  obtain ⟨_, _, _, _, _, _, _, _, _, _, _, _, _, _, rfl⟩ := frac_some.1 h
  simp [Has, PolyIn]

theorem spz_has {cv : Conv} (i : Nat) {s : Spz} {e e' : CtExpr}
    (hs : s ∈ specs) (hm : s.pat.fits e = true) :
    s.type cv e = some e' → (Has i e' → Has i e) ∧ (PolyIn i e → PolyIn i e') := by
  simp only [specs, List.mem_append] at hs
  obtain ((hs | hs) | hs) | hs := hs
  all_goals revert hm; revert hs
  all_goals intro _ _
  all_goals per_rule
  all_goals
    intro ht
    dsimp only at ht
    first
      | (simp at ht; done)
      | (have := frac_has ht i; tauto)
      | (simp only [Option.some.injEq, Option.map_eq_some_iff, Option.bind_eq_some_iff] at ht
         try (casesm* _ ∧ _, Exists _)
         subst_vars
         simp only [Has, PolyIn]
         tauto)

theorem implAny_has {cv : Conv} (i : Nat) {e e' : CtExpr} {n : Nat} (h : ImplAny cv e n e') :
    (Has i e' → Has i e) ∧ (PolyIn i e → PolyIn i e') := by
  induction h with
  | const | var | fsym => exact ⟨id, id⟩
  | general op _ _ ihl ihr => cases op <;> simp only [Has, PolyIn] <;> tauto
  | special hs hm ht => exact spz_has i hs hm ht

theorem simplifyAny_has {cv : Conv} (i : Nat) {e e' : CtExpr} (h : SimplifyAny cv e e') :
    (Has i e' → Has i e) ∧ (PolyIn i e → PolyIn i e') := by
  induction h with
  | stop _ => exact ⟨id, id⟩
  | turn h _ ih => have := implAny_has i h; tauto

theorem ctSimplify_has {cv : Conv} (i : Nat) {e e' : CtExpr} (h : ctSimplify cv e = some e') :
    (Has i e' → Has i e) ∧ (PolyIn i e → PolyIn i e') := simplifyAny_has i (ctSimplify_any _ le_rfl h)

end VM.Ct
