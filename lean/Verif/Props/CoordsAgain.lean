import Verif.Props.Coords
import Verif.Rt.Dec
/-
Property C93 (a coordinate system is applied once and for all).
-/
namespace VM.Props
open Spec
variable {K : Type} [Num K]

/-- The result of applying a coordinate system cannot be simplified further. -/
theorem coords_simplified {d : Dim} {e e' : Expr K} (h : coords d e = .ok e') : simplified e' = .ok e' := by
  rw [coords_eq] at h
  simp only [Res.bind_eq_ok] at h
  obtain ⟨_, _, _, _, _, _, h4⟩ := h
  exact simplified_again h4

/-- C93.  A second application, for the same or for another dimension, changes nothing, under the conditions of
`C30_eliminates_partial`. -/
theorem C93_again_partial (d d' : Dim) (e e' : Expr K) (h : coords d e = .ok e')
    (hg : GradOf IsGrad (fun _ _ _ => True) e) : coords d' e' = .ok e' := by
  have hn := coords_gradOf h hg
  have hs := coords_simplified h
  have st : ∀ op t, (op = .grad ∨ op = .divg) → (t = 0 ∨ t = 1) → coordStep d'.toNat op t e' = .ok e' := by
    intro op t hop ht
    rw [coordStep, rq_of_gradOf hop (by rcases ht with rfl | rfl <;> simp [NotUV]) hn, hs]
  simp [coords_eq, Res.bind, st _ _ (.inl rfl) (.inl rfl), st _ _ (.inl rfl) (.inr rfl),
    st _ _ (.inr rfl) (.inl rfl), st _ _ (.inr rfl) (.inr rfl)]

/-- C93.  The same for equations, in whatever order the sides are transformed. -/
theorem C93_equation_partial (first first' : Bool) (d d' : Dim) (q q' : Equation K)
    (h : coordsEq first d q = .ok q') (hl : GradOf IsGrad (fun _ _ _ => True) q.lhs)
    (hr : GradOf IsGrad (fun _ _ _ => True) q.rhs) : coordsEq first' d' q' = .ok q' := by
  obtain ⟨h1, h2⟩ := (C30_equation first d q q').1 h
  exact (C30_equation first' d' q' q').2 ⟨C93_again_partial d d' _ _ h1 hl, C93_again_partial d d' _ _ h2 hr⟩

/-- C93.  Simplifying the result changes nothing either, without any condition. -/
theorem C93_simplify (d : Dim) (e e' : Expr K) (h : coords d e = .ok e') : simplified e' = .ok e' :=
  coords_simplified h

/-- C93 fails if the operand of a gradient becomes `u` by simplification: the search is over by then, so the gradient
remains, and a second application replaces it. -/
theorem C93_not_again : ∃ e e' e'' : Expr XRat, coords .two e = .ok e' ∧ coords .two e' = .ok e'' ∧ e'' ≠ e' ∧
    SubV (.un .grad (.fsym 0 0)) e' := by
  refine ⟨.un .grad (.bin .plus (.fsym 0 0) (.const (some 0))), .un .grad (.fsym 0 0), .vec (partials 2 0 0),
    ?_, rfl, nofun, .refl⟩
  decide +kernel

/-! ### The hypotheses can be met -/

/-- The result for the integral of `C30` is a fixed point for all three systems. -/
example : ∃ e', coords .two exCoords = .ok e' ∧ e' ≠ exCoords ∧ ∀ d, coords d e' = .ok e' := by
  have hg : GradOf IsGrad (fun _ _ _ => True) exCoords :=
    .integ _ (.const _) (.const _) (.bin _ (.bin _ (.bin _ (.un (by simp) (fun _ => .inr ⟨_, _, rfl⟩) (.fsym _ _))
      (.un (by simp) (fun _ => .inr ⟨_, _, rfl⟩) (.fsym _ _)))
      (.un (by simp) nofun (.bin _ (.fsym _ _) (.const _))))
      (.un (by simp) nofun (.bin _ (.const _) (.fsym _ _))))
  obtain ⟨e', h⟩ := C30_result .two 2 (by decide) (.inr rfl) exCoords
    (.integ _ (.const _) (.const _) (.bin (.inl rfl) (.bin (.inl rfl) (.bin (.inr (.inr (.inl rfl)))
      (.un _ (.fsym _ _)) (.un _ (.fsym _ _))) (.un _ (.bin (.inl rfl) (.fsym _ _) (.const _))))
      (.un _ (.bin (.inr (.inr (.inl rfl))) (.const _) (.fsym _ _)))))
    (.integ _ (.const _) (.const _) (.bin _ (.bin _ (.bin _
      (.un _ (.fsym _ _)) (.un _ (.fsym _ _))) (.un _ (.bin _ (.fsym _ _) (.const _))))
      (.un _ (.bin _ (.const _) (.fsym _ _)))))
  refine ⟨e', h, ?_, fun d => C93_again_partial .two d _ _ h hg⟩
  rintro rfl
  exact (C30_eliminates_partial .two _ _ h hg).2 .grad 0 (.inl rfl) (.inl rfl)
    (.integ (.binL (.binL (.binL .refl))))

end VM.Props
