import Verif.Rt.CoordsLemmas
import Verif.NumRat
/-
Property C30 (Cartesian coordinate systems).
-/
namespace VM.Props
open Spec
variable {K : Type} [Num K]

/-- C30.  No gradient or divergence of `u` or `v` remains, provided that gradients are taken of function symbols and of
expressions that simplification cannot turn into one (`grad()` accepts function symbols and unary expressions only),
and that there are no gradients and divergences in integration bounds.  Divergences may be taken of anything. -/
theorem C30_eliminates_partial (d : Dim) (e e' : Expr K) (h : coords d e = .ok e')
    (hg : GradOf IsGrad (fun _ _ _ => True) e) :
    GradOf IsGrad NotUV e' ∧
      ∀ op t, (op = .grad ∨ op = .divg) → (t = 0 ∨ t = 1) → ¬ SubV (.un op (.fsym 0 t)) e' := by
  have hn := coords_gradOf h hg
  refine ⟨hn, fun op t ho ht hs => ?_⟩
  clear h hg
  generalize hq : (Expr.un op (.fsym 0 t) : Expr K) = q at hs
  induction hs with
  | refl =>
    subst hq
    cases hn with | un h1 _ _ => exact h1 ho 0 t rfl ⟨rfl, ht⟩
  | un _ ih => cases hn with | un _ _ h => exact ih h
  | integ _ ih => cases hn with | integ _ _ _ h => exact ih h
  | binL _ ih => cases hn with | bin _ h _ => exact ih h
  | binR _ ih => cases hn with | bin _ _ h => exact ih h
  | vec he _ ih => cases hn with | vec h => exact ih (h _ he)

/-- C30.  There is a result, for every expression whose vectors have as many entries as there are dimensions
(any common positive number in one dimension). -/
theorem C30_result (d : Dim) (n : Nat) (hn : 0 < n) (hd : d = .one ∨ n = d.toNat) (e : Expr K)
    (hw : WellFormed e) (hv : VecDim n e) : ∃ e', coords d e = .ok e' :=
  coords_ok hn hd hw hv

/-- C30.  The result means what the expression means with the gradients of `u` and `v` read as vectors of partial
derivatives and the divergences as sums of partial derivatives. -/
theorem C30_value [SimpLaws K] (d : Dim) (e e' : Expr K) (h : coords d e = .ok e')
    (hg : GradOf IsGrad (fun _ _ _ => True) e) (I : Interp K) (hI : ∀ x, I.good x → ¬ SimpLaws.bad x)
    (ρ : Nat → Option K) (a : K) (he : Val I ρ (writtenOut d.toNat e) a) (hb : ¬ SimpLaws.bad a) :
    Val I ρ e' a :=
  coords_val h hg hI he hb

/-- C30.  `grad(u) * grad(v)` (in any order, also with the same symbol twice) becomes the sum of the products of
the partial derivatives. -/
theorem C30_product (d : Dim) (s t : Nat) (hs : s = 0 ∨ s = 1) (ht : t = 0 ∨ t = 1) :
    coords d (.bin .mult (.un .grad (.fsym 0 s)) (.un .grad (.fsym 0 t)) : Expr K) =
      .ok (sumOf (List.zipWith (.bin .mult) (partials d.toNat 0 s) (partials d.toNat 0 t))) := by
  rcases hs with rfl | rfl <;> rcases ht with rfl | rfl <;> cases d <;> rfl

/-- C30.  Expressions without such operators are only simplified (divergences, like
gradients, taken of function symbols and solid expressions). -/
theorem C30_plain (d : Dim) (e : Expr K) (h : GradOf IsGradDiv NotUV e) : coords d e = simplified e :=
  coords_plain h

/-- C30.  Both sides of an equation are transformed, and it does not matter which first if both succeed. -/
theorem C30_equation (first : Bool) (d : Dim) (q q' : Equation K) :
    coordsEq first d q = .ok q' ↔ coords d q.lhs = .ok q'.lhs ∧ coords d q.rhs = .ok q'.rhs := by
  obtain ⟨l, r⟩ := q'
  unfold coordsEq
  constructor
  · intro h
    obtain ⟨l', r', h1, h2, h3⟩ := Res.both_eq_ok.1 h
    cases h3; exact ⟨h1, h2⟩
  · rintro ⟨h1, h2⟩
    simp [h1, h2]

/-- C30 fails in integration bounds: the divergence in the bound remains. -/
theorem C30_not_in_bounds (d : Dim) (lo e : Expr K) (x : Nat) (he : GradOf IsGradDiv NotUV e)
    (hs : simplified e = .ok e) :
    coords d (.integ lo (.un .divg (.fsym 0 0)) x e) = .ok (.integ lo (.un .divg (.fsym 0 0)) x e) := by
  have hc := (simplified_induct (P := fun _ => True) (fun _ _ _ _ => trivial) hs trivial).2
  have st : ∀ op t, (op = .grad ∨ op = .divg) → (t = 0 ∨ t = 1) →
      coordStep d.toNat op t (.integ lo (.un .divg (.fsym 0 0)) x e) =
        .ok (.integ lo (.un .divg (.fsym 0 0)) x e) := by
    intro op t ho ht
    have : rq op 0 t (replOf d.toNat op t) e = e :=
      rq_of_gradOf ho (by rcases ht with rfl | rfl <;> simp [NotUV]) he
    simp only [coordStep, rq, this]
    rw [simplified_eq, canSimplify, hc]; rfl
  simp [coords_eq, Res.bind, st _ _ (.inl rfl) (.inl rfl), st _ _ (.inl rfl) (.inr rfl), st _ _ (.inr rfl) (.inl rfl),
    st _ _ (.inr rfl) (.inr rfl)]

/-! ### The hypotheses can be met -/

/-- `∫ grad(u)*grad(v) + div(u + 0) + div(2*w) dx0` over `[0, 1]`. -/
def exCoords : Expr XRat :=
  .integ (.const (some 0)) (.const (some 1)) 0 (.bin .plus (.bin .plus
    (.bin .mult (.un .grad (.fsym 0 0)) (.un .grad (.fsym 0 1)))
    (.un .divg (.bin .plus (.fsym 0 0) (.const (some 0))))) (.un .divg (.bin .mult (.const (some 2)) (.fsym 3 0))))

example : GradOf IsGrad (fun _ _ _ => True) exCoords :=
  .integ _ (.const _) (.const _) (.bin _ (.bin _ (.bin _ (.un (by simp) (fun _ => .inr ⟨_, _, rfl⟩) (.fsym _ _))
    (.un (by simp) (fun _ => .inr ⟨_, _, rfl⟩) (.fsym _ _)))
    (.un (by simp) nofun (.bin _ (.fsym _ _) (.const _))))
    (.un (by simp) nofun (.bin _ (.const _) (.fsym _ _))))

example : ∃ e', coords .two exCoords = .ok e' :=
  C30_result .two 2 (by decide) (.inr rfl) _
    (.integ _ (.const _) (.const _) (.bin (.inl rfl) (.bin (.inl rfl) (.bin (.inr (.inr (.inl rfl)))
      (.un _ (.fsym _ _)) (.un _ (.fsym _ _))) (.un _ (.bin (.inl rfl) (.fsym _ _) (.const _))))
      (.un _ (.bin (.inr (.inr (.inl rfl))) (.const _) (.fsym _ _)))))
    (.integ _ (.const _) (.const _) (.bin _ (.bin _ (.bin _
      (.un _ (.fsym _ _)) (.un _ (.fsym _ _))) (.un _ (.bin _ (.fsym _ _) (.const _))))
      (.un _ (.bin _ (.const _) (.fsym _ _)))))

/-- The meaning of `grad(u)*grad(v)` in two dimensions with partial derivatives 2, 3 of `u` and 5, 7 of `v`. -/
example : ∃ I : Interp XRat, Val I (fun _ => none)
    (writtenOut 2 (.bin .mult (.un .grad (.fsym 0 0)) (.un .grad (.fsym 0 1)))) (some 31) ∧
    ¬ SimpLaws.bad (some 31 : XRat) := by
  refine ⟨{ Interp.none with
    pd := fun x _ t => some (some (if t = 0 then (if x = 0 then 2 else 3) else (if x = 0 then 5 else 7))) }, ?_,
    by simp [SimpLaws.bad]⟩
  have h1 : (some 31 : XRat) = Num.add (some 10) (some 21) := by decide +kernel
  rw [h1]
  refine .dotSnoc (ls := [_]) (rs := [_]) (.dotOne (.bin (.pd rfl) (.pd rfl) ?_)) (.bin (.pd rfl) (.pd rfl) ?_) <;>
    decide +kernel

example : GradOf (K := XRat) IsGradDiv NotUV (.bin .plus (.un .divg (.fsym 1 0)) (.var 0)) :=
  .bin _ (.un (by simp [NotUV]) (fun _ => .inr ⟨_, _, rfl⟩) (.fsym _ _)) (.var _)

end VM.Props
