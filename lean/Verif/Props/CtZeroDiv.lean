import Verif.Ct.ZeroDivLemmas
import Verif.Props.CtNormal
import Verif.Props.CtDegree
/-
Property C46, divisions by 0 below the top of the expression.
-/
namespace VM.Props
open VM.Spec VM.Ct

/-- C46: a division by the constant 0 does not compile, nor does a sum, a difference, a multiple or a quotient (by integers
other than 0) with such a division in it, at any depth, whatever happens to numbers that leave the range of `int`. -/
theorem C46_zero_divisor_inside {cv : Conv} (hcv : KeepsZero cv) (e : CtExpr) (h : ByZero e) :
    ctSimplify cv e = none := by
  cases hs : ctSimplify cv e with
  | none => rfl
  | some z =>
    obtain ⟨l, hl⟩ := byZero_part (simplifyN_byZero hcv _ hs h)
    exact absurd (.inr (.inl rfl)) (C46_no_trivial_operation hs hl).1

/-- C46, limit: `0 * (x / 0)` and `0 / (x / 0)` become 0. -/
theorem C46_zero_divisor_hidden (cv : Conv) (i : Nat) :
    ctSimplify cv (♯0 *' (.var i /' ♯0)) = some ♯0 ∧ ctSimplify cv (♯0 /' (.var i /' ♯0)) = some ♯0 := by
  constructor <;> rfl

/-- `2 * ((x / 0 - y) / 3) + 1/0`; for compilers, and if numbers that do not fit are refused. -/
example : ByZero (♯2 *' ((.var 0 /' ♯0 -' .var 1) /' ♯3) +' ♯1 /' ♯0) ∧ KeepsZero narrow ∧ KeepsZero strict :=
  ⟨.inr (.inl rfl), keepsZero_narrow, keepsZero_strict⟩

example : ByZero (♯2 *' ((.var 0 /' ♯0 -' .var 1) /' ♯3)) :=
  .inl ⟨⟨2, by decide, rfl⟩, .inr ⟨.inl (.inl rfl), 3, by decide, rfl⟩⟩

end VM.Props
