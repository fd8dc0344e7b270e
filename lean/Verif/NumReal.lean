import Verif.Num
import Mathlib.Analysis.SpecialFunctions.Log.Basic
import Mathlib.Analysis.SpecialFunctions.Trigonometric.Basic
import Mathlib.Analysis.SpecialFunctions.Sqrt
/-
Exact real arithmetic with an undefined value: division by zero, logarithm of a number `≤ 0`,
square root of a number `< 0` and the tangent at its poles are undefined.
-/
namespace VM

/-- `none` is the undefined value. -/
abbrev XReal := Option ℝ

namespace XReal
open Classical

def lift2 (f : ℝ → ℝ → ℝ) : XReal → XReal → XReal
  | some x, some y => some (f x y)
  | _, _ => none

noncomputable def div : XReal → XReal → XReal
  | some x, some y => if y = 0 then none else some (x / y)
  | _, _ => none

noncomputable def fn : Fn → XReal → XReal
  | _, none => none
  | .id, some x => some x
  | .exp, some x => some (Real.exp x)
  | .sin, some x => some (Real.sin x)
  | .cos, some x => some (Real.cos x)
  | .tan, some x => if Real.cos x = 0 then none else some (Real.tan x)
  | .fabs, some x => some |x|
  | .sqrt, some x => if x < 0 then none else some (Real.sqrt x)
  | .log, some x => if x ≤ 0 then none else some (Real.log x)
  | .log10, some x => if x ≤ 0 then none else some (Real.log x / Real.log 10)

/-- NaN is not equal to itself. -/
noncomputable def eqb : XReal → XReal → Bool
  | some x, some y => decide (x = y)
  | _, _ => false

noncomputable instance : Num XReal where
  lit n := some n
  add := lift2 (· + ·)
  sub := lift2 (· - ·)
  mul := lift2 (· * ·)
  div := div
  fn := fn
  eqb := eqb

theorem eqb_lit {c : XReal} {n : Int} : Num.eqb c (Num.lit n) = true ↔ c = some (n : ℝ) := by
  cases c <;> simp [Num.eqb, Num.lit, eqb]

instance : SimpLaws XReal where
  bad x := x = none
  bad_add := by rintro (_ | x) (_ | y) <;> simp [Num.add, lift2]
  bad_sub := by rintro (_ | x) (_ | y) <;> simp [Num.sub, lift2]
  bad_mul := by rintro (_ | x) (_ | y) <;> simp [Num.mul, lift2]
  bad_div := by rintro (_ | x) (_ | y) <;> simp [Num.div, div]
  bad_fn := by rintro f _ rfl; cases f <;> rfl
  zero_add := by
    intro c x h; rw [eqb_lit] at h; subst h
    cases x <;> simp [Num.add, lift2]
  add_zero := by
    intro c x h; rw [eqb_lit] at h; subst h
    cases x <;> simp [Num.add, lift2]
  sub_zero := by
    intro c x h; rw [eqb_lit] at h; subst h
    cases x <;> simp [Num.sub, lift2]
  zero_sub := by
    intro c x h; rw [eqb_lit] at h; subst h
    cases x <;> simp [Num.sub, Num.mul, Num.lit, lift2]
  one_mul := by
    intro c x h; rw [eqb_lit] at h; subst h
    cases x <;> simp [Num.mul, lift2]
  mul_one := by
    intro c x h; rw [eqb_lit] at h; subst h
    cases x <;> simp [Num.mul, lift2]
  div_one := by
    intro c x h; rw [eqb_lit] at h; subst h
    cases x <;> simp [Num.div, div]
  zero_mul := by
    intro c x h; rw [eqb_lit] at h; subst h
    cases x <;> simp [Num.mul, Num.lit, lift2]
  mul_zero := by
    intro c x h; rw [eqb_lit] at h; subst h
    cases x <;> simp [Num.mul, Num.lit, lift2]
  zero_div := by
    intro c x h; rw [eqb_lit] at h; subst h
    cases x with
    | none => simp [Num.div, div]
    | some x => by_cases hx : x = 0 <;> simp [Num.div, Num.lit, div, hx]

instance : EqbPER XReal where
  symm := by rintro (_ | a) (_ | b) <;> simp [Num.eqb, eqb, eq_comm]
  trans := by
    rintro (_ | a) (_ | b) (_ | c) <;> simp only [Num.eqb, eqb, decide_eq_true_eq] <;>
      first | exact fun h1 h2 => h1.trans h2 | (intro h1 h2; simp_all)

instance : EqbSound XReal where
  eq_of_eqb := by rintro (_ | a) (_ | b) <;> simp [Num.eqb, eqb]

end XReal
end VM
