import Verif.Num
/-
A computable number type for the worked examples: rationals with an undefined value.
-/
namespace VM

/-- `none` is the undefined value (division by zero and its consequences). -/
abbrev XRat := Option Rat

namespace XRat

def lift2 (f : Rat → Rat → Rat) : XRat → XRat → XRat
  | some x, some y => some (f x y)
  | _, _ => none

def div : XRat → XRat → XRat
  | some x, some y => if y = 0 then none else some (x / y)
  | _, _ => none

/-- Only rational values: the modulus, and the other functions where they are rational at 0 or 1. -/
def fn : Fn → XRat → XRat
  | _, none => none
  | .fabs, some x => some (if x < 0 then -x else x)
  | .exp, some x => if x = 0 then some 1 else none
  | .sin, some x => if x = 0 then some 0 else none
  | .cos, some x => if x = 0 then some 1 else none
  | .tan, some x => if x = 0 then some 0 else none
  | .sqrt, some x => if x = 0 ∨ x = 1 then some x else none
  | .log, some x => if x = 1 then some 0 else none
  | .log10, some x => if x = 1 then some 0 else none
  | .id, some x => some x

/-- NaN is not equal to itself. -/
def eqb : XRat → XRat → Bool
  | some x, some y => decide (x = y)
  | _, _ => false

instance : Num XRat where
  lit n := some n
  add := lift2 (· + ·)
  sub := lift2 (· - ·)
  mul := lift2 (· * ·)
  div := div
  fn := fn
  eqb := eqb

theorem eqb_lit {c : XRat} {n : Int} : Num.eqb c (Num.lit n) = true ↔ c = some (n : Rat) := by
  cases c <;> simp [Num.eqb, Num.lit, eqb]

instance : SimpLaws XRat where
  bad x := x = none
  bad_add := by rintro (_ | x) (_ | y) <;> simp [Num.add, lift2]
  bad_sub := by rintro (_ | x) (_ | y) <;> simp [Num.sub, lift2]
  bad_mul := by rintro (_ | x) (_ | y) <;> simp [Num.mul, lift2]
  bad_div := by rintro (_ | x) (_ | y) <;> simp [Num.div, div]
  bad_fn := by rintro f _ rfl; cases f <;> rfl
  zero_add := by
    intro c x h; rw [eqb_lit] at h; subst h
    cases x <;> simp [Num.add, lift2, Rat.zero_add]
  add_zero := by
    intro c x h; rw [eqb_lit] at h; subst h
    cases x <;> simp [Num.add, lift2, Rat.add_zero]
  sub_zero := by
    intro c x h; rw [eqb_lit] at h; subst h
    cases x <;> simp [Num.sub, lift2, Rat.sub_eq_add_neg, Rat.add_zero]
  zero_sub := by
    intro c x h; rw [eqb_lit] at h; subst h
    cases x <;> simp [Num.sub, Num.mul, Num.lit, lift2, Rat.sub_eq_add_neg, Rat.zero_add, Rat.neg_mul,
      Rat.one_mul]
  one_mul := by
    intro c x h; rw [eqb_lit] at h; subst h
    cases x <;> simp [Num.mul, lift2, Rat.one_mul]
  mul_one := by
    intro c x h; rw [eqb_lit] at h; subst h
    cases x <;> simp [Num.mul, lift2, Rat.mul_one]
  div_one := by
    intro c x h; rw [eqb_lit] at h; subst h
    cases x <;> simp [Num.div, div, Rat.div_def, show (1 : Rat)⁻¹ = 1 from by decide +kernel, Rat.mul_one]
  zero_mul := by
    intro c x h; rw [eqb_lit] at h; subst h
    cases x <;> simp [Num.mul, Num.lit, lift2]
  mul_zero := by
    intro c x h; rw [eqb_lit] at h; subst h
    cases x <;> simp [Num.mul, Num.lit, lift2]
  zero_div := by
    intro c x h; rw [eqb_lit] at h; subst h
    cases x with
    | none => simp [Num.div, div]
    | some x => by_cases hx : x = 0 <;> simp [Num.div, Num.lit, div, hx, Rat.div_def]

instance : EqbPER XRat where
  symm := by rintro (_ | a) (_ | b) <;> simp [Num.eqb, eqb, eq_comm]
  trans := by
    rintro (_ | a) (_ | b) (_ | c) <;> simp only [Num.eqb, eqb, decide_eq_true_eq] <;>
      first | exact fun h1 h2 => h1.trans h2 | (intro h1 h2; simp_all)

instance : EqbSound XRat where
  eq_of_eqb := by rintro (_ | a) (_ | b) <;> simp [Num.eqb, eqb]

end XRat
end VM
