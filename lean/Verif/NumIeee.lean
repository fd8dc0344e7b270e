import Verif.NumFl
/-
Floating point numbers with both zeros, infinities and NaN: arithmetic as IEEE 754 (rounding to nearest) and annex F
of the C standard prescribe it, for an arbitrary format.
-/
namespace VM
open Classical

/-- A floating point number.  `neg` is the sign. -/
inductive Ieee (R : Rounding) : Type
  | nan
  | inf (neg : Bool)
  | zero (neg : Bool)
  | num (x : ℝ) (h : R.mem x) (h0 : x ≠ 0)

namespace Ieee
variable {R : Rounding}

/-- The result of an operation whose exact result is `x`: too large results become infinite, results that are
rounded to zero keep their sign, and `neg` is the sign of an exact zero. -/
noncomputable def of (R : Rounding) (x : ℝ) (neg : Bool) : Ieee R :=
  match h : R.round x with
  | none => inf (decide (x < 0))
  | some y => if h0 : y = 0 then zero (if x = 0 then neg else decide (x < 0)) else num y (R.round_mem h) h0

/-- The sign (of NaN: whatever). -/
noncomputable def sign : Ieee R → Bool
  | nan => false
  | inf s => s
  | zero s => s
  | num x _ _ => decide (x < 0)

/-- Change of sign. -/
def neg : Ieee R → Ieee R
  | nan => nan
  | inf s => inf !s
  | zero s => zero !s
  | num x h h0 => num (-x) (R.neg h) (neg_ne_zero.2 h0)

/-- The sum; opposite numbers add up to the positive zero. -/
noncomputable def add : Ieee R → Ieee R → Ieee R
  | nan, _ => nan
  | _, nan => nan
  | inf s, inf t => if s = t then inf s else nan
  | inf s, _ => inf s
  | _, inf t => inf t
  | zero s, zero t => zero (s && t)
  | zero _, y => y
  | x, zero _ => x
  | num x _ _, num y _ _ => of R (x + y) false

/-- The product. -/
noncomputable def mul : Ieee R → Ieee R → Ieee R
  | nan, _ => nan
  | _, nan => nan
  | inf _, zero _ => nan
  | zero _, inf _ => nan
  | inf s, y => inf (s ^^ y.sign)
  | x, inf t => inf (x.sign ^^ t)
  | zero s, y => zero (s ^^ y.sign)
  | x, zero t => zero (x.sign ^^ t)
  | num x _ _, num y _ _ => of R (x * y) false

/-- The quotient; a number divided by zero is infinite. -/
noncomputable def div : Ieee R → Ieee R → Ieee R
  | nan, _ => nan
  | _, nan => nan
  | inf _, inf _ => nan
  | zero _, zero _ => nan
  | inf s, y => inf (s ^^ y.sign)
  | x, inf t => zero (x.sign ^^ t)
  | zero s, y => zero (s ^^ y.sign)
  | x, zero t => inf (x.sign ^^ t)
  | num x _ _, num y _ _ => of R (x / y) false

/-- The mathematical functions; at numbers the library computes them (`Rounding.lib`). -/
noncomputable def fn : Fn → Ieee R → Ieee R
  | _, nan => nan
  | .id, x => x
  | .exp, inf s => if s then zero false else inf false
  | .exp, zero _ => of R (R.lib .exp 0) false
  | .exp, num x _ _ => of R (R.lib .exp x) false
  | .sin, inf _ => nan
  | .sin, zero s => of R (R.lib .sin 0) s
  | .sin, num x _ _ => of R (R.lib .sin x) false
  | .cos, inf _ => nan
  | .cos, zero _ => of R (R.lib .cos 0) false
  | .cos, num x _ _ => of R (R.lib .cos x) false
  | .tan, inf _ => nan
  | .tan, zero s => of R (R.lib .tan 0) s
  | .tan, num x _ _ => of R (R.lib .tan x) false
  | .fabs, inf _ => inf false
  | .fabs, zero _ => of R (R.lib .fabs 0) false
  | .fabs, num x _ _ => of R (R.lib .fabs x) false
  | .sqrt, inf s => if s then nan else inf false
  | .sqrt, zero s => of R (R.lib .sqrt 0) s
  | .sqrt, num x _ _ => if x < 0 then nan else of R (R.lib .sqrt x) false
  | .log, inf s => if s then nan else inf false
  | .log, zero _ => inf true
  | .log, num x _ _ => if x < 0 then nan else of R (R.lib .log x) false
  | .log10, inf s => if s then nan else inf false
  | .log10, zero _ => inf true
  | .log10, num x _ _ => if x < 0 then nan else of R (R.lib .log10 x) false

/-- `==`: NaN is not equal to itself, the zeros are equal. -/
noncomputable def eqb : Ieee R → Ieee R → Bool
  | inf s, inf t => s == t
  | zero _, zero _ => true
  | num x _ _, num y _ _ => decide (x = y)
  | _, _ => false

noncomputable instance : Num (Ieee R) where
  lit n := of R n false
  add := add
  sub x y := add x (neg y)
  mul := mul
  div := div
  fn := fn
  eqb := eqb

instance : EqbPER (Ieee R) where
  symm {a b} h := by
    change eqb a b = true at h; change eqb b a = true
    cases a <;> cases b <;> simp_all [eqb]
  trans {a b c} h h' := by
    change eqb a b = true at h; change eqb b c = true at h'; change eqb a c = true
    cases a <;> cases b <;> cases c <;> simp_all [eqb]

theorem of_mem {x : ℝ} {s : Bool} (h : R.mem x) (h0 : x ≠ 0) : of R x s = num x h h0 := by
  rw [of]
  split <;> rename_i h1 <;> rw [R.round_self h] at h1
  · cases h1
  · cases h1; rw [dif_neg h0]

theorem of_zero {s : Bool} : of R 0 s = zero s := by
  rw [of]
  split <;> rename_i h1 <;> rw [R.round_self R.zero] at h1
  · cases h1
  · cases h1; simp

theorem lit_zero : (Num.lit 0 : Ieee R) = zero false := by
  change of R ((0 : Int) : ℝ) false = _
  rw [Int.cast_zero, of_zero]

theorem lit_one : (Num.lit 1 : Ieee R) = num 1 R.one one_ne_zero := by
  change of R ((1 : Int) : ℝ) false = _
  rw [show ((1 : Int) : ℝ) = 1 by norm_num, of_mem R.one one_ne_zero]

theorem lit_neg_one : (Num.lit (-1) : Ieee R) = num (-1) (R.neg R.one) (neg_ne_zero.2 one_ne_zero) := by
  change of R ((-1 : Int) : ℝ) false = _
  rw [show ((-1 : Int) : ℝ) = -1 by norm_num, of_mem (R.neg R.one) (neg_ne_zero.2 one_ne_zero)]

end Ieee
end VM
