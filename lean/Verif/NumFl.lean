import Verif.NumReal
/-
Rounded arithmetic: the standard model of floating point numbers.
-/
namespace VM
open Classical

/-- A kind of floating point numbers (as the `double` of the machine): the finite numbers that can be represented,
how results are rounded to them, and the mathematical functions of its library. -/
structure Rounding where
  /-- the finite numbers that can be represented -/
  mem : ℝ → Prop
  /-- the number a result is rounded to; `none` if it is too large -/
  round : ℝ → Option ℝ
  /-- what the library computes for `exp`, `sin`, ... before the result is rounded -/
  lib : Fn → ℝ → ℝ
  /-- relative accuracy -/
  eps : ℝ
  /-- absolute accuracy (near zero) -/
  eta : ℝ
  /-- numbers up to this size are not too large -/
  top : ℝ
  zero : mem 0
  one : mem 1
  neg : ∀ {x}, mem x → mem (-x)
  round_mem : ∀ {x y}, round x = some y → mem y
  round_self : ∀ {x}, mem x → round x = some x
  round_near : ∀ {x y}, round x = some y → |y - x| ≤ eps * |x| + eta
  round_some : ∀ {x}, |x| ≤ top → ∃ y, round x = some y
  lib_near : ∀ {f x y}, XReal.fn f (some x) = some y → |lib f x - y| ≤ eps * |y| + eta

/-- A floating point number; `none` stands for infinities and NaN. -/
def Fl (R : Rounding) : Type := Option {x : ℝ // R.mem x}

namespace Fl
variable {R : Rounding}

/-- The result of an operation whose exact result is `x`. -/
noncomputable def of (R : Rounding) (x : ℝ) : Fl R :=
  match h : R.round x with
  | some y => some ⟨y, R.round_mem h⟩
  | none => none

/-- The number. -/
def val : Fl R → XReal
  | some x => some x.1
  | none => none

/-- An operation computed exactly and then rounded. -/
noncomputable def lift (R : Rounding) : XReal → Fl R
  | some x => of R x
  | none => none

/-- The exact argument is passed to the library if the function is defined there. -/
noncomputable def fn (R : Rounding) (f : Fn) : XReal → Fl R
  | none => none
  | some x => if XReal.fn f (some x) = none then none else of R (R.lib f x)

noncomputable instance : Num (Fl R) where
  lit n := of R n
  add x y := lift R (Num.add x.val y.val)
  sub x y := lift R (Num.sub x.val y.val)
  mul x y := lift R (Num.mul x.val y.val)
  div x y := lift R (Num.div x.val y.val)
  fn f x := fn R f x.val
  eqb x y := Num.eqb x.val y.val

theorem fn_some {f : Fn} {x z : ℝ} (h : XReal.fn f (some x) = some z) : fn R f (some x) = of R (R.lib f x) := by
  have : XReal.fn f (some x) ≠ none := by rw [h]; exact Option.some_ne_none z
  exact if_neg this

theorem val_of (x : ℝ) : (of R x).val = R.round x := by
  rw [of]; split <;> rename_i h <;> exact h.symm

theorem ext {x y : Fl R} (h : x.val = y.val) : x = y := by
  match x, y with
  | none, none => rfl
  | some x, some y => simp only [val, Option.some.injEq] at h; exact congrArg some (Subtype.ext h)
  | none, some y => cases h
  | some x, none => cases h

theorem of_self {x : ℝ} (h : R.mem x) : (of R x).val = some x := by rw [val_of, R.round_self h]

theorem mem_val {x : Fl R} {a : ℝ} (h : x.val = some a) : R.mem a := by
  match x with
  | some x => cases h; exact x.2
  | none => cases h

theorem lift_val {x : Fl R} : lift R x.val = x := by
  apply ext
  match h : x.val with
  | none => rfl
  | some a => rw [lift, of_self (mem_val h)]

theorem lit_val {n : Int} (h : R.mem n) : (Num.lit n : Fl R).val = some (n : ℝ) := of_self h

theorem mem_neg_one : R.mem (-1) := R.neg R.one

theorem val_zero : (Num.lit 0 : Fl R).val = some 0 := by
  rw [lit_val] <;> simp [R.zero]
theorem val_one : (Num.lit 1 : Fl R).val = some 1 := by
  rw [lit_val] <;> simp [R.one]
theorem val_neg_one : (Num.lit (-1) : Fl R).val = some (-1) := by
  rw [lit_val] <;> simp [mem_neg_one]

theorem eqb_zero {c : Fl R} (h : Num.eqb c (Num.lit 0) = true) : c.val = some 0 := by
  change Num.eqb c.val (Num.lit 0 : Fl R).val = true at h
  rw [val_zero] at h
  simpa using (XReal.eqb_lit (n := 0)).1 (by simpa [Num.lit] using h)
theorem eqb_one {c : Fl R} (h : Num.eqb c (Num.lit 1) = true) : c.val = some 1 := by
  change Num.eqb c.val (Num.lit 1 : Fl R).val = true at h
  rw [val_one] at h
  simpa using (XReal.eqb_lit (n := 1)).1 (by simpa [Num.lit] using h)

theorem bad2 {g : XReal → XReal → XReal} (h1 : ∀ y, g none y = none) (h2 : ∀ x, g x none = none) {x y : Fl R}
    (h : x.val = none ∨ y.val = none) : (lift R (g x.val y.val)).val = none := by
  rcases h with h | h <;> rw [h] <;> simp only [h1, h2] <;> rfl

/-- Rounded arithmetic has the laws the simplifier needs: operations with 0 and 1 are not rounded. -/
instance : SimpLaws (Fl R) where
  bad x := x.val = none
  bad_add := bad2 (g := Num.add) (fun y => by cases y <;> rfl) (fun x => by cases x <;> rfl)
  bad_sub := bad2 (g := Num.sub) (fun y => by cases y <;> rfl) (fun x => by cases x <;> rfl)
  bad_mul := bad2 (g := Num.mul) (fun y => by cases y <;> rfl) (fun x => by cases x <;> rfl)
  bad_div := bad2 (g := Num.div) (fun y => by cases y <;> rfl) (fun x => by cases x <;> rfl)
  bad_fn := by intro f x h; simp only [Num.fn, h, fn]; rfl
  zero_add := by
    intro c x h
    simp only [Num.add, eqb_zero h]
    refine Eq.trans ?_ lift_val
    congr 1
    cases x.val <;> simp [XReal.lift2]
  add_zero := by
    intro c x h
    simp only [Num.add, eqb_zero h]
    refine Eq.trans ?_ lift_val
    congr 1
    cases x.val <;> simp [XReal.lift2]
  sub_zero := by
    intro c x h
    simp only [Num.sub, eqb_zero h]
    refine Eq.trans ?_ lift_val
    congr 1
    cases x.val <;> simp [XReal.lift2]
  zero_sub := by
    intro c x h
    simp only [Num.sub, Num.mul, eqb_zero h, val_neg_one]
    cases x.val <;> simp [XReal.lift2]
  one_mul := by
    intro c x h
    simp only [Num.mul, eqb_one h]
    refine Eq.trans ?_ lift_val
    congr 1
    cases x.val <;> simp [XReal.lift2]
  mul_one := by
    intro c x h
    simp only [Num.mul, eqb_one h]
    refine Eq.trans ?_ lift_val
    congr 1
    cases x.val <;> simp [XReal.lift2]
  div_one := by
    intro c x h
    simp only [Num.div, eqb_one h]
    refine Eq.trans ?_ lift_val
    congr 1
    cases x.val <;> simp [XReal.div]
  zero_mul := by
    intro c x h
    simp only [Num.mul, eqb_zero h]
    cases hx : x.val with
    | none => exact .inr rfl
    | some a => left; apply ext; rw [val_zero]; simp [XReal.lift2, lift, of_self R.zero]
  mul_zero := by
    intro c x h
    simp only [Num.mul, eqb_zero h]
    cases hx : x.val with
    | none => exact .inr rfl
    | some a => left; apply ext; rw [val_zero]; simp [XReal.lift2, lift, of_self R.zero]
  zero_div := by
    intro c x h
    simp only [Num.div, eqb_zero h]
    cases hx : x.val with
    | none => exact .inr rfl
    | some a =>
      by_cases ha : a = 0
      · right; simp [XReal.div, ha, lift, val]
      · left; apply ext; rw [val_zero]; simp [XReal.div, ha, lift, of_self R.zero]

end Fl
end VM
