import Verif.Ct.TypedOpsLemmas
import Verif.Props.CtOps
/-
Property C100: operators with constants of any scalar type.
-/
namespace VM.Props
open VM.Ct VM.Spec
variable {F : Type} [Field F]

/-- **C100 (folded constants)**: two constants are folded into the exact sum or difference, or the program is undefined:
exactly if both are whole and the result does not fit into the type in which C++ computes it. -/
theorem C100_fold (neg : Bool) (s t : Scalar F) :
    (Overflows neg s t ∧ foldC neg s t = .ub) ∨
    (¬ Overflows neg s t ∧ ∃ u, foldC neg s t = .ok u ∧
      exactly u = if neg then exactly s - exactly t else exactly s + exactly t) :=
  foldC_cases neg s t

/-- 3L - 5 (`int`) is the double -2. -/
example : foldC (F := Rat) true (.long 3) (.int 5) = .ok (.dbl (-2)) ∧ ¬ Overflows (F := Rat) true (.long 3) (.int 5) :=
  ⟨by decide +kernel, fun h => h (by decide)⟩

/-- **C100 (addition)**: what is returned has the value of the sum, whatever the types. -/
theorem C100_add {folds : Bool} {a b : TMix F} {r : Built (Scalar F)} (h : tAdd folds a b = some (.ok r)) :
    Computes .plus (forget a) (forget b) (forgetB r) :=
  C43_add folds _ _ _ (tAdd_ok h)

/-- **C100 (subtraction)**. -/
theorem C100_sub {folds : Bool} {a b : TMix F} {r : Built (Scalar F)} (h : tSub folds a b = some (.ok r)) :
    Computes .minus (forget a) (forget b) (forgetB r) :=
  C43_sub folds _ _ _ (tSub_ok h)

/-- **C100 (multiplication)**. -/
theorem C100_mul {a b : TMix F} {r : Built (Scalar F)} (h : tMul a b = some (.ok r)) :
    Computes .mult (forget a) (forget b) (forgetB r) :=
  C43_mul _ _ _ (tMul_ok h)

/-- 6L + (8 - x) is 14L - x, 6L - (8 - x) is -2L + x; 2.5 + (8 + x) is 10.5 + x. -/
example : tAdd (F := Rat) false (.rc (.long 6)) (.bin (.const 8) .minus (.var 0)) =
      some (.ok (.ct (.bin (.rc (.long 14)) .minus (.var 0)))) ∧
    tSub (F := Rat) false (.rc (.long 6)) (.bin (.const 8) .minus (.var 0)) =
      some (.ok (.ct (.bin (.rc (.long (-2))) .plus (.var 0)))) ∧
    tAdd (F := Rat) false (.rc (.dbl (5 / 2))) (.bin (.const 8) .plus (.var 0)) =
      some (.ok (.ct (.bin (.rc (.dbl (21 / 2))) .plus (.var 0)))) := by decide +kernel

/-- **C100 (division, partial)**: what is returned has the value of the quotient if the operands are the same, of
different C++ types, or one of them contains no run-time constant.  (Missing: operands of one type that differ in the
number in a constant, see `C43_div_run_time_constants` and `C100_div_wrong`.) -/
theorem C100_div_partial {a b : TMix F} {r : Built (Scalar F)} (h : tDiv a b = some (.ok r))
    (hab : a = b ∨ ¬ OneType a b ∨ NoRtConst a ∨ NoRtConst b) :
    Computes .div (forget a) (forget b) (forgetB r) := by
  refine tDiv_ok h ?_
  by_cases ho : OneType a b
  · exact .inl (hab.elim id fun h => oneType_eq ho (h.resolve_left (absurd ho)))
  · exact .inr ho

/-- `(6L + x)/(6L + x)` is 1; `(x + y)/(y + x)` is a quotient. -/
example : tDiv (F := Rat) (.bin (.rc (.long 6)) .plus (.var 0)) (.bin (.rc (.long 6)) .plus (.var 0)) =
      some (.ok (.ct (.const 1))) ∧
    tDiv (F := Rat) (.bin (.var 0) .plus (.var 1)) (.bin (.var 1) .plus (.var 0)) =
      some (.ok (.ct (.bin (.bin (.var 0) .plus (.var 1)) .div (.bin (.var 1) .plus (.var 0))))) := by decide +kernel

omit [Field F] in
/-- Any two operands of one type with an operator on top divide to 1, whatever their constants. -/
theorem C100_div_wrong {l l' r r' : TMix F} {op : COp} (h : OneType (.bin l op r) (.bin l' op r')) :
    tDiv (.bin l op r) (.bin l' op r') = some (.ok (.ct (.const 1))) := by
  have := sameTypeT_iff.2 h
  simp only [tDiv, this, if_true]

/-- `(6L + x)/(7L + x)`. -/
example : OneType (F := Rat) (.bin (.rc (.long 6)) .plus (.var 0)) (.bin (.rc (.long 7)) .plus (.var 0)) :=
  .bin _ (.long 6 7) (.var 0)

/-- **C100 (only overflow is undefined)**: an operator that is accepted throws nothing, and is undefined only if it folds
two constants whose sum (difference) does not fit. -/
theorem C100_defined (folds : Bool) (a b : TMix F) :
    (tAdd folds a b = some .ub → ∃ s t, leading a = some s ∧ leading b = some t ∧ Overflows false s t) ∧
    (tSub folds a b = some .ub → ∃ s t, leading a = some s ∧ leading b = some t ∧ Overflows true s t) ∧
    tMul a b ≠ some .ub ∧ tDiv a b ≠ some .ub :=
  ⟨tAdd_ub, tSub_ub, tMul_ub, tDiv_ub⟩

/-- **C100 (overflow)**: it happens: the largest `long` plus `1 + x` is undefined; as a `double` it is not. -/
theorem C100_overflow (folds : Bool) :
    tAdd (F := Rat) folds (.rc (.long (2 ^ 63 - 1))) (.bin (.const 1) .plus (.var 0)) = some .ub ∧
    tAdd (F := Rat) folds (.rc (.dbl (2 ^ 63 - 1))) (.bin (.const 1) .plus (.var 0)) =
      some (.ok (.ct (.bin (.rc (.dbl (2 ^ 63))) .plus (.var 0)))) := by
  cases folds <;> decide +kernel

/-- **C100 (double)**: with constants of type `double` the operators are those of C43. -/
theorem C100_doubles (folds : Bool) (a b : MixExpr F) :
    tAdd folds (doubles a) (doubles b) = ((opAdd folds a b).map doublesB).map .ok ∧
    tSub folds (doubles a) (doubles b) = ((opSub folds a b).map doublesB).map .ok :=
  ⟨tAdd_doubles folds a b, tSub_doubles folds a b⟩

example : doubles (.bin (.rc 3) .plus (.var 0) : MixExpr Rat) = .bin (.rc (.dbl 3)) .plus (.var 0) := rfl

/-- **C100 (acceptance, partial)**: the types of the constants do not decide which sums and differences are accepted.
(Missing: a constant of another type than `double` added to a compile-time constant minus something, see
`C100_rejected`.) -/
theorem C100_accepted_partial (folds : Bool) (a b : TMix F) :
    ((∀ n x c, a = .bin (.const n) .minus x → b = .rc c → ∃ y, c = .dbl y) →
      ((tAdd folds a b).isSome ↔ (opAdd folds (forget a) (forget b)).isSome)) ∧
    ((tSub folds a b).isSome ↔ (opSub folds (forget a) (forget b)).isSome) := by
  refine ⟨fun h => ?_, by rw [tSub_isSome]⟩
  rw [tAdd_isSome]
  intro n x c ha hb
  obtain ⟨y, rfl⟩ := h n x c ha hb
  rfl

/-- `(8 + x) + 6L` and `(8 - x) + 6.0`. -/
example : (tAdd (F := Rat) false (.bin (.const 8) .plus (.var 0)) (.rc (.long 6))).isSome = true ∧
    (tAdd (F := Rat) true (.bin (.const 8) .minus (.var 0)) (.rc (.dbl 6))).isSome = true := by decide +kernel

/-- **C100 (what is rejected)**: `(8 - x) + 6L` does not compile, whatever the reading of C43. -/
theorem C100_rejected (folds : Bool) (n : Int) (x : TMix F) (c : Scalar F) (hc : ∀ y, c ≠ .dbl y) :
    tAdd folds (.bin (.const n) .minus x) (.rc c) = none := by
  cases c with
  | dbl y => exact absurd rfl (hc y)
  | _ => rfl

example : (∀ y, Scalar.long (K := Rat) 6 ≠ .dbl y) := by intro y h; cases h

end VM.Props
