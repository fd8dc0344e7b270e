import Verif.Ct.SidesLemmas
/-
C51: the two sides of an equation, and the two bounds of an interval, are what was given.

Full statement: for all formulas `a`, `b`, `make_equation(a, b)` and `make_interval(a, b)` compile, and the first and
second side have, at every point, the values of `a` and `b`.

False of the code in two ways.  Some combinations of operand types do not compile: exactly which is proved
(`C51_equation_compiles`, `C51_interval_compiles`).  And when both operands are compile-time objects and one of them
holds a run-time constant, the constant is lost (`C51_constants_lost`).
-/
namespace VM.Props
open VM VM.Ct VM.Spec

/-- C51 for equations, in part: the sides have the values of the formulas.  Missing: operands with run-time constants
inside compile-time expressions, if the result is a `ct_equation`; quotients of such operands (C49). -/
theorem C51_equation_partial (folds : Bool) (s t : Written) (hs : PlainQuotients s) (ht : PlainQuotients t) (a b : Value)
    (ha : s.build folds = some a) (hb : t.build folds = some b) (q : Sides) (h : makeEquation a b = some q)
    (hc : ∀ l r, q = .ct l r → NoConstant s ∧ NoConstant t) : SidesMean s t q :=
  sidesMean hs ht ha hb (equation_sides h) hc

/-- C51 for intervals, in part, as for equations. -/
theorem C51_interval_partial (folds : Bool) (s t : Written) (hs : PlainQuotients s) (ht : PlainQuotients t) (a b : Value)
    (ha : s.build folds = some a) (hb : t.build folds = some b) (q : Sides) (h : makeInterval a b = some q)
    (hc : ∀ l r, q = .ct l r → NoConstant s ∧ NoConstant t) : SidesMean s t q :=
  sidesMean hs ht ha hb (interval_sides h) hc

-- make_equation(sin(x), 2.0), an rt_equation
example : ∃ l r, makeEquation (.rt .unary (.un (.fn .sin) (.var 0))) (.num (some 2)) = some (.rt l r) ∧
    (Written.fn .sin (.rv 0)).build false = some (.rt .unary (.un (.fn .sin) (.var 0))) ∧
    (Written.num 2).build false = some (.num (some 2)) := ⟨_, _, rfl, rfl, rfl⟩
-- make_interval(1 + x, y) with compile-time objects, a ct_interval
example : makeInterval (.mix (.bin (.const 1) .plus (.var 0))) (.mix (.var 1)) =
      some (.ct (.bin (.const 1) .plus (.var 0)) (.var 1)) ∧
    (Written.bin .plus (.cc 1) (.cv 0)).build false = some (.mix (.bin (.const 1) .plus (.var 0))) ∧
    NoConstant (.bin .plus (.cc 1) (.cv 0)) := by
  refine ⟨rfl, ?_, trivial, trivial⟩
  simp [Written.build, operate, opAdd, opGeneric, MixExpr.isCompiletime, MixExpr.defaultable, Built.value]

/-- Which operands `make_equation` accepts, exactly. -/
theorem C51_equation_compiles (a b : Value) : makeEquation a b ≠ none ↔ ¬ EquationFails a b :=
  not_congr (equation_none a b)

/-- Which operands `make_interval` accepts, exactly. -/
theorem C51_interval_compiles (a b : Value) : makeInterval a b ≠ none ↔ ¬ IntervalFails a b :=
  not_congr (interval_none a b)

-- make_equation(2.0, constant(3.0)) does not compile, make_interval(2.0, constant(3.0)) does;
-- make_interval(x, y) does not compile for a compile-time x and a run-time y, make_interval(y, x) does
example : EquationFails (.num (some 2)) (.mix (.rc 3)) ∧ ¬ IntervalFails (.num (some 2)) (.mix (.rc 3)) ∧
    IntervalFails (.mix (.var 0)) (.rt .variable (.var 1)) ∧ ¬ IntervalFails (.rt .variable (.var 1)) (.mix (.var 0)) := by
  simp [EquationFails, IntervalFails, ANumber, ARtConstant, ACtBinary, ACtSymbol, ARtSymbol, ACtVariable, ARunTime,
    NoRunTimeForm]

/-- When both operands are compile-time objects, the numbers of run-time constants inside are not part of the equation
or interval: objects of the same type give the same result whatever the numbers, and a side with such a constant
cannot be recovered. -/
theorem C51_constants_lost (a a' b : MixExpr ℝ) (ha : a.isCompiletime) (hb : b.isCompiletime) (ht : a.type = a'.type)
    (hc : ¬ NoRtConst a) :
    makeEquation (.mix a) (.mix b) = makeEquation (.mix a') (.mix b) ∧
    makeInterval (.mix a) (.mix b) = makeInterval (.mix a') (.mix b) ∧
    ∃ l r, makeEquation (.mix a) (.mix b) = some (.ct l r) ∧ makeInterval (.mix a) (.mix b) = some (.ct l r) ∧
      defaultOf l = none := by
  obtain ⟨h1, h2⟩ := both_ct a b ha hb
  obtain ⟨h3, h4⟩ := both_ct a' b (by rw [← type_isCompiletime, ← ht, type_isCompiletime, ha]) hb
  refine ⟨by rw [h1, h3, ht], by rw [h2, h4, ht], _, _, h1, h2, ?_⟩
  rw [defaultOf, type_toCt]
  exact toCt_rt hc

-- 2.0 + (1 + x) is such an operand: it is folded to a compile-time object with the number 3.0 inside
example (c : ℝ) : (Written.bin .plus (.rc c) (.bin .plus (.cc 1) (.cv 0))).build false =
      some (.mix (.bin (.rc (c + (1 : Int))) .plus (.var 0))) ∧
    (MixExpr.bin (.rc (c + (1 : Int))) .plus (.var 0)).isCompiletime ∧
    ¬ NoRtConst (MixExpr.bin (.rc (c + (1 : Int))) .plus (.var 0)) ∧
    (MixExpr.bin (.rc (c + (1 : Int))) .plus (.var 0)).type = (MixExpr.bin (.rc (5 : ℝ)) .plus (.var 0)).type := by
  refine ⟨?_, rfl, fun h => h.1, rfl⟩
  simp [Written.build, operate, opAdd, opGeneric, MixExpr.isCompiletime, MixExpr.defaultable, Built.value]

end VM.Props
