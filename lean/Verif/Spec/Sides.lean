import Verif.Spec.Written
import Verif.Ct.Sides
/-
What the two sides of equations and intervals should be, and which operands `make_equation` and `make_interval` do
not accept.
-/
namespace VM.Spec
open VM VM.Ct

/-- A number of type `double`. -/
def ANumber : Value → Prop
  | .num _ => True
  | _ => False

/-- A `ct_binary_expr`. -/
def ACtBinary : Value → Prop
  | .mix (.bin _ _ _) => True
  | _ => False

/-- A `ct_function_symbol`. -/
def ACtSymbol : Value → Prop
  | .mix (.fsym _) => True
  | _ => False

/-- A `ct_variable`. -/
def ACtVariable : Value → Prop
  | .mix (.var _) => True
  | _ => False

/-- A `ct_constant`. -/
def ACtConstant : Value → Prop
  | .mix (.const _) => True
  | _ => False

/-- An object of a run-time class. -/
def ARunTime : Value → Prop
  | .mix (.rc _) | .rt _ _ => True
  | _ => False

/-- An `rt_constant`. -/
def ARtConstant : Value → Prop
  | .mix (.rc _) => True
  | _ => False

/-- An `rt_function_symbol`. -/
def ARtSymbol : Value → Prop
  | .rt .fsym _ => True
  | _ => False

/-- The compile-time expression has constants and variables at its leaves. -/
def Plain : MixExpr ℝ → Prop
  | .const _ | .var _ => True
  | .rc _ | .fsym _ => False
  | .bin l _ r => Plain l ∧ Plain r

/-- A compile-time expression with function symbols or run-time constants inside. -/
def NoRunTimeForm : Value → Prop
  | .mix (.bin l _ r) => ¬ (Plain l ∧ Plain r)
  | .mix (.fsym _) => True
  | _ => False

/-- An object of a compile-time class. -/
def ACompileTime (v : Value) : Prop := ACtBinary v ∨ ACtSymbol v ∨ ACtVariable v ∨ ACtConstant v

/-- What `make_equation(a, b)` does not accept. -/
def EquationFails (a b : Value) : Prop :=
  (ANumber a ∧ (ANumber b ∨ ARtConstant b ∨ ACtConstant b ∨ ACtBinary b ∨ ACtSymbol b ∨ ARtSymbol b)) ∨
  ((NoRunTimeForm a ∨ NoRunTimeForm b) ∧ ¬ (ACompileTime a ∧ ACompileTime b))

/-- What `make_interval(a, b)` does not accept. -/
def IntervalFails (a b : Value) : Prop :=
  (ANumber a ∧ (ACtBinary b ∨ ACtSymbol b ∨ ARtSymbol b)) ∨
  (ANumber b ∧ (ACtBinary a ∨ ACtSymbol a)) ∨
  (ACtVariable a ∧ ARunTime b) ∨
  ((NoRunTimeForm a ∨ NoRunTimeForm b) ∧ ¬ (ACompileTime a ∧ ACompileTime b))

/-- The sides have the values of the formulas at all points where these are defined. -/
def SidesMean (s t : Written) : Sides → Prop
  | .rt l r => ∀ (p : List ℝ) (x : ℝ) (o : Order XReal),
      (meaning p s = some x → eval o (p.map some) l = .ok (some x)) ∧
      (meaning p t = some x → eval o (p.map some) r = .ok (some x))
  | .ct l r => ∃ l' r', defaultOf l = some l' ∧ defaultOf r = some r' ∧
      ∀ (p : List ℝ) (x : ℝ) (o : CtOrder),
      (meaning p s = some x → ctCall o (p.map some) l' = some (.ok (some x : XReal))) ∧
      (meaning p t = some x → ctCall o (p.map some) r' = some (.ok (some x : XReal)))

end VM.Spec
