import Verif.Rt.Expr
import Verif.Rt.Scalar
/-
What an expression with constants of several scalar types stands for.
-/
namespace VM.Spec
variable {K : Type} [Num K]

/-- The number a constant holds, as a number of the numeric type. -/
def held : Scalar K → K
  | .dbl x => x
  | .flt x => x
  | .int n => Num.lit n
  | .long n => Num.lit n

mutual
/-- The expression with every constant of the numeric type. -/
def untyped : TExpr K → Expr K
  | .const c => .const (held c)
  | .var i => .var i
  | .fsym i t => .fsym i t
  | .un op e => .un op (untyped e)
  | .integ lo hi x e => .integ (untyped lo) (untyped hi) x (untyped e)
  | .bin op l r => .bin op (untyped l) (untyped r)
  | .vec es => .vec (untypedL es)
def untypedL : List (TExpr K) → List (Expr K)
  | [] => []
  | e :: es => untyped e :: untypedL es
end

omit [Num K] in
mutual
/-- All constants satisfy `p`. -/
def AllConst (p : Scalar K → Prop) : TExpr K → Prop
  | .const c => p c
  | .var _ => True
  | .fsym _ _ => True
  | .un _ e => AllConst p e
  | .integ lo hi _ e => AllConst p lo ∧ AllConst p hi ∧ AllConst p e
  | .bin _ l r => AllConst p l ∧ AllConst p r
  | .vec es => AllConstL p es
def AllConstL (p : Scalar K → Prop) : List (TExpr K) → Prop
  | [] => True
  | e :: es => AllConst p e ∧ AllConstL p es
end

/-- The constant is of the numeric type. -/
def IsDouble : Scalar K → Prop
  | .dbl _ => True
  | _ => False

omit [Num K] in
/-- A constant of another type than the numeric type, by itself or under identities. -/
def BareConst : TExpr K → Prop
  | .const c => ¬ IsDouble c
  | .un (.fn .id) e => BareConst e
  | _ => False

omit [Num K] in
mutual
/-- No gradient is taken of such a constant. -/
def GradsFine : TExpr K → Prop
  | .un .grad e => ¬ BareConst e ∧ GradsFine e
  | .un _ e => GradsFine e
  | .integ _ _ _ e => GradsFine e
  | .bin _ l r => GradsFine l ∧ GradsFine r
  | .vec es => GradsFineL es
  | _ => True
def GradsFineL : List (TExpr K) → Prop
  | [] => True
  | e :: es => GradsFine e ∧ GradsFineL es
end

/-- Two constants of the same type, or of different values: two whole numbers of the same type must be the same or
differ in the numeric type. -/
def Alike : Scalar K → Scalar K → Prop
  | .dbl _, .dbl _ => True
  | .flt _, .flt _ => True
  | .int n, .int m => n = m ∨ Num.eqb (Num.lit m : K) (Num.lit n) = false
  | .long n, .long m => n = m ∨ Num.eqb (Num.lit m : K) (Num.lit n) = false
  | c, d => Num.eqb (held d) (held c) = false

/-- The decimal digits of a whole constant are the text of the `double` it stands for, as for 6 but not for 1000000. -/
def DigitsAlike (fmt : K → Txt) : Scalar K → Prop
  | .int n => (toString n).toList = fmt (Num.lit n)
  | .long n => (toString n).toList = fmt (Num.lit n)
  | _ => True

end VM.Spec
