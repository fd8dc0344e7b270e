import Verif.Spec.Syntax
/-
Vocabulary of the differentiation properties.
-/
namespace VM.Spec
variable {K : Type}

/-- Built from constants, variables, `id exp sin cos tan sqrt log log10` and `+ - * /`. -/
inductive Smooth : Expr K → Prop
  | const (c : K) : Smooth (.const c)
  | var (i : Nat) : Smooth (.var i)
  | fn {f e} : f ≠ Fn.fabs → Smooth e → Smooth (.un (.fn f) e)
  | bin {op l r} : IsArithOp op → Smooth l → Smooth r → Smooth (.bin op l r)

/-- The same with function symbols. -/
inductive SmoothSym : Expr K → Prop
  | const (c : K) : SmoothSym (.const c)
  | var (i : Nat) : SmoothSym (.var i)
  | fsym (i t : Nat) : SmoothSym (.fsym i t)
  | fn {f e} : f ≠ Fn.fabs → SmoothSym e → SmoothSym (.un (.fn f) e)
  | bin {op l r} : IsArithOp op → SmoothSym l → SmoothSym r → SmoothSym (.bin op l r)

/-- Contains, anywhere, a modulus, function symbol, gradient, divergence, formal partial derivative or
integral. -/
inductive Unsupported : Expr K → Prop
  | fabs (e) : Unsupported (.un (.fn .fabs) e)
  | fsym (i t : Nat) : Unsupported (.fsym i t)
  | grad (e) : Unsupported (.un .grad e)
  | divg (e) : Unsupported (.un .divg e)
  | pd (i : Nat) (e) : Unsupported (.un (.pd i) e)
  | symInt (id : Nat) (e) : Unsupported (.un (.symInt id) e)
  | integ (lo hi x e) : Unsupported (.integ lo hi x e)
  | un {op e} : Unsupported e → Unsupported (.un op e)
  | binL {op l r} : Unsupported l → Unsupported (.bin op l r)
  | binR {op l r} : Unsupported r → Unsupported (.bin op l r)
  | vec {es e} : e ∈ es → Unsupported e → Unsupported (.vec es)

end VM.Spec
