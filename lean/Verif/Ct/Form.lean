import Verif.Ct.Written
import Verif.Rt.Diff
/-
Integrands of weak forms as they are written in a program, with function symbols, vectors and formal operators, and what
C++ makes of them: as in Ct/Written.lean, the static types decide what is called.  `none` means: does not compile, or is
left out here.  Left out are: derivatives of other things than function symbols, sums of a vector object and something
else (the operands go through a chain of conversions), and compile-time objects (Ct/Written.lean).

All vectors have `d` entries, the dimension of space.  (Entries of different number fail an `assert`, Rt/Vector.lean.)
-/
namespace VM.Ct

/-- A formula in a program. -/
inductive Form (d : Nat) where
  /-- a number of type `double` -/
  | num (x : ℝ)
  /-- `constant(x)`, an `rt_constant` -/
  | rc (x : ℝ)
  /-- `variable(i)`, an `rt_variable` -/
  | rv (i : Nat)
  /-- `function_symbol(0, t)` -/
  | sym (t : Nat)
  /-- a `vector_expr v(d)` after `v[i] = es i` for all `i` -/
  | vec (es : Fin d → Form d)
  /-- `expr(t)`, an `rt_expr` -/
  | expr (t : Form d)
  | bin (op : COp) (a b : Form d)
  /-- `exp(t)`, `sin(t)`, ... -/
  | fn (f : Fn) (t : Form d)
  | grad (t : Form d)
  | div (t : Form d)
  | laplace (t : Form d)
  /-- `diff(t, variable(i))` -/
  | diff (t : Form d) (i : Nat)

/-- What a formula evaluates to in C++, with its static type: as in Ct/Written.lean, or an `rt_vector_expr`. -/
inductive FVal (d : Nat) where
  | obj (v : Value)
  | vec (es : Fin d → Expr XReal)

/-- The constructors and assignments of `rt_expr`, expr.hpp 53-198. -/
noncomputable def FVal.clone {d : Nat} : FVal d → Option (Expr XReal)
  | .obj v => v.clone
  | .vec es => some (.vec (List.ofFn es))

/-- All of them, or none. -/
def allOf {α : Type} {d : Nat} (f : Fin d → Option α) : Option (Fin d → α) :=
  if h : ∀ i, (f i).isSome then some fun i => (f i).get (h i) else none

/-- `result[i] = lhs[i] op rhs` and `result[i] = lhs op rhs[i]`, vector_expr.hpp 248-264, 283-299: the entries are
`rt_expr`s. -/
noncomputable def entrywise {d : Nat} (g : Fin d → Option Value) : Option (FVal d) :=
  (allOf fun i => (g i).bind Value.clone).map .vec

/-- `a op b` where vectors are involved: vector_expr.hpp 61-82 (members `+`, `-`), 246-264 (vector and something else),
267-277 (two vectors, the most specialised overload), 281-299.  The quotient of two vectors is ambiguous. -/
noncomputable def operateF {d : Nat} (folds : Bool) (op : COp) : FVal d → FVal d → Option (FVal d)
  | .obj a, .obj b => (operate folds op a b).map .obj
  | .vec a, .vec b => match op with
    | .plus => entrywise fun i => operate folds .plus (.rt .expr (a i)) (.rt .expr (b i))
    | .minus => entrywise fun i => operate folds .minus (.rt .expr (a i)) (.rt .expr (b i))
    | .mult => match dot (List.ofFn a) (List.ofFn b) with
      | .ok e => some (.obj (.rt .expr e))
      | _ => none
    | .div => none
  | .vec a, .obj b => match op with
    | .mult => entrywise fun i => operate folds .mult (.rt .expr (a i)) b
    | .div => entrywise fun i => operate folds .div (.rt .expr (a i)) b
    | _ => none
  | .obj a, .vec b => match op with
    | .mult => entrywise fun i => operate folds .mult a (.rt .expr (b i))
    | .div => entrywise fun i => operate folds .div a (.rt .expr (b i))
    | _ => none

/-- Function calls: there is no overload for vectors. -/
noncomputable def callFnF {d : Nat} (f : Fn) : FVal d → Option (FVal d)
  | .obj v => (callFn f v).map .obj
  | .vec _ => none

/-- `grad(v)`, detail/unary_operations.hpp 666-678: overloads for `rt_function_symbol` and `rt_unary_expr`. -/
noncomputable def callGrad {d : Nat} : FVal d → Option (FVal d)
  | .obj (.rt .fsym e) => some (.obj (.rt .unary (.un .grad e)))
  | .obj (.rt .unary e) => some (.obj (.rt .unary (.un .grad e)))
  | _ => none

/-- `div(v)`, detail/unary_operations.hpp 694-720: overloads for `rt_expr`, `rt_unary_expr`, `rt_binary_expr` and
`rt_function_symbol`. -/
noncomputable def callDiv {d : Nat} : FVal d → Option (FVal d)
  | .obj (.rt c e) => if c = .variable then none else some (.obj (.rt .unary (.un .divg e)))
  | _ => none

/-- `laplace(v)`, detail/unary_operations.hpp 728-740: `div(grad(v))`; the overload for `rt_expr` calls a `grad` that does
not exist. -/
noncomputable def callLaplace {d : Nat} : FVal d → Option (FVal d)
  | .obj (.rt .fsym e) => some (.obj (.rt .unary (.un .divg (.un .grad e))))
  | _ => none

/-- `diff(v, variable(i))` for an `rt_function_symbol`, manipulation/diff.hpp 122-135. -/
noncomputable def callDiffF {d : Nat} (i : Nat) : FVal d → Option (FVal d)
  | .obj (.rt .fsym (.fsym k t)) => some (.obj (.rt .expr (diffSymbol k t i)))
  | _ => none

/-- The value and static type of a formula. -/
noncomputable def Form.build {d : Nat} (folds : Bool) : Form d → Option (FVal d)
  | .num x => some (.obj (.num (some x)))
  | .rc x => some (.obj (.mix (.rc x)))
  | .rv i => some (.obj (.rt .variable (.var i)))
  | .sym t => some (.obj (.rt .fsym (.fsym 0 t)))
  | .vec es => (allOf fun i => ((es i).build folds).bind FVal.clone).map .vec
  | .expr t => (t.build folds).bind fun v => v.clone.map fun e => .obj (.rt .expr e)
  | .bin op a b => (a.build folds).bind fun x => (b.build folds).bind fun y => operateF folds op x y
  | .fn f t => (t.build folds).bind (callFnF f)
  | .grad t => (t.build folds).bind callGrad
  | .div t => (t.build folds).bind callDiv
  | .laplace t => (t.build folds).bind callLaplace
  | .diff t i => (t.build folds).bind (callDiffF i)

/-- A weak form: integrals over a symbolic interval, with `+` and `-`. -/
inductive Weak (d : Nat) where
  | integral (t : Form d)
  | plus (a b : Weak d)
  | minus (a b : Weak d)

/-- `integral(symbolic_interval(k), v)`, runtime/integral.hpp 193-262: overloads for `rt_expr`, `rt_binary_expr`,
`rt_unary_expr`, `rt_constant`, `rt_variable` and `rt_function_symbol`; none for numbers and vectors. -/
noncomputable def callIntegral {d : Nat} (k : Nat) : FVal d → Option (Expr XReal)
  | .obj (.rt _ e) => some (.un (.symInt k) e)
  | .obj (.mix (.rc c)) => some (.un (.symInt k) (.const (some c)))
  | _ => none

/-- The expression a weak form becomes. -/
noncomputable def Weak.build {d : Nat} (folds : Bool) (k : Nat) : Weak d → Option (Expr XReal)
  | .integral t => (t.build folds).bind (callIntegral k)
  | .plus a b => (a.build folds k).bind fun x => (b.build folds k).map fun y => .bin .plus x y
  | .minus a b => (a.build folds k).bind fun x => (b.build folds k).map fun y => .bin .minus x y

end VM.Ct
