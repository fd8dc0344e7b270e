import Verif.Spec.Val
import Verif.Spec.Syntax
/-
What the LaTeX claims speak about.
-/
namespace VM.Spec
variable {K : Type}

/-- Built from constants of the set `S`, variables, unknown and test functions, mathematical functions
and `+ - * /`. -/
inductive Readable (S : K → Prop) : Expr K → Prop
  | const {c} : S c → Readable S (.const c)
  | var (i : Nat) : Readable S (.var i)
  | fsym (i : Nat) {t} : t = 0 ∨ t = 1 → Readable S (.fsym i t)
  | fn (f : Fn) {e} : Readable S e → Readable S (.un (.fn f) e)
  | bin {op l r} : IsArithOp op → Readable S l → Readable S r → Readable S (.bin op l r)

/-- Every kind of node but vectors; operators of binary nodes are `+ - * /`. -/
inductive Typeset (S : K → Prop) : Expr K → Prop
  | const {c} : S c → Typeset S (.const c)
  | var (i : Nat) : Typeset S (.var i)
  | fsym (i : Nat) {t} : t = 0 ∨ t = 1 → Typeset S (.fsym i t)
  | un (op : UOp) {e} : Typeset S e → Typeset S (.un op e)
  | integ (x : Nat) {lo hi e} : Typeset S lo → Typeset S hi → Typeset S e → Typeset S (.integ lo hi x e)
  | bin {op l r} : IsArithOp op → Typeset S l → Typeset S r → Typeset S (.bin op l r)

/-- The same expression up to the operator `id` and to how sums are grouped: the smallest congruence with
`id(e) ~ e`, `a + (b + c) ~ (a + b) + c` and `a + (b - c) ~ (a + b) - c`. -/
inductive Regroup : Expr K → Expr K → Prop
  | refl (e) : Regroup e e
  | symm {e f} : Regroup e f → Regroup f e
  | trans {e f g} : Regroup e f → Regroup f g → Regroup e g
  | ident (e) : Regroup (.un (.fn .id) e) e
  | addAdd (a b c) : Regroup (.bin .plus a (.bin .plus b c)) (.bin .plus (.bin .plus a b) c)
  | addSub (a b c) : Regroup (.bin .plus a (.bin .minus b c)) (.bin .minus (.bin .plus a b) c)
  | un (op) {e f} : Regroup e f → Regroup (.un op e) (.un op f)
  | bin (op) {a b c d} : Regroup a b → Regroup c d → Regroup (.bin op a c) (.bin op b d)
  | integ (x) {a b c d e f} : Regroup a b → Regroup c d → Regroup e f → Regroup (.integ a c x e) (.integ b d x f)

/-- The output of numbers: not empty, no blanks, does not start like a name or a command, and different
numbers of `S` look different. -/
structure ShowsNumbers (S : K → Prop) (fmt : K → List Char) : Prop where
  ne : ∀ c, fmt c ≠ []
  noBlank : ∀ c, ' ' ∉ fmt c
  start : ∀ c, ∀ ch ∈ ['x', 'u', 'v', '\\'], (fmt c).head? ≠ some ch
  inj : ∀ a b, S a → S b → fmt a = fmt b → a = b

/-- The two laws of a field that the missing parentheses in `a + (b + c)` and `a + (b - c)` need. -/
structure SumLaws (K : Type) [Num K] : Prop where
  add_add : ∀ a b c : K, Num.add a (Num.add b c) = Num.add (Num.add a b) c
  add_sub : ∀ a b c : K, Num.add a (Num.sub b c) = Num.sub (Num.add a b) c

/-- The string that the last entry of a history of `customize` calls (oldest first) for the expression
selected by `p` asks for. -/
def lastFor (p : Expr K → Bool) (h : List (Expr K × List Char)) : Option (List Char) :=
  (h.reverse.find? fun x => p x.1).map (·.2)

def isVar (i : Nat) : Expr K → Bool
  | .var j => j == i
  | _ => false

def isSym (i g : Nat) : Expr K → Bool
  | .fsym j h => j == i && h == g
  | _ => false

/-- The leaf `l` (a variable or a function symbol) is part of the expression: anywhere but in entries
of a vector.  Integration variables and the variables of formal derivatives are included. -/
inductive Shows (l : Expr K) : Expr K → Prop
  | self : Shows l l
  | un {op e} : Shows l e → Shows l (.un op e)
  | pdVar {x e} : l = .var x → Shows l (.un (.pd x) e)
  | integLo {lo hi x e} : Shows l lo → Shows l (.integ lo hi x e)
  | integHi {lo hi x e} : Shows l hi → Shows l (.integ lo hi x e)
  | integVar {lo hi x e} : l = .var x → Shows l (.integ lo hi x e)
  | integBody {lo hi x e} : Shows l e → Shows l (.integ lo hi x e)
  | binL {op a b} : Shows l a → Shows l (.bin op a b)
  | binR {op a b} : Shows l b → Shows l (.bin op a b)

/-- `x` with the name of a variable in it: `pre` + decimal id + `} `. -/
def named (pre : String) (i : Nat) : List Char := pre.toList ++ (Nat.repr i).toList ++ "} ".toList

end VM.Spec
