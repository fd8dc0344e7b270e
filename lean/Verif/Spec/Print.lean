import Verif.Rt.Print
/-
What the claims about printed text speak about.
-/
namespace VM.Spec
variable {K : Type}

/-- All constants are from the set `S` and all function symbols are unknown or test functions; any node kind. -/
inductive Printable (S : K → Prop) : Expr K → Prop
  | const {c} : S c → Printable S (.const c)
  | var (i : Nat) : Printable S (.var i)
  | fsym (i : Nat) {t} : t = 0 ∨ t = 1 → Printable S (.fsym i t)
  | un (op) {e} : Printable S e → Printable S (.un op e)
  | integ {lo hi} (x) {e} : Printable S lo → Printable S hi → Printable S e → Printable S (.integ lo hi x e)
  | bin (op) {l r} : Printable S l → Printable S r → Printable S (.bin op l r)
  | vec {es} : (∀ e ∈ es, Printable S e) → Printable S (.vec es)

/-- The same for objects of all classes. -/
inductive PrintableObj (S : K → Prop) : Shown K → Prop
  | const {c} : S c → PrintableObj S (.const c)
  | var (i : Nat) : PrintableObj S (.var i)
  | fsym (i : Nat) {t} : t = 0 ∨ t = 1 → PrintableObj S (.fsym i t)
  | un (op) {e} : Printable S e → PrintableObj S (.un op e)
  | integ {lo hi} (x) {e} : Printable S lo → Printable S hi → Printable S e → PrintableObj S (.integ lo hi x e)
  | bin (op) {l r} : Printable S l → Printable S r → PrintableObj S (.bin op l r)
  | vec {es} : (∀ e ∈ es, Printable S e) → PrintableObj S (.vec es)
  | expr {e} : Printable S e → PrintableObj S (.expr e)
  | equation {l r} : Printable S l → Printable S r → PrintableObj S (.equation l r)
  | interval {lo hi} : Printable S lo → Printable S hi → PrintableObj S (.interval lo hi)
  | symbolic (i : Nat) : PrintableObj S (.symbolic i)

/-- The same object, or the same binary expression in an `rt_binary_expr` and in an `rt_expr`. -/
def SameShown (a b : Shown K) : Prop :=
  a = b ∨ ∃ op l r, a = .bin op l r ∧ b = .expr (.bin op l r) ∨ a = .expr (.bin op l r) ∧ b = .bin op l r

/-- The output of numbers: no closing parenthesis, and different numbers of `S` look different. -/
structure TellsApart (S : K → Prop) (fmt : K → List Char) : Prop where
  noParen : ∀ c, S c → ')' ∉ fmt c
  inj : ∀ a b, S a → S b → fmt a = fmt b → a = b

end VM.Spec
