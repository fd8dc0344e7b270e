import Verif.Res
/-
The numeric type `default_numeric_type` (`double`, forwards.h) as an abstract type with operations
and no laws, the laws the simplifier needs, and the concrete instances used later.
-/
namespace VM

/-- Mathematical functions, `compiletime/unary_op_tags.hpp` 38-166. -/
inductive Fn where
  | id | exp | sin | cos | tan | fabs | sqrt | log | log10
  deriving DecidableEq, Repr

/-- Arithmetic of the numeric type.  No laws: an IEEE `double` with NaN is an instance. -/
class Num (K : Type) where
  /-- integer literals and `static_cast<double>(long)` -/
  lit : Int → K
  /-- `op_plus::apply`, binary_op_tags.hpp 36-48 -/
  add : K → K → K
  /-- `op_minus::apply`, binary_op_tags.hpp 53-65 -/
  sub : K → K → K
  /-- `op_mult::apply`, binary_op_tags.hpp 70-82 -/
  mul : K → K → K
  /-- `op_div::apply`, binary_op_tags.hpp 87-99 -/
  div : K → K → K
  /-- `::exp`, `::sin`, ...  (`Fn.id` is not looked up here, see `applyFn`) -/
  fn : Fn → K → K
  /-- `a == b`; also `a <= b && a >= b` (constant.hpp 117) -/
  eqb : K → K → Bool

/-- `op_id::apply` ... `op_log10::apply`, unary_op_tags.hpp 42-165. -/
def applyFn {K : Type} [Num K] : Fn → K → K
  | .id, x => x
  | f, x => Num.fn f x

/-- The arithmetic facts the simplifier relies on.  `bad` marks the undefined / non-finite results;
it is absorbing.  Nothing else (no associativity, commutativity, distributivity) is assumed. -/
class SimpLaws (K : Type) [Num K] where
  bad : K → Prop
  bad_add : ∀ {x y : K}, bad x ∨ bad y → bad (Num.add x y)
  bad_sub : ∀ {x y : K}, bad x ∨ bad y → bad (Num.sub x y)
  bad_mul : ∀ {x y : K}, bad x ∨ bad y → bad (Num.mul x y)
  bad_div : ∀ {x y : K}, bad x ∨ bad y → bad (Num.div x y)
  bad_fn : ∀ {f : Fn} {x : K}, bad x → bad (Num.fn f x)
  zero_add : ∀ {c x : K}, Num.eqb c (Num.lit 0) = true → Num.add c x = x
  add_zero : ∀ {c x : K}, Num.eqb c (Num.lit 0) = true → Num.add x c = x
  sub_zero : ∀ {c x : K}, Num.eqb c (Num.lit 0) = true → Num.sub x c = x
  zero_sub : ∀ {c x : K}, Num.eqb c (Num.lit 0) = true → Num.sub c x = Num.mul (Num.lit (-1)) x
  one_mul : ∀ {c x : K}, Num.eqb c (Num.lit 1) = true → Num.mul c x = x
  mul_one : ∀ {c x : K}, Num.eqb c (Num.lit 1) = true → Num.mul x c = x
  div_one : ∀ {c x : K}, Num.eqb c (Num.lit 1) = true → Num.div x c = x
  zero_mul : ∀ {c x : K}, Num.eqb c (Num.lit 0) = true →
    Num.mul c x = Num.lit 0 ∨ bad (Num.mul c x)
  mul_zero : ∀ {c x : K}, Num.eqb c (Num.lit 0) = true →
    Num.mul x c = Num.lit 0 ∨ bad (Num.mul x c)
  zero_div : ∀ {c x : K}, Num.eqb c (Num.lit 0) = true →
    Num.div c x = Num.lit 0 ∨ bad (Num.div c x)

/-- `==` on numbers is symmetric and transitive (true of IEEE `double`, NaN included). -/
class EqbPER (K : Type) [Num K] : Prop where
  symm : ∀ {a b : K}, Num.eqb a b = true → Num.eqb b a = true
  trans : ∀ {a b c : K}, Num.eqb a b = true → Num.eqb b c = true → Num.eqb a c = true

/-- Numbers that compare equal are the same (exact arithmetic; for `double` this identifies the two
zeros). -/
class EqbSound (K : Type) [Num K] : Prop where
  eq_of_eqb : ∀ {a b : K}, Num.eqb a b = true → a = b

end VM
