/-
Outcome of a C++ call: a value, an exception, or undefined behaviour.
-/
namespace VM

/-- Exceptions thrown by the library (`exception.hpp` 31-138; the `const char *` throws of
`compiletime/unary_op_tags.hpp` 183, 206, 237 are `formalOp`).  Message texts: Rt/Throw. -/
inductive Exc where
  /-- `variable_index_out_of_bounds_exception(id, vector_size)`, exception.hpp 119-136 -/
  | indexOutOfBounds (id size : Nat)
  /-- `expression_not_evaluable_exception`, exception.hpp 67-79 -/
  | notEvaluable
  /-- `expression_not_unwrappable_exception`, exception.hpp 85-97 -/
  | notUnwrappable
  /-- `expression_not_differentiable_exception`, exception.hpp 102-114 -/
  | notDifferentiable
  /-- `rhs_provided_for_unary_operation_exception`, exception.hpp 56-59 -/
  | rhsForUnary
  /-- `throw "Cannot evaluate formal ..."`, unary_op_tags.hpp 183, 206, 237 -/
  | formalOp
  /-- `analytic_integration_not_supported_exception`, exception.hpp 43-46 -/
  | analyticIntegration
  /-- `symbolic_integral_evaluation_not_possible_exception`, exception.hpp 36-39 -/
  | symbolicIntegral
  /-- `integration_without_integral_exception`, exception.hpp 30-33 -/
  | noIntegral
  /-- `std::bad_alloc`, thrown by `new` when there is no memory left -/
  | badAlloc
  deriving DecidableEq, Repr

/-- Outcome of a C++ call. -/
inductive Res (α : Type) where
  | ok (a : α)
  | throw (x : Exc)
  /-- undefined behaviour (out-of-range access, null dereference, failed `assert`, ...) -/
  | ub
  deriving DecidableEq, Repr

namespace Res
variable {α β γ : Type}

/-- Sequencing: exceptions and undefined behaviour propagate. -/
def bind (m : Res α) (f : α → Res β) : Res β :=
  match m with
  | ok a => f a
  | throw x => throw x
  | ub => ub

def map (f : α → β) (m : Res α) : Res β := m.bind fun a => ok (f a)

instance : Monad Res where
  pure := ok
  bind := bind

/-- Two calls whose results are the arguments of a third call: C++ leaves it to the compiler which
of the two is made first (`first = true`: the left one). -/
def both (first : Bool) (a : Res α) (b : Res β) (f : α → β → Res γ) : Res γ :=
  if first then a.bind fun x => b.bind fun y => f x y
  else b.bind fun y => a.bind fun x => f x y

@[simp] theorem bind_ok (a : α) (f : α → Res β) : (ok a).bind f = f a := rfl
@[simp] theorem bind_throw (x : Exc) (f : α → Res β) : (throw x : Res α).bind f = throw x := rfl
@[simp] theorem bind_ub (f : α → Res β) : (ub : Res α).bind f = ub := rfl
@[simp] theorem map_ok (a : α) (f : α → β) : (ok a).map f = ok (f a) := rfl
@[simp] theorem map_throw (x : Exc) (f : α → β) : (throw x : Res α).map f = throw x := rfl
@[simp] theorem map_ub (f : α → β) : (ub : Res α).map f = ub := rfl

theorem bind_eq_ok {m : Res α} {f : α → Res β} {b : β} :
    m.bind f = ok b ↔ ∃ a, m = ok a ∧ f a = ok b := by
  cases m <;> simp

theorem map_eq_ok {m : Res α} {f : α → β} {b : β} :
    m.map f = ok b ↔ ∃ a, m = ok a ∧ f a = b := by
  cases m <;> simp

theorem both_eq_ok {first : Bool} {a : Res α} {b : Res β} {f : α → β → Res γ} {c : γ} :
    both first a b f = ok c ↔ ∃ x y, a = ok x ∧ b = ok y ∧ f x y = ok c := by
  cases first <;> cases a <;> cases b <;> simp [both]

@[simp] theorem both_ok (first : Bool) (x : α) (y : β) (f : α → β → Res γ) :
    both first (ok x) (ok y) f = f x y := by
  cases first <;> rfl

end Res
end VM
