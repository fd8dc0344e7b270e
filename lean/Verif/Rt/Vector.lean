import Verif.Rt.Simplify
/-
Vector expressions.
-/
namespace VM
variable {K : Type}

/-- Indexing `v[i]` (`std::vector::operator[]`): out of range is undefined behaviour. -/
def vecGet (v : List (Expr K)) (i : Nat) : Res (Expr K) :=
  match v[i]? with
  | some e => .ok e
  | none => .ub

/-- `v[i] = e`. -/
def vecSet (v : List (Expr K)) (i : Nat) (e : Expr K) : Res (List (Expr K)) :=
  if i < v.length then .ok (v.set i e) else .ub

/-- `for (i = n0; i < n0 + n; ++i) result[i] = body(i);` -/
def vecLoop (body : Nat → Res (Expr K)) : Nat → Nat → List (Expr K) → Res (List (Expr K))
  | _, 0, acc => .ok acc
  | i, n + 1, acc => (body i).bind fun e => (vecSet acc i e).bind fun acc' => vecLoop body (i + 1) n acc'

variable [Num K]

/-- Constructor with a size, vector_expr.hpp 53-58: a vector of zero constants. -/
def vecNew (n : Nat) : Res (List (Expr K)) :=
  -- `BaseType(num)`: entries without expression; the placeholder is never read
  vecLoop (fun _ => .ok (.const (Num.lit 0))) 0 n (List.replicate n (.vec []))

/-- `operator+`, vector_expr.hpp 61-70.  A size mismatch fails the `assert`. -/
def vecAdd (a b : List (Expr K)) : Res (List (Expr K)) :=
  if a.length = b.length then
    (vecNew b.length).bind <| vecLoop (fun i => (vecGet a i).bind fun x => (vecGet b i).map fun y => .bin .plus x y) 0 b.length
  else .ub

/-- `operator-`, vector_expr.hpp 73-82. -/
def vecSub (a b : List (Expr K)) : Res (List (Expr K)) :=
  if a.length = b.length then
    (vecNew b.length).bind <| vecLoop (fun i => (vecGet a i).bind fun x => (vecGet b i).map fun y => .bin .minus x y) 0 b.length
  else .ub

/-- `clone()`, vector_expr.hpp 89-98; also the copy made by the copy constructor. -/
def vecClone (a : List (Expr K)) : Res (List (Expr K)) :=
  (vecNew a.length).bind fun r => vecLoop (fun i => vecGet a i) 0 r.length r

/-- `vector * T`, vector_expr.hpp 246-254.  `T` is any scalar operand, converted to a run-time expression. -/
def vecScaleR (a : List (Expr K)) (s : Expr K) : Res (List (Expr K)) :=
  (vecNew a.length).bind <| vecLoop (fun i => (vecGet a i).map fun x => .bin .mult x s) 0 a.length

/-- `T * vector`, vector_expr.hpp 256-264. -/
def vecScaleL (s : Expr K) (a : List (Expr K)) : Res (List (Expr K)) :=
  (vecNew a.length).bind <| vecLoop (fun i => (vecGet a i).map fun x => .bin .mult s x) 0 a.length

/-- `vector / T`, vector_expr.hpp 281-289. -/
def vecDivR (a : List (Expr K)) (s : Expr K) : Res (List (Expr K)) :=
  (vecNew a.length).bind <| vecLoop (fun i => (vecGet a i).map fun x => .bin .div x s) 0 a.length

/-- `T / vector`, vector_expr.hpp 291-299. -/
def vecDivL (s : Expr K) (a : List (Expr K)) : Res (List (Expr K)) :=
  (vecNew a.length).bind <| vecLoop (fun i => (vecGet a i).map fun x => .bin .div s x) 0 a.length

end VM
