import Verif.Rt.Call
import Verif.Rt.EvalLemmas
import Verif.NumRat
import Verif.Rt.Dec
/-
Property C60 (evaluating an object directly is evaluating it as an `expr`).
-/
namespace VM.Props
section
variable {K : Type} [Num K]

/-- The numbers an argument supplies. -/
def supplied : At K → List K
  | .num c => [c]
  | .integer n => [Num.lit n]
  | .rtConst c => [c]
  | .ctConst n => [Num.lit n]
  | .std v => v
  | .other v => v
  | .ct v => v.map fun
    | .int n => Num.lit n
    | .num x => x

/-- The argument is a single number, not a vector. -/
def IsScalar : At K → Prop
  | .num _ => True
  | .integer _ => True
  | .rtConst _ => True
  | .ctConst _ => True
  | _ => False

/-- A variable other than the first one. -/
def IsLaterVar (a : RtObj K) : Prop := ∃ i, a = .var i ∧ 0 < i

private theorem map_toNum (v : List (Ct.Entry K)) : v.map Ct.Entry.toNum = supplied (.ct v) :=
  List.map_congr_left fun x _ => by cases x <;> rfl

private theorem callNode_eq {o : Order K} {e : Expr K} {p : At K} {r : Ran K} (h : callNode o e p = some r) :
    r = .res (eval o (supplied p) e) := by
  cases p with
  | num c => simp only [callNode, evalS_eq_eval, Option.some.injEq] at h; exact h.symm
  | integer n => simp [callNode] at h
  | rtConst c => simp only [callNode, evalS_eq_eval, Option.some.injEq] at h; exact h.symm
  | ctConst n => simp only [callNode, evalS_eq_eval, Option.some.injEq] at h; exact h.symm
  | std v => simp only [callNode, Option.some.injEq] at h; exact h.symm
  | other v => simp only [callNode, Option.some.injEq] at h; exact h.symm
  | ct v =>
    rw [← map_toNum]
    match v with
    | [] => simp [callNode] at h
    | [x] => simp only [callNode, Option.some.injEq] at h; exact h.symm
    | [x, y] => simp only [callNode, Option.some.injEq] at h; exact h.symm
    | [x, y, z] => simp only [callNode, Option.some.injEq] at h; exact h.symm
    | x :: y :: z :: w :: l => simp [callNode] at h

private theorem callVar_eq {nd : Bool} {o : Order K} {i : Nat} {p : At K} {r : Ran K} (hp : p.valid)
    (hs : 0 < i → ¬ IsScalar p) (h : callVar nd i p = some r) : r = .res (eval o (supplied p) (.var i)) := by
  have vec : ∀ v : List K, r = .res (if v.length ≤ i then .throw (.indexOutOfBounds i v.length) else
      match v[i]? with
      | some x => .ok x
      | none => .ub) → r = .res (eval o v (.var i)) := by
    intro v hr
    rw [hr, eval]
    by_cases hv : v.length ≤ i
    · simp [hv]
    · obtain ⟨x, hx⟩ : ∃ x, v[i]? = some x := ⟨_, List.getElem?_eq_getElem (by omega)⟩
      simp [hv, hx]
  cases p with
  | num c =>
    obtain rfl : i = 0 := Nat.eq_zero_of_not_pos fun hi => hs hi trivial
    simp only [callVar, if_true, Option.some.injEq] at h
    subst h; rfl
  | integer n => simp [callVar] at h
  | rtConst c =>
    obtain rfl : i = 0 := Nat.eq_zero_of_not_pos fun hi => hs hi trivial
    simp only [callVar, Nat.lt_irrefl, if_false, Option.some.injEq] at h
    subst h; rfl
  | ctConst n =>
    obtain rfl : i = 0 := Nat.eq_zero_of_not_pos fun hi => hs hi trivial
    simp only [callVar, Nat.lt_irrefl, if_false, Option.some.injEq] at h
    subst h; rfl
  | std v => exact vec v (by simp only [callVar, getFromVector, Option.some.injEq] at h; exact h.symm)
  | other v => exact vec v (by simp only [callVar, getFromVector, Option.some.injEq] at h; exact h.symm)
  | ct v =>
    rw [← map_toNum]
    simp only [callVar, Option.some.injEq] at h
    subst h
    match v, hp with
    | [x], _ => rcases i with _ | i <;> simp [getFromVector, eval]
    | [x, y], _ => rcases i with _ | _ | i <;> simp [getFromVector, eval]
    | [x, y, z], _ => rcases i with _ | _ | _ | i <;> simp [getFromVector, eval]

/-- **C60**, except for variables other than the first one at a single number: when `a(p)` compiles, it does what
evaluating the `expr` made from `a` at the supplied numbers does, be it a value or an exception. -/
theorem C60_call_partial (nd : Bool) (o : Order K) (a : RtObj K) (p : At K) (r : Ran K) (hp : p.valid)
    (hs : IsLaterVar a → ¬ IsScalar p) (h : callObj nd o a p = some r) :
    r = .res (eval o (supplied p) a.toExpr) := by
  cases a with
  | const c => simp only [callObj, Option.some.injEq] at h; exact h.symm
  | var i => exact callVar_eq hp (fun hi => hs ⟨i, rfl, hi⟩) h
  | un op e => exact callNode_eq h
  | integ lo hi x e => exact callNode_eq h
  | bin op l r => exact callNode_eq h
  | expr e => exact callNode_eq h
  | _ => simp [callObj] at h

/-- **C60** for `eval(a, p)`, with the same exception. -/
theorem C60_eval_partial (nd : Bool) (o : Order K) (a : RtObj K) (p : At K) (r : Ran K) (hp : p.valid)
    (hs : IsLaterVar a → ¬ IsScalar p) (h : evalObj nd o a p = some r) :
    r = .res (eval o (supplied p) a.toExpr) := by
  cases a with
  | num c => simp only [evalObj, Option.some.injEq] at h; exact h.symm
  | long n => simp only [evalObj, Option.some.injEq] at h; exact h.symm
  | const c => simp only [evalObj, Option.some.injEq] at h; exact h.symm
  | var i => exact callVar_eq hp (fun hi => hs ⟨i, rfl, hi⟩) h
  | un op e => exact callNode_eq h
  | integ lo hi x e => exact callNode_eq h
  | bin op l r => exact callNode_eq h
  | expr e => exact callNode_eq h
  | _ => simp [evalObj] at h

/-- **C60 fails** for other variables at a single number: with `NDEBUG` the number is returned for every variable,
otherwise the program is stopped; for a constant of the library the exception says that no number was supplied.
The `expr` made from the variable throws, and says that one was supplied. -/
theorem C60_later_variable (o : Order K) (i : Nat) (hi : 0 < i) (c : K) (n : Int) :
    callObj true o (.var i) (.num c) = some (.res (.ok c)) ∧
    callObj false o (.var i) (.num c) = some .abort ∧
    (∀ nd, callObj nd o (.var i) (.rtConst c) = some (.res (.throw (.indexOutOfBounds i 0)))) ∧
    (∀ nd, callObj nd o (.var i) (.ctConst n) = some (.res (.throw (.indexOutOfBounds i 0)))) ∧
    (∀ nd, callObj nd o (.expr (.var i)) (.num c) = some (.res (.throw (.indexOutOfBounds i 1)))) ∧
    (∀ nd, callObj nd o (.expr (.var i)) (.rtConst c) = some (.res (.throw (.indexOutOfBounds i 1)))) ∧
    (∀ nd, callObj nd o (.expr (.var i)) (.ctConst n) = some (.res (.throw (.indexOutOfBounds i 1)))) := by
  have h0 : i ≠ 0 := by omega
  refine ⟨?_, ?_, ?_, ?_, ?_, ?_, ?_⟩ <;> simp [callObj, callVar, callNode, evalS_eq_eval, eval, hi, h0]
  all_goals
    have : [c][i]? = none ∧ [(Num.lit n : K)][i]? = none := by
      constructor <;> exact List.getElem?_eq_none (by simp; omega)
    simp [this]

/-- Which calls compile: constants take anything; variables and expressions anything but an integer; function symbols,
vectors and numbers cannot be called. -/
theorem C60_call_compiles (nd : Bool) (o : Order K) (a : RtObj K) (p : At K) (hp : p.valid) :
    (∃ r, callObj nd o a p = some r) ↔
      (∃ c, a = .const c) ∨
      (((∃ i, a = .var i) ∨ (∃ op e, a = .un op e) ∨ (∃ lo hi x e, a = .integ lo hi x e) ∨
        (∃ op l r, a = .bin op l r) ∨ ∃ e, a = .expr e) ∧ ∀ n, p ≠ .integer n) := by
  have hvar : ∀ i, (∃ r, callVar nd i p = some r) ↔ ∀ n, p ≠ .integer n := by
    intro i
    cases p <;> simp [callVar]
    by_cases h : i = 0 <;> cases nd <;> simp [h]
  have hnode : ∀ e, (∃ r, callNode o e p = some r) ↔ ∀ n, p ≠ .integer n := by
    intro e
    cases p with
    | ct v =>
      match v, hp with
      | [x], _ => simp [callNode]
      | [x, y], _ => simp [callNode]
      | [x, y, z], _ => simp [callNode]
    | _ => simp [callNode]
  cases a <;> simp [callObj, hvar, hnode]

/-- `eval(a, p)` compiles when `a(p)` does, and then does the same; in addition for numbers of type `double` and
`long`, but not for an `int`. -/
theorem C60_eval_is_call (nd : Bool) (o : Order K) (a : RtObj K) (p : At K) :
    (∀ r, callObj nd o a p = some r → evalObj nd o a p = some r) ∧
    (∀ r, evalObj nd o a p = some r → callObj nd o a p = some r ∨
      (∃ c, a = .num c ∧ r = .res (.ok c)) ∨ ∃ n, a = .long n ∧ r = .res (.ok (Num.lit n))) ∧
    (∀ n, a = .int n → evalObj nd o a p = none) := by
  refine ⟨?_, ?_, ?_⟩
  · intro r h
    cases a <;> first | exact h | simp [callObj] at h
  · intro r h
    cases a <;> first | exact .inl h | skip
    all_goals simp [evalObj] at h
    · exact .inr (.inl ⟨_, rfl, h.symm⟩)
    · exact .inr (.inr ⟨_, rfl, h.symm⟩)
  · rintro n rfl; rfl

end

/-! ### Concrete cases -/

/-- `y(v)` for a vector of two numbers, one of them a compile-time constant; `(x*y)(v)`. -/
example : callObj true (fun _ _ => true) (.var 1) (.ct [.num (some 3), .int 5]) = some (.res (.ok (some 5 : XRat))) := by
  simp [callObj, callVar, getFromVector, Ct.Entry.toNum]; rfl

example : (At.ct [.num (some 3 : XRat), .int 5]).valid ∧ ¬ IsScalar (At.ct [.num (some 3 : XRat), .int 5]) :=
  ⟨rfl, id⟩

/-- The compile-time vectors that exist, and that the theorems are about, have one, two or three entries; nothing is
required of the other kinds of argument. -/
example (p : At XRat) : p.valid ↔ ∀ v, p = .ct v → v.length = 1 ∨ v.length = 2 ∨ v.length = 3 := by
  cases p <;> simp [At.valid] <;> omega

example : eval (fun _ _ => true) (supplied (.ct [.num (some 3 : XRat), .int 5])) (.bin .mult (.var 0) (.var 1)) =
    .ok (some 15) := by
  simp only [supplied, List.map]; decide +kernel

/-- `y(v)` throws for a vector of one number. -/
example : callObj true (fun _ _ => true) (.var 1) (.ct [.num (some 3 : XRat)]) =
    some (.res (.throw (.indexOutOfBounds 1 1))) := by
  simp [callObj, callVar]

end VM.Props
