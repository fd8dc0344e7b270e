import Verif.Rt.Quadrature
/-
The life of quadrature objects: `rt_numerical_quadrature` keeps its rule in a `std::auto_ptr`.
-/
namespace VM

/-- The rules a program uses: what `eval` of a rule does and what `clone` returns (`numerical_quadrature_interface`,
numerical_quadrature.hpp 36-51).  Simplified: `clone` returns and neither function changes anything. -/
structure RuleClass (K R : Type) where
  run : R → Rule K
  clone : R → R

/-- What a program does with quadrature objects (numbered by their names) and with the rules it makes itself
(numbered in the order they are made). -/
inductive QOp (K R : Type)
  /-- `p = new rule`. -/
  | new (r : R)
  /-- `numerical_quadrature q;` -/
  | ctor (q : Nat)
  /-- `numerical_quadrature q(p);` -/
  | ctorPtr (q p : Nat)
  /-- `numerical_quadrature q(q');` -/
  | copy (q q' : Nat)
  /-- `q = q';` -/
  | assign (q q' : Nat)
  /-- The end of the life of `q`. -/
  | destroy (q : Nat)
  /-- `q(e)`. -/
  | call (q : Nat) (e : Expr K)
  /-- `q(interval, e, x)`. -/
  | callOver (q : Nat) (lo hi : Expr K) (x : Nat) (e : Expr K)

/-- The memory: live rules by address, the next free address (addresses are not used again), the pointers
of the program, and the objects: `some none` is an object whose `auto_ptr` is null. -/
structure QMem (R : Type) where
  heap : Nat → Option R
  next : Nat
  made : Nat
  ptrs : Nat → Nat
  objs : Nat → Option (Option Nat)

def QMem.empty {R : Type} : QMem R := ⟨fun _ => none, 0, 0, fun _ => 0, fun _ => none⟩

section
variable {K R α : Type}

def setAt (f : Nat → α) (i : Nat) (a : α) : Nat → α := fun j => if j = i then a else f j

/-- `delete` through an `auto_ptr`, the destructor and the end of `reset`: nothing for a null pointer;
undefined if the rule is not there any more. -/
def QMem.delete (m : QMem R) : Option Nat → Option (QMem R)
  | none => some m
  | some a => match m.heap a with
    | some _ => some { m with heap := setAt m.heap a none }
    | none => none

/-- `quadrature_rule_->clone()`: undefined if the pointer is null or the rule gone. -/
def QMem.cloneOf (c : RuleClass K R) (m : QMem R) : Option Nat → Option (QMem R × Nat)
  | none => none
  | some a => (m.heap a).map fun r =>
    ({ m with heap := setAt m.heap m.next (some (c.clone r)), next := m.next + 1 }, m.next)

/-- What `quadrature_rule_->eval(...)` does: undefined if the pointer is null or the rule gone. -/
def QMem.ruleOf (c : RuleClass K R) (m : QMem R) : Option Nat → Rule K
  | none => fun _ _ _ _ => .ub
  | some a => match m.heap a with
    | some r => c.run r
    | none => fun _ _ _ _ => .ub

/-- The result of a call, `none` if it is undefined. -/
def defined : Res K → Option (Res K)
  | .ub => none
  | r => some r

/-- One step: the memory afterwards and the result of a call; `none` for undefined behaviour and for programs
that do not compile (an object used before its declaration or declared twice).

`ctor`, `ctorPtr`, `copy`, `assign`: numerical_quadrature.hpp 107-128; the destructor is the one of
`std::auto_ptr`; calls: 131-223.  The assignment makes the clone first and then resets the `auto_ptr`, which
deletes the rule it had. -/
def QMem.step [Num K] (o : Order K) (c : RuleClass K R) (m : QMem R) :
    QOp K R → Option (QMem R × Option (Res K))
  | .new r => some ({ m with heap := setAt m.heap m.next (some r), next := m.next + 1,
                             ptrs := setAt m.ptrs m.made m.next, made := m.made + 1 }, none)
  | .ctor q => match m.objs q with
    | none => some ({ m with objs := setAt m.objs q (some none) }, none)
    | some _ => none
  | .ctorPtr q p => match m.objs q with
    | none => if p < m.made then some ({ m with objs := setAt m.objs q (some (some (m.ptrs p))) }, none) else none
    | some _ => none
  | .copy q q' => match m.objs q, m.objs q' with
    | none, some s => (m.cloneOf c s).map fun x => ({ x.1 with objs := setAt m.objs q (some (some x.2)) }, none)
    | _, _ => none
  | .assign q q' => match m.objs q, m.objs q' with
    | some t, some s => (m.cloneOf c s).bind fun x => (x.1.delete t).map fun m' =>
        ({ m' with objs := setAt m.objs q (some (some x.2)) }, none)
    | _, _ => none
  | .destroy q => match m.objs q with
    | some t => (m.delete t).map fun m' => ({ m' with objs := setAt m.objs q none }, none)
    | none => none
  | .call q e => match m.objs q with
    | some t => (defined (quadOf o (m.ruleOf c t) e)).map fun r => (m, some r)
    | none => none
  | .callOver q lo hi x e => match m.objs q with
    | some t => (defined (quadOver (m.ruleOf c t) lo hi x e)).map fun r => (m, some r)
    | none => none

/-- A program: the memory at its end and the results of the calls. -/
def QMem.exec [Num K] (o : Order K) (c : RuleClass K R) :
    QMem R → List (QOp K R) → Option (QMem R × List (Res K))
  | m, [] => some (m, [])
  | m, op :: ops => (m.step o c op).bind fun x => (QMem.exec o c x.1 ops).map fun y => (y.1, x.2.toList ++ y.2)
end

end VM
