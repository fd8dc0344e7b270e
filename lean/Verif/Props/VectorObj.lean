import Verif.Ct.VectorObjLemmas
import Verif.Rt.Dec
import Verif.NumRat
/-
C50: a vector made by `make_vector` keeps its entries.

Full statement: in every program, evaluating an expression at a vector object (also at a copy) gives the value at the
numbers the vector was made from.

False of the code for vectors with one or two entries, which hold references: a vector made from a temporary can
only be used in the same expression (`C50_dangling`), and a vector made from a variable follows the variable
(`C50_alias`) and dies with it (`C50_leave`).  Proved for vectors with three entries (`C50_three`), and for all programs
which use shorter vectors only while the variables they refer to keep their values (`C50_values_partial`).  Entries are
of type `double`, vectors are evaluated by expressions of class `rt_expr`.
-/
namespace VM.Props
open VM VM.Ct VM.Spec
variable {K : Type} [Num K]

/-- C50, in part: programs in which vectors are used only while the variables they were made from are unchanged. -/
theorem C50_values_partial (o : Order K) (cs : List (VStmt K)) (h : Reliable (fun _ => none) cs) :
    VStore.run o .empty cs = VValues.run o .empty cs :=
  run_eq o cs rel_empty h

-- a program with vectors of one, two and three entries, copies and temporaries
private def prog : List (VStmt XRat) :=
  [.decl 0 (some 2), .decl 1 (some 5), .make 0 [.name 1, .name 0], .make 1 [.temp (some 7), .name 0, .temp (some 1)],
   .call 0 (.bin .minus (.var 0) (.var 1)), .copy 2 0, .drop 0, .call 2 (.var 0), .assign 0 (some 9),
   .call 1 (.bin .plus (.var 0) (.var 1)), .callNow [.temp (some 4)] (.var 0), .make 0 [.name 0], .call 0 (.var 0),
   .callNow [.name 0, .temp (some 4)] (.var 2)]

example : Reliable (fun _ => none) prog := by
  simp [prog, Reliable, reliableAfter, Spec.without, setAt, onlyNames]

example : VStore.run (fun _ _ => true) .empty prog =
    some [.ok (some 3), .ok (some 5), .ok (some 9), .ok (some 4), .ok (some 9), .throw (.indexOutOfBounds 2 2)] := by
  decide +kernel

/-- C50 for vectors with three entries: all programs. -/
theorem C50_three (o : Order K) (cs : List (VStmt K)) (h : StoresThree cs) :
    VStore.run o .empty cs = VValues.run o .empty cs :=
  run_three o cs rel_empty (fun n h => by simp [VValues.empty] at h) h

-- the variables of the vector are changed and leave their scope
private def prog3 : List (VStmt XRat) :=
  [.decl 0 (some 2), .make 0 [.name 0, .temp (some 7), .name 0], .assign 0 (some 3), .copy 1 0, .leave 0, .drop 0,
   .call 1 (.bin .mult (.var 0) (.var 1))]

example : StoresThree prog3 ∧ VStore.run (fun _ _ => true) .empty prog3 = some [.ok (some 14)] :=
  ⟨by simp [prog3, StoresThree], by decide +kernel⟩

/-- Which programs compile does not depend on how vectors are stored. -/
theorem C50_compiles (o : Order K) (cs : List (VStmt K)) :
    (VStore.run o .empty cs).isSome = (VValues.run o .empty cs).isSome :=
  run_compiles o cs rel_empty

example : VStore.run (K := XRat) (fun _ _ => true) .empty [.make 0 [], .call 0 (.var 0)] = none ∧
    VStore.run (K := XRat) (fun _ _ => true) .empty [.make 0 [.temp (some 1)]] = some [] := by decide +kernel

/-- In every state, a stored vector with one or two entries, one of them made from a temporary, cannot be used: the
program has undefined behaviour (or does not compile, if a name is unknown or declared twice). -/
theorem C50_dangling (o : Order K) (s : VStore K) (n : Nat) (args : List (VArg K)) (e : Expr K)
    (h : args.length = 1 ∨ args.length = 2) (ht : ∃ v, .temp v ∈ args) :
    s.run o [.make n args, .call n e] = none ∨ s.run o [.make n args, .call n e] = some [.ub] := by
  refine dangling o s n args e (by omega) ?_
  obtain ⟨v, hv⟩ := ht
  clear h
  induction args with
  | nil => cases hv
  | cons c as ih =>
    cases c with
    | temp w => rfl
    | name x =>
      have : VArg.temp v ∈ as := by simpa using hv
      simp [onlyNames, ih this]

example : VStore.run (K := XRat) (fun _ _ => true) .empty [.make 0 [.temp (some 1), .temp (some 2)], .call 0 (.var 0)] =
    some [.ub] ∧
    VValues.run (K := XRat) (fun _ _ => true) .empty [.make 0 [.temp (some 1), .temp (some 2)], .call 0 (.var 0)] =
    some [.ok (some 1)] := by decide +kernel

/-- A vector with one entry made from a variable shows the later value of the variable. -/
theorem C50_alias (o : Order K) (v w : K) (e : Expr K) :
    VStore.run o .empty [.decl 0 v, .make 0 [.name 0], .assign 0 w, .call 0 e] = some [eval o [w] e] ∧
    VValues.run o .empty [.decl 0 v, .make 0 [.name 0], .assign 0 w, .call 0 e] = some [eval o [v] e] := by
  constructor
  · simp [VStore.run, VStore.exec, VStore.empty, VStore.bindArgs, newVec, setAt, callVec, VObj.entries, VStore.endFull,
      allSome]
  · simp [VValues.run, VValues.exec, VValues.empty, VValues.args, VValues.arg, vectorOf, setAt]

/-- A vector with one entry is unusable after the end of the scope of the variable it was made from. -/
theorem C50_leave (o : Order K) (v : K) (e : Expr K) :
    VStore.run o .empty [.decl 0 v, .make 0 [.name 0], .leave 0, .call 0 e] = some [.ub] ∧
    VValues.run o .empty [.decl 0 v, .make 0 [.name 0], .leave 0, .call 0 e] = some [eval o [v] e] := by
  constructor
  · simp [VStore.run, VStore.exec, VStore.empty, VStore.bindArgs, newVec, setAt, callVec, VObj.entries, VStore.endFull,
      allSome]
  · simp [VValues.run, VValues.exec, VValues.empty, VValues.args, VValues.arg, vectorOf, setAt]

end VM.Props
