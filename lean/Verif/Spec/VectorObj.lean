import Verif.Ct.VectorObj
/-
What vector objects should do: a vector keeps the numbers it was made from.
-/
namespace VM.Spec
open VM VM.Ct
variable {K : Type} [Num K]

/-- Variables and vectors with their values. -/
structure VValues (K : Type) where
  vars : Nat → Option K
  vecs : Nat → Option (List K)

/-- Nothing declared. -/
def VValues.empty : VValues K := ⟨fun _ => none, fun _ => none⟩

/-- The value of an argument. -/
def VValues.arg (s : VValues K) : VArg K → Option K
  | .name x => s.vars x
  | .temp v => some v

/-- The values of all arguments. -/
def VValues.args (s : VValues K) : List (VArg K) → Option (List K)
  | [] => some []
  | a :: as => (s.arg a).bind fun x => (s.args as).map (x :: ·)

/-- One to three numbers. -/
def vectorOf (l : List K) : Option (List K) := if 1 ≤ l.length ∧ l.length ≤ 3 then some l else none

/-- One statement. -/
def VValues.exec (o : Order K) (s : VValues K) : VStmt K → Option (VValues K × List (Res K))
  | .decl x v => if (s.vars x).isSome then none else some ({ s with vars := setAt s.vars x (some v) }, [])
  | .assign x v => if (s.vars x).isSome then some ({ s with vars := setAt s.vars x (some v) }, []) else none
  | .leave x => if (s.vars x).isSome then some ({ s with vars := setAt s.vars x none }, []) else none
  | .make n args =>
    if (s.vecs n).isSome then none
    else ((s.args args).bind vectorOf).map fun l => ({ s with vecs := setAt s.vecs n (some l) }, [])
  | .copy n m =>
    if (s.vecs n).isSome then none
    else (s.vecs m).map fun l => ({ s with vecs := setAt s.vecs n (some l) }, [])
  | .drop n => if (s.vecs n).isSome then some ({ s with vecs := setAt s.vecs n none }, []) else none
  | .call n e => (s.vecs n).map fun l => (s, [eval o l e])
  | .callNow args e => ((s.args args).bind vectorOf).map fun l => (s, [eval o l e])

/-- A program. -/
def VValues.run (o : Order K) (s : VValues K) : List (VStmt K) → Option (List (Res K))
  | [] => some []
  | c :: cs => (s.exec o c).bind fun r => (r.1.run o cs).map (r.2 ++ ·)

/-- The names, if there are no temporaries. -/
def onlyNames : List (VArg K) → Option (List Nat)
  | [] => some []
  | .name x :: as => (onlyNames as).map (x :: ·)
  | .temp _ :: _ => none

/-- Vectors that refer to `x` can no longer be relied on. -/
def without (t : Nat → Option (List Nat)) (x : Nat) : Nat → Option (List Nat) := fun n =>
  match t n with
  | some xs => if x ∈ xs then none else some xs
  | none => none

/-- The vectors that can be relied on, each with the variables whose values it depends on (none for vectors with
three entries).  A vector with one or two entries made from a temporary cannot be relied on at all, except in the
expression in which it was made. -/
def reliableAfter (t : Nat → Option (List Nat)) : VStmt K → Nat → Option (List Nat)
  | .assign x _ => without t x
  | .leave x => without t x
  | .make n args => setAt t n (if args.length = 3 then some [] else onlyNames args)
  | .copy n m => setAt t n (t m)
  | .drop n => setAt t n none
  | _ => t

/-- A vector is used only while the variables it was made from still have their values. -/
def Reliable (t : Nat → Option (List Nat)) : List (VStmt K) → Prop
  | [] => True
  | c :: cs => (∀ n e, c = .call n e → (t n).isSome) ∧ Reliable (reliableAfter t c) cs

/-- Only vectors with three entries are stored. -/
def StoresThree : List (VStmt K) → Prop
  | [] => True
  | .make _ args :: cs => args.length = 3 ∧ StoresThree cs
  | _ :: cs => StoresThree cs

end VM.Spec
