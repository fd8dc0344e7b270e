import Verif.Rt.Reuse
import Verif.Spec.Threads
/-
How memory that is used again relates to memory that is not.
-/
namespace VM.Spec
variable {K ι β : Type}

/-- The nodes `cells` are in the memory `mem`, each at the address of its own, and there is nothing else. -/
structure Placed (cells : Nat → Option (Cell K)) (mem : Nat → Option (Cell K)) (addr : Nat → Nat) : Prop where
  there : ∀ a c, cells a = some c → mem (addr a) = some c
  apart : ∀ a b, cells a ≠ none → cells b ≠ none → addr a = addr b → a = b
  only : ∀ p, mem p ≠ none → ∃ a, cells a ≠ none ∧ addr a = p

/-- A data race: one thread is about to release what is at an address, and another to access what is there. -/
def RaceAt (R : Reuser ι K β) : Prop :=
  ∃ t u a b k, t ≠ u ∧ (R.threads t).code = .free a k ∧ R.addr b = R.addr a ∧
    ((∃ k', (R.threads u).code = .read b k') ∨ ∃ k', (R.threads u).code = .free b k')

/-- Only a part of the memory is in use. -/
def Bounded (mem : Nat → Option (Cell K)) : Prop := ∃ B, ∀ q, B ≤ q → mem q = none

/-- The machine at the moment when the threads start, with the nodes of the main program in `mem`. -/
def startedIn (s : State K) (lo : ι → Nat) (code : ι → Code K Local) (mem : Nat → Option (Cell K)) (addr : Nat → Nat) :
    Reuser ι K Local :=
  ⟨mem, addr, s.heap.fails, fun t => ⟨code t, lo t⟩⟩

/-- One thread that starts with empty memory, in which the requests `f` fail. -/
def alone (f : Nat → Bool) (addr : Nat → Nat) (code : Code K β) : Reuser Unit K β :=
  ⟨fun _ => none, addr, f, fun _ => ⟨code, 0⟩⟩

/-- No objects. -/
def noObjects : Local := ⟨fun _ => none, fun _ => none⟩

end VM.Spec
