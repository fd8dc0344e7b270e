import Verif.Rt.Threads
/-
Memory that is used again.  The heap of Heap.lean gives every request a new address, so that every access to released
memory is seen.  Here, as on a real computer, an address may be given again once it has been released.  A pointer is
still known by a name, but all it has is a value, the address (`addr`), and an access goes to whatever is at this
address: a pointer to released memory may read or release something that belongs to others, and nobody notices.
The library compares pointers with `NULL` only, and computes no addresses; so names with equal addresses do the same.
-/
namespace VM
variable {K ι β : Type}

/-- Threads with a common memory that is used again. -/
structure Reuser (ι K β : Type) where
  /-- what is at an address -/
  mem : Nat → Option (Cell K)
  /-- the value of a pointer -/
  addr : Nat → Nat
  fails : Nat → Bool
  threads : ι → Thread K β

namespace Reuser

/-- What a pointer points to. -/
def seen (R : Reuser ι K β) (a : Nat) : Option (Cell K) := R.mem (R.addr a)

/-- The next access of thread `t` is undefined behaviour that is noticed: there is nothing at the address. -/
def Faulty (R : Reuser ι K β) (t : ι) : Prop := match (R.threads t).code with
  | .done _ => False
  | .undefined => True
  | .read a _ => R.mem (R.addr a) = none
  | .new _ _ => False
  | .free a _ => R.mem (R.addr a) = none

variable [DecidableEq ι]

/-- Thread `t` goes on with `c`. -/
def goOn (R : Reuser ι K β) (t : ι) (c : Code K β) (n : Nat) : ι → Thread K β := fun u =>
  if u = t then ⟨c, n⟩ else R.threads u

/-- Thread `t` makes its next access to memory.  A request is given any address that is not in use (`give`). -/
inductive Step (R : Reuser ι K β) (t : ι) : Reuser ι K β → Prop where
  | idle {b} : (R.threads t).code = .done b → Step R t R
  | read {a k c} : (R.threads t).code = .read a k → R.mem (R.addr a) = some c →
      Step R t { R with threads := R.goOn t (k c) (R.threads t).next }
  | fail {c k} : (R.threads t).code = .new c k → R.fails (R.threads t).next = true →
      Step R t { R with threads := R.goOn t (k none) ((R.threads t).next + 1) }
  | give {c k} (p : Nat) : (R.threads t).code = .new c k → R.fails (R.threads t).next = false → R.mem p = none →
      Step R t ⟨fun q => if q = p then c else R.mem q, fun a => if a = (R.threads t).next then p else R.addr a, R.fails,
        R.goOn t (k (some (R.threads t).next)) ((R.threads t).next + 1)⟩
  | free {a k c} : (R.threads t).code = .free a k → R.mem (R.addr a) = some c →
      Step R t { R with mem := fun q => if q = R.addr a then none else R.mem q,
                        threads := R.goOn t k (R.threads t).next }

/-- The threads run in the order given by the list. -/
inductive Exec : Reuser ι K β → List ι → Reuser ι K β → Prop where
  | nil {R} : Exec R [] R
  | cons {R R' R'' t ts} : Step R t R' → Exec R' ts R'' → Exec R (t :: ts) R''

end Reuser
end VM
