import Verif.Rt.Body
import Verif.Spec.Heap
/-
What functions with local objects mean if every object simply holds a value of its own.
-/
namespace VM.Spec
variable {K : Type} [Num K]

/-- The effects the code may have; `true`: it threw. -/
inductive Did : Store K → Body K → Bool → Store K → Prop
  | one {σ c t τ} : Outcome σ c t τ → Did σ (.one c) t τ
  | scopeMake {σ i a b τ} : Did σ a true τ → Did σ (.scope i a b) true τ
  | scope {σ i a b t τ υ} : Did σ a false τ → Did τ b t υ → Did σ (.scope i a b) t (υ.set i none)
  | keepMake {σ i a b τ} : Did σ a true τ → Did σ (.keep i a b) true τ
  | keep {σ i a b τ υ} : Did σ a false τ → Did τ b false υ → Did σ (.keep i a b) false υ
  | keepThrew {σ i a b τ υ} : Did σ a false τ → Did τ b true υ → Did σ (.keep i a b) true (υ.set i none)
  | seqThrew {σ a b τ} : Did σ a true τ → Did σ (.seq a b) true τ
  | seq {σ a b t τ υ} : Did σ a false τ → Did τ b t υ → Did σ (.seq a b) t υ
  | attempt {σ a p q t τ υ} : Did σ a false τ → Did τ p t υ → Did σ (.attempt a p q) t υ
  | attemptThrew {σ a p q t τ υ} : Did σ a true τ → Did τ q t υ → Did σ (.attempt a p q) t υ

/-- Whatever the statements do, the objects are used as they may be used, and a local object is still there when it is
to be destroyed. -/
def Legal (σ : Store K) : Body K → Prop
  | .one c => ∃ τ, Exec σ c τ
  | .scope i a b => Legal σ a ∧ ∀ τ, Did σ a false τ → Legal τ b ∧ ∀ t υ, Did τ b t υ → υ i ≠ none
  | .keep i a b => Legal σ a ∧ ∀ τ, Did σ a false τ → Legal τ b ∧ ∀ υ, Did τ b true υ → υ i ≠ none
  | .seq a b => Legal σ a ∧ ∀ τ, Did σ a false τ → Legal τ b
  | .attempt a p q => Legal σ a ∧ ∀ τ, (Did σ a false τ → Legal τ p) ∧ (Did σ a true τ → Legal τ q)

/-- No statement has a right hand side that throws or loses memory (`Tidy`), and no exceptions are caught. -/
def Neat (σ : Store K) : Body K → Prop
  | .one c => Tidy σ c
  | .scope _ a b | .keep _ a b | .seq a b => Neat σ a ∧ ∀ τ, Did σ a false τ → Neat τ b
  | .attempt _ _ _ => False

omit [Num K]

/-- The statement constructs object `i`. -/
def Constructs (i : Nat) : Stmt K → Prop
  | .decl j | .init j _ | .declBin j | .initBin j _ _ _ | .declUn j | .initUn j _ _ | .wrapUn j _ | .copyUn j _ => j = i
  | _ => False

/-- The statement changes object `i`. -/
def Changes (i : Nat) : Stmt K → Prop
  | .assign j _ | .inplace j | .assignBin j _ | .assignNum j _ | .numUn j _ => j = i
  | _ => False

mutual
/-- The code is that of a function that returns one new object, number `i`: every other object that it constructs is
local. -/
inductive Returns : Nat → Body K → Prop
  | one {i c} : Constructs i c → Returns i (.one c)
  | scope {i j a b} : j ≠ i → Returns j a → Returns i b → Returns i (.scope j a b)
  | keep {i a b} : Returns i a → Procedure b → Returns i (.keep i a b)
  | seq {i a b} : Procedure a → Returns i b → Returns i (.seq a b)
  | attempt {i a p q} : Procedure a → Returns i p → Returns i q → Returns i (.attempt a p q)
/-- The same for a function without result. -/
inductive Procedure : Body K → Prop
  | one {i c} : Changes i c → Procedure (.one c)
  | scope {j a b} : Returns j a → Procedure b → Procedure (.scope j a b)
  | seq {a b} : Procedure a → Procedure b → Procedure (.seq a b)
  | attempt {a p q} : Procedure a → Procedure p → Procedure q → Procedure (.attempt a p q)
end

/-- Somewhere in it an object from outside with number `i` is assigned to. -/
inductive Assigns (i : Nat) : Body K → Prop
  | one {c} : Changes i c → Assigns i (.one c)
  | scopeL {j a b} : Assigns i a → Assigns i (.scope j a b)
  | scopeR {j a b} : i ≠ j → Assigns i b → Assigns i (.scope j a b)
  | keepL {j a b} : Assigns i a → Assigns i (.keep j a b)
  | keepR {j a b} : i ≠ j → Assigns i b → Assigns i (.keep j a b)
  | seqL {a b} : Assigns i a → Assigns i (.seq a b)
  | seqR {a b} : Assigns i b → Assigns i (.seq a b)
  | attempt {a p q} : Assigns i a → Assigns i (.attempt a p q)
  | attemptL {a p q} : Assigns i p → Assigns i (.attempt a p q)
  | attemptR {a p q} : Assigns i q → Assigns i (.attempt a p q)

end VM.Spec
