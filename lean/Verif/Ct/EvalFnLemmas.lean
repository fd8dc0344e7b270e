import Verif.Ct.EvalFn
import Verif.Ct.EvalLemmas
import Verif.Ct.ConvertLemmas
import Verif.NumReal
/-
The overloads of `eval` agree.
-/
namespace VM.Ct
open VM.Spec
variable {K : Type} [Num K]

omit [Num K] in
theorem ctEntries_some {v : List (Entry K)} {ns : List Int} (h : ctEntries v = some ns) : v = ns.map .int := by
  induction v generalizing ns with
  | nil => simp [ctEntries] at h; subst h; rfl
  | cons x v ih =>
    cases x with
    | num x => simp [ctEntries] at h
    | int n =>
      simp only [ctEntries, Option.map_eq_some_iff] at h
      obtain ⟨ms, hm, rfl⟩ := h
      rw [ih hm]; rfl

theorem callCt_call {v : List (Entry K)} {e : CtExpr} {x : K} (h : callCt v e = some x) (o : CtOrder) :
    NoSym e ∧ callAux o (v.map Entry.toNum) e = .ok x := by
  induction e generalizing x with
  | const n => simp [callCt] at h; subst h; exact ⟨trivial, rfl⟩
  | var i =>
    simp only [callCt, Option.map_eq_some_iff] at h
    obtain ⟨a, ha, rfl⟩ := h
    have hl : i < v.length := by
      rw [List.getElem?_eq_some_iff] at ha; exact ha.1
    refine ⟨trivial, ?_⟩
    have hi : (v.map Entry.toNum)[i]? = some a.toNum := by simp [ha]
    unfold callAux
    rw [if_neg (by simpa using hl), hi]
  | fsym t => simp [callCt] at h
  | bin l op r ihl ihr =>
    simp only [callCt, Option.bind_eq_some_iff, Option.map_eq_some_iff] at h
    obtain ⟨a, ha, b, hb, rfl⟩ := h
    obtain ⟨h1, h2⟩ := ihl ha
    obtain ⟨h3, h4⟩ := ihr hb
    refine ⟨⟨h1, h3⟩, ?_⟩
    simp only [callAux, h2, h4]
    cases o l r <;> rfl

theorem ctEval_scope {cv : Conv} {ns : List Int} {e e' : CtExpr} (h : ctEval cv ns e = some e') :
    NoSym e ∧ ∀ i, Has i e → i < ns.length := by
  induction e generalizing e' with
  | const n => exact ⟨trivial, fun i hi => hi.elim⟩
  | var i =>
    simp only [ctEval, entry] at h
    split at h
    · simp only [Option.map_eq_some_iff] at h
      obtain ⟨a, ha, -⟩ := h
      rw [List.getElem?_eq_some_iff] at ha
      refine ⟨trivial, fun j hj => ?_⟩
      simp only [Has] at hj
      subst hj; exact ha.1
    · cases h
  | fsym t => simp [ctEval] at h
  | bin l op r ihl ihr =>
    simp only [ctEval, Option.bind_eq_some_iff] at h
    obtain ⟨a, ha, b, hb, -⟩ := h
    obtain ⟨h1, h2⟩ := ihl ha
    obtain ⟨h3, h4⟩ := ihr hb
    exact ⟨⟨h1, h3⟩, fun i hi => hi.elim (h2 i) (h4 i)⟩

/-- Exact real arithmetic computes the value of an expression that is defined. -/
theorem numAt_real {p φ : Nat → ℝ} {e : CtExpr} (hn : NoSym e) (hd : CDefined p φ e) :
    numAt (K := XReal) (fun i => some (p i)) e = some (cval p φ e) := by
  induction e with
  | const n => rfl
  | var i => rfl
  | fsym t => exact hn.elim
  | bin l op r ihl ihr =>
    cases op with
    | div =>
      obtain ⟨h1, h2, h3⟩ := hd
      simp [numAt, ihl hn.1 h1, ihr hn.2 h2, cval, Num.div, XReal.div, h3]
    | plus => simp [numAt, ihl hn.1 hd.1, ihr hn.2 hd.2, cval, Num.add, XReal.lift2]
    | minus => simp [numAt, ihl hn.1 hd.1, ihr hn.2 hd.2, cval, Num.sub, XReal.lift2]
    | mult => simp [numAt, ihl hn.1 hd.1, ihr hn.2 hd.2, cval, Num.mul, XReal.lift2]

theorem callZero_numAt {e : CtExpr} {x : K} (h : callZero e = some x) (p : Nat → K) : NoSym e ∧ numAt p e = x := by
  unfold callZero at h
  split at h
  · cases h; exact ⟨trivial, rfl⟩
  · cases h
    refine ⟨⟨trivial, trivial⟩, ?_⟩
    rename_i op _
    cases op <;> rfl
  · cases h

theorem numAt_congr {p q : Nat → K} {e : CtExpr} (h : ∀ i, Has i e → p i = q i) : numAt p e = numAt q e := by
  induction e with
  | const n => rfl
  | var i => exact h i rfl
  | fsym t => rfl
  | bin l op r ihl ihr =>
    have h1 := ihl fun i hi => h i (.inl hi)
    have h2 := ihr fun i hi => h i (.inr hi)
    cases op <;> simp [numAt, h1, h2]

end VM.Ct
