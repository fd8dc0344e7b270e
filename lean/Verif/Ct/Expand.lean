import Verif.Ct.Expr
/-
`result_of::expand`, manipulation/expand.hpp 36-241.
-/
namespace VM.Ct

/-- `has_plus_or_minus<T>::value != 0`, expand.hpp 49-81.  The sum of counts in 67-72 is non-zero exactly if
one of the counts is. -/
def hasPM : CtExpr → Bool
  | .bin _ .plus _ => true
  | .bin _ .minus _ => true
  | .bin l .mult r => hasPM l || hasPM r
  | .bin l .div _ => hasPM l
  | _ => false

/-- Not part of the library: a number that decreases along the instantiations, so that `expand` can be
defined. -/
def mass : CtExpr → Nat
  | .bin l .mult r => mass l * mass r
  | .bin l _ r => mass l + mass r + 1
  | _ => 2

theorem two_le_mass (e : CtExpr) : 2 ≤ mass e := by
  induction e with
  | bin l op r ihl ihr =>
    cases op <;> simp only [mass] <;> first | omega | skip
    exact Nat.le_trans ihl (Nat.le_mul_of_pos_right _ (by omega))
  | _ => simp [mass]

theorem mass_mul_left (e f : CtExpr) : mass e < mass e * mass f := by
  have h1 := two_le_mass e
  have h2 := two_le_mass f
  calc mass e < mass e * 2 := by omega
    _ ≤ _ := Nat.mul_le_mul_left _ h2

mutual

/-- `expand<E>::type`, expand.hpp 181-241, with `expand_product` 139-176 written out for a product.
The second component is not in the library. -/
def expandE : (e : CtExpr) →
    {e' : CtExpr // mass e' ≤ mass e ∧ ∀ l r, e = .bin l .mult r → hasPM e = true → mass e' < mass e}
  | .const n => ⟨.const n, by simp [mass]⟩
  | .var i => ⟨.var i, by simp [mass]⟩
  | .fsym t => ⟨.fsym t, by simp [mass]⟩
  | .bin l .plus r =>
    ⟨.bin (expandE l).1 .plus (expandE r).1, by
      have h1 := (expandE l).2.1; have h2 := (expandE r).2.1
      simp only [mass, CtExpr.bin.injEq, reduceCtorEq, false_and, and_false, false_implies, implies_true,
        and_true]
      omega⟩
  | .bin l .minus r =>
    ⟨.bin (expandE l).1 .minus (expandE r).1, by
      have h1 := (expandE l).2.1; have h2 := (expandE r).2.1
      simp only [mass, CtExpr.bin.injEq, reduceCtorEq, false_and, and_false, false_implies, implies_true,
        and_true]
      omega⟩
  | .bin l .div r =>
    ⟨.bin (expandE l).1 .div (expandE r).1, by
      have h1 := (expandE l).2.1; have h2 := (expandE r).2.1
      simp only [mass, CtExpr.bin.injEq, reduceCtorEq, false_and, and_false, false_implies, implies_true,
        and_true]
      omega⟩
  | .bin l .mult r =>
    if hl : hasPM l = true then
      if hr : hasPM r = true then
        let w := expandF l r
        have hw := w.2.2 hl
        let e' := expandE w.1
        ⟨e'.1, by
          have := e'.2.1
          simp only [mass] at hw ⊢
          exact ⟨by omega, fun _ _ _ _ => by omega⟩⟩
      else
        let w := expandF l r
        ⟨w.1, by
          have := w.2.2 hl
          simp only [mass] at this ⊢
          exact ⟨by omega, fun _ _ _ _ => by omega⟩⟩
    else if hr : hasPM r = true then
      let w := expandF r l
      ⟨w.1, by
        have := w.2.2 hr
        simp only [mass, Nat.mul_comm (mass r)] at this ⊢
        exact ⟨by omega, fun _ _ _ _ => by omega⟩⟩
    else ⟨.bin l .mult r, by simp [hasPM, hl, hr]⟩
termination_by e => (mass e, 1)
decreasing_by
  all_goals first
    | (apply Prod.Lex.left; simp only [mass] at *; omega)
    | (simp only [mass, Nat.mul_comm]; apply Prod.Lex.right; omega)

/-- `expand_with_factor<E, F>::type`, expand.hpp 85-135.  The second component is not in the library. -/
def expandF : (e f : CtExpr) →
    {e' : CtExpr // mass e' ≤ mass e * mass f ∧ (hasPM e = true → mass e' < mass e * mass f)}
  | .bin l .plus r, f =>
    ⟨.bin (expandF l f).1 .plus (expandF r f).1, by
      have h1 := (expandF l f).2.1; have h2 := (expandF r f).2.1
      have h3 := two_le_mass f
      simp only [mass, Nat.add_mul]
      exact ⟨by omega, fun _ => by omega⟩⟩
  | .bin l .minus r, f =>
    ⟨.bin (expandF l f).1 .minus (expandF r f).1, by
      have h1 := (expandF l f).2.1; have h2 := (expandF r f).2.1
      have h3 := two_le_mass f
      simp only [mass, Nat.add_mul]
      exact ⟨by omega, fun _ => by omega⟩⟩
  | .bin l .mult r, f =>
    if h : hasPM (.bin l .mult r) = true then
      let e' := expandE (.bin l .mult r)
      have he := e'.2.2 l r rfl h
      have hm : mass e'.1 * mass f < mass (.bin l .mult r) * mass f :=
        Nat.mul_lt_mul_of_pos_right he (by have := two_le_mass f; omega)
      ⟨(expandF e'.1 f).1, by
        have := (expandF e'.1 f).2.1
        exact ⟨by omega, fun _ => by omega⟩⟩
    else ⟨.bin (.bin l .mult r) .mult f, by simp [h, mass]⟩
  | .bin l .div r, f =>
    if h : hasPM (.bin l .div r) = true then
      ⟨.bin (expandF l f).1 .div r, by
        have h1 := (expandF l f).2.1
        have h3 := two_le_mass f
        have h4 := mass_mul_left r f
        simp only [mass, Nat.add_mul]
        exact ⟨by omega, fun _ => by omega⟩⟩
    else ⟨.bin (.bin l .div r) .mult f, by simp [h, mass]⟩
  | .const n, f => ⟨.bin (.const n) .mult f, by simp [mass, hasPM]⟩
  | .var i, f => ⟨.bin (.var i) .mult f, by simp [mass, hasPM]⟩
  | .fsym t, f => ⟨.bin (.fsym t) .mult f, by simp [mass, hasPM]⟩
termination_by e f => (mass e * mass f, 0)
decreasing_by
  all_goals first
    | (apply Prod.Lex.left; assumption)
    | (apply Prod.Lex.left; exact mass_mul_left _ _)
    | (apply Prod.Lex.left
       have := two_le_mass f; have := two_le_mass r
       simp only [mass, Nat.add_mul] at *; omega)
end

/-- `expand<E>::type`. -/
def expand (e : CtExpr) : CtExpr := (expandE e).1

/-- `expand_with_factor<E, F>::type`. -/
def expandWith (e f : CtExpr) : CtExpr := (expandF e f).1

/-- `expand_product<L, R>::type`, expand.hpp 139-176. -/
def expandProduct (l r : CtExpr) : CtExpr :=
  match hasPM l, hasPM r with
  | false, false => l *' r
  | true, false => expandWith l r
  | false, true => expandWith r l
  | true, true => expand (expandWith l r)

/-! The specialisations of the library, one equation each: `expand` 181-241 and `expand_with_factor` 85-135. -/

@[simp] theorem expand_const (n : Int) : expand ♯n = ♯n := by unfold expand; rw [expandE]
@[simp] theorem expand_var (i : Nat) : expand (.var i) = .var i := by unfold expand; rw [expandE]
@[simp] theorem expand_fsym (t : Nat) : expand (.fsym t) = .fsym t := by unfold expand; rw [expandE]
@[simp] theorem expand_add (l r : CtExpr) : expand (l +' r) = expand l +' expand r := by
  unfold expand; rw [expandE]
@[simp] theorem expand_sub (l r : CtExpr) : expand (l -' r) = expand l -' expand r := by
  unfold expand; rw [expandE]
@[simp] theorem expand_quot (l r : CtExpr) : expand (l /' r) = expand l /' expand r := by
  unfold expand; rw [expandE]
theorem expand_mul (l r : CtExpr) : expand (l *' r) = expandProduct l r := by
  unfold expand expandProduct expandWith expand
  rw [expandE]
  by_cases h1 : hasPM l = true <;> by_cases h2 : hasPM r = true <;> simp_all

theorem expandWith_flat (e f : CtExpr) (h : hasPM e = false) : expandWith e f = e *' f := by
  unfold expandWith
  cases e with
  | bin l op r => cases op <;> rw [expandF] <;> simp_all [hasPM]
  | _ => rw [expandF]
theorem expandWith_add (l r f : CtExpr) : expandWith (l +' r) f = expandWith l f +' expandWith r f := by
  unfold expandWith; rw [expandF]
theorem expandWith_sub (l r f : CtExpr) : expandWith (l -' r) f = expandWith l f -' expandWith r f := by
  unfold expandWith; rw [expandF]
theorem expandWith_mul (l r f : CtExpr) (h : hasPM (l *' r) = true) :
    expandWith (l *' r) f = expandWith (expand (l *' r)) f := by
  unfold expandWith expand; rw [expandF, dif_pos h]
theorem expandWith_quot (l r f : CtExpr) (h : hasPM (l /' r) = true) :
    expandWith (l /' r) f = expandWith l f /' r := by
  unfold expandWith; rw [expandF, dif_pos h]

end VM.Ct
