import Verif.Rt.ScalarLemmas
import Verif.NumRat
import Verif.Rt.Dec
/-
Property C99: constants of other scalar types.
-/
namespace VM.Props
open VM.Spec
variable {K : Type} [Num K]

theorem alike_same (hl : ∀ n : Int, Num.eqb (Num.lit n : K) (Num.lit n) = true) {c d : Scalar K} (h : Alike c d) :
    SameTest c d := by
  cases c <;> cases d <;> simp only [Alike, SameTest, Scalar.equal, held] at h ⊢ <;> first
    | exact h.symm
    | (rcases h with rfl | h
       · rw [hl]; simp
       · rw [h]; simp only [decide_eq_false_iff_not]; rintro rfl; rw [hl] at h; cases h)

/-- Values: an expression has the value, and raises the exceptions, of the one in which all constants are of the
numeric type, in whatever order operands are evaluated; which values it has does not even depend on the order. -/
theorem C99_eval (e : TExpr K) :
    (∀ (o : Order K) (v : List K), Typed.eval (fun a b => o (untyped a) (untyped b)) v e = eval o v (untyped e)) ∧
    (∀ (o : Order K) (s : K), Typed.evalS (fun a b => o (untyped a) (untyped b)) s e = evalS o s (untyped e)) ∧
    ∀ (o : Order (Scalar K)) (o' : Order K) (v : List K) (a : K),
      Typed.eval o v e = .ok a ↔ eval o' v (untyped e) = .ok a :=
  ⟨fun o v => unt_eval o v e, fun o s => unt_evalS o s e, fun o o' v a => unt_eval_ok o o' v e a⟩

/-- `x + 6L/2f` at 4. -/
example : Typed.eval leftFirst [(some 4)] (.bin .plus (.var 0) (.bin .div (.const (.long 6)) (.const (.flt (some 2))))) =
    .ok (some 7 : XRat) := by decide +kernel

/-- Constants are recognised, and unwrapped, as if they were of the numeric type. -/
theorem C99_constant (e : TExpr K) : isConst e = isConst (untyped e) ∧
    ∀ o : Order K, Typed.unwrap (fun a b => o (untyped a) (untyped b)) e = unwrap o (untyped e) :=
  ⟨(unt_isConst e).symm, fun o => unt_unwrap o e⟩

example : isConst (.bin .mult (.const (.int 3)) (.const (.dbl (some 2))) : TExpr XRat) = true ∧
    Typed.unwrap leftFirst (.bin .mult (.const (.int 3)) (.const (.dbl (some 2)))) = .ok (some 6 : XRat) := by
  decide +kernel

/-- Simplification: one pass, the test whether there is something to do, and the loop. -/
theorem C99_simplify (e : TExpr K) :
    (Typed.simplify e).map untyped = simplify (untyped e) ∧
    Typed.canSimplify e = canSimplify (untyped e) ∧
    (Typed.simplified e).map untyped = simplified (untyped e) :=
  ⟨unt_simplify e, unt_canSimplify e, unt_simplified e⟩

/-- `x*1L + 2*3L` simplifies to `x + 6.0`. -/
example : Typed.simplified (.bin .plus (.bin .mult (.var 0) (.const (.long 1)))
      (.bin .mult (.const (.int 2)) (.const (.long 3)))) =
    .ok (.bin .plus (.var 0) (.const (.dbl (some 6 : XRat)))) := by decide +kernel

/-- Derivatives with respect to a variable. -/
theorem C99_diff (i : Nat) (e : TExpr K) : (Typed.diff (.var i) e).map untyped = diff (.var i) (untyped e) :=
  unt_diff_var i e

example : Typed.diff (.var 0) (.bin .plus (.bin .mult (.const (.long 3)) (.var 0)) (.const (.flt (some 5)))) =
    .ok (.const (.dbl ((some 3) : XRat))) := by decide +kernel

/-- Derivatives with respect to a function symbol, if no gradient is taken of a constant of another type.
(Missing: such gradients, see `C99_gradient`.) -/
theorem C99_symbol_partial (i t : Nat) {e : TExpr K} (he : GradsFine e) :
    (Typed.diff (.fsym i t) e).map untyped = diff (.fsym i t) (untyped e) :=
  unt_diff_sym i t he

/-- `2L*grad(u)` by `u`. -/
example : let e : TExpr XRat := .bin .mult (.const (.long 2)) (.un .grad (.fsym 0 0))
    GradsFine e ∧ Typed.diff (.fsym 0 0) e =
      .ok (.bin .mult (.const (.dbl (some 2))) (.un .grad (.const (.dbl (some 1))))) :=
  ⟨⟨trivial, fun h => h, trivial⟩, by decide +kernel⟩

/-- The gradient of a `long` or other constant differentiates to the gradient of a zero, which cannot be evaluated;
that of a `double` to zero. -/
theorem C99_gradient (h0 : Num.eqb (Num.lit 0 : K) (Num.lit 0) = true) (i t : Nat) (c : Scalar K)
    (hc : ¬ IsDouble c) (v : List K) :
    (∃ d, Typed.diff (.fsym i t) (.un .grad (.const c)) = .ok d ∧
      ∀ o, Typed.eval o v d = .throw .formalOp) ∧
    diff (.fsym i t) (untyped (.un .grad (.const c))) = .ok (.const (Num.lit 0)) := by
  constructor
  · cases c with
    | dbl x => exact absurd trivial hc
    | _ => exact ⟨_, rfl, fun o => rfl⟩
  · simp only [diff, untyped, diffE, Res.bind_ok, deepEq, h0, Res.map_ok, if_true]
    rfl

example : Typed.diff (.fsym 0 0) (.un .grad (.const (.long 3))) =
    .ok (.un .grad (.const (.long 0)) : TExpr XRat) := by decide +kernel

/-- Equality: what is found equal also is if all constants are of the numeric type. -/
theorem C99_equal_sound (hl : ∀ n : Int, Num.eqb (Num.lit n : K) (Num.lit n) = true) {e f : TExpr K}
    (h : Typed.deepEq e f = .ok true) : deepEq (untyped e) (untyped f) = .ok true :=
  unt_deepEq_true hl h

example : Typed.deepEq (.un (.fn .sin) (.const (.long 6))) (.un (.fn .sin) (.const (.long 6)) : TExpr XRat) =
    .ok true := by decide +kernel

/-- Conversely if constants that hold the same number are of the same type.  (Missing: others, see
`C99_not_equal`.) -/
theorem C99_equal_partial (hl : ∀ n : Int, Num.eqb (Num.lit n : K) (Num.lit n) = true) {e f : TExpr K}
    (h : AllConst (fun c => AllConst (Alike c) f) e) : Typed.deepEq e f = deepEq (untyped e) (untyped f) :=
  unt_deepEq (AllConst.mono (fun _ hc => AllConst.mono (fun _ hd => alike_same hl hd) hc) h)

/-- `x + 6L` and `x + 5.0`. -/
example : let e : TExpr XRat := .bin .plus (.var 0) (.const (.long 6))
    let f : TExpr XRat := .bin .plus (.var 0) (.const (.dbl (some 5)))
    AllConst (fun c => AllConst (Alike c) f) e :=
  ⟨trivial, trivial, by show Num.eqb ((some 5) : XRat) (Num.lit 6) = false; decide +kernel⟩

/-- The constants 6 of two different types are not equal, though they have the same value everywhere. -/
theorem C99_not_equal (c d : Scalar K) (h : match c, d with
      | .dbl _, .dbl _ | .flt _, .flt _ | .int _, .int _ | .long _, .long _ => False
      | _, _ => True) : Typed.deepEq (.const c) (.const d) = .ok false := by
  cases c <;> cases d <;> first | exact h.elim | rfl

/-- `x + 6L` and `x + 6.0`: not equal, the same value at every point. -/
example : let e : TExpr XRat := .bin .plus (.var 0) (.const (.long 6))
    let f : TExpr XRat := .bin .plus (.var 0) (.const (.dbl (some 6)))
    Typed.deepEq e f = .ok false ∧ deepEq (untyped e) (untyped f) = .ok true ∧
      ∀ v, Typed.eval leftFirst v e = Typed.eval leftFirst v f := by
  refine ⟨by decide +kernel, by decide +kernel, fun v => ?_⟩
  simp only [Typed.eval, Scalar.toNum]
  rfl

/-- Substitution, if the constants of the searched expression are of the same type as those of the expression that
hold the same number.  The replacement is arbitrary.  (Missing: other constants, see `C99_not_found`.) -/
theorem C99_substitute_partial (hl : ∀ n : Int, Num.eqb (Num.lit n : K) (Num.lit n) = true) {s e : TExpr K}
    (r : TExpr K) (h : AllConst (fun c => AllConst (Alike c) s) e) :
    (Typed.substitute s r e).map untyped = substitute (untyped s) (untyped r) (untyped e) :=
  unt_substitute r (AllConst.mono (fun _ hc => AllConst.mono (fun _ hd => alike_same hl hd) hc) h)

/-- In particular for a variable. -/
theorem C99_substitute_variable (hl : ∀ n : Int, Num.eqb (Num.lit n : K) (Num.lit n) = true) (i : Nat)
    (r e : TExpr K) :
    (Typed.substitute (.var i) r e).map untyped = substitute (.var i) (untyped r) (untyped e) := by
  refine C99_substitute_partial hl r ?_
  induction e using Expr.ind with
  | const c => exact trivial
  | var | fsym => trivial
  | un op e ih => exact ih
  | integ _ _ _ _ h1 h2 h3 => exact ⟨h1, h2, h3⟩
  | bin _ _ _ h1 h2 => exact ⟨h1, h2⟩
  | vec es ih =>
    simp only [AllConst]
    induction es with
    | nil => trivial
    | cons e es ih' => exact ⟨ih e (by simp), ih' fun e he => ih e (by simp [he])⟩

example : Typed.substitute (.var 0) (.const (.long 3)) (.bin .mult (.const (.int 2)) (.var 0)) =
    .ok (.const (.dbl (some 6 : XRat))) := by decide +kernel

/-- A constant of another type than the searched one is not replaced, whatever it holds. -/
theorem C99_not_found (c : Scalar K) (hc : ¬ IsDouble c) (x : K) (i : Nat) (r : TExpr K) :
    Typed.substE (.const (.dbl x)) r (.bin .plus (.var i) (.const c)) = .ok (.bin .plus (.var i) (.const c)) := by
  cases c with
  | dbl y => exact absurd trivial hc
  | _ => rfl

/-- Replacing 2.0 by `y` in `x + 2L` and in `x + 2.0`. -/
example : Typed.substitute (.const (.dbl (some 2))) (.var 1) (.bin .plus (.var 0) (.const (.long 2))) =
      .ok (.bin .plus (.var 0) (.const (.long 2)) : TExpr XRat) ∧
    Typed.substitute (.const (.dbl (some 2))) (.var 1) (.bin .plus (.var 0) (.const (.dbl (some 2)))) =
      .ok (.bin .plus (.var 0) (.var 1) : TExpr XRat) := by decide +kernel

/-- Text: an expression is printed as if its constants were of the numeric type, provided the whole ones have the same
digits then.  (Missing: large whole constants, see `C99_text_digits`.) -/
theorem C99_text_partial {fmt : K → Txt} {e : TExpr K} (h : AllConst (DigitsAlike fmt) e) :
    Typed.exprStr fmt e = exprStr fmt (untyped e) := by
  have h' := AllConst.mono (q := fun c => c.txt fmt = fmt (held c)) (fun c hc => by cases c <;> first | exact hc | rfl) h
  simp only [Typed.exprStr, exprStr, unt_isUnary, unt_deepStr h']

example : let fmt : XRat → Txt := fun x => (toString (x.getD 0).num).toList
    AllConst (DigitsAlike fmt) (.bin .plus (.const (.flt (some 2))) (.const (.long 6))) :=
  ⟨trivial, rfl⟩

/-- Without that it is not: a whole constant is always printed with all its digits, while a format for `double` prints
some numbers otherwise, as `1e+06`. -/
theorem C99_text_digits {fmt : K → Txt} (n : Int) (h : (toString n).toList ≠ fmt (Num.lit n)) :
    Typed.exprStr fmt (.const (.long n)) ≠ exprStr fmt (untyped (.const (.long n))) := by
  intro h'
  apply h
  have h2 : t!"expr" ++ (t!"(" ++ ((t!"constant(" ++ ((toString n).toList ++ t!")")) ++ t!")")) =
    t!"expr" ++ (t!"(" ++ ((t!"constant(" ++ (fmt (Num.lit n) ++ t!")")) ++ t!")")) := h'
  exact List.append_cancel_right (List.append_cancel_left (List.append_cancel_right
    (List.append_cancel_left (List.append_cancel_left h2))))

example : let fmt : XRat → Txt := fun _ => t!"1e+06"
    (toString (1000000 : Int)).toList ≠ fmt (Num.lit 1000000) := by decide +kernel

/-- LaTeX text, if all constants are of the numeric type.  (Missing: others, see `C99_latex_lost`.) -/
theorem C99_latex_partial {fmt : K → Txt} {tr : Translator} {e : TExpr K} (h : AllConst IsDouble e) (p : Bool) :
    Typed.latex fmt tr p e = latex fmt tr p (untyped e) :=
  unt_latex h p

example : AllConst IsDouble (.bin .plus (.var 0) (.const (.dbl (some 6))) : TExpr XRat) := ⟨trivial, trivial⟩

omit [Num K] in
/-- Any two constants of other types have the same LaTeX text: the number is lost. -/
theorem C99_latex_lost (fmt : K → Txt) (tr : Translator) (p : Bool) (c d : Scalar K) (hc : ¬ IsDouble c)
    (hd : ¬ IsDouble d) : Typed.latex fmt tr p (.const c) = Typed.latex fmt tr p (.const d) ∧
      Typed.latex fmt tr p (.const c) = t!" \\chi_{\\mathrm{unknown}} " := by
  cases c <;> cases d <;> first
    | exact absurd trivial hc
    | exact absurd trivial hd
    | exact ⟨rfl, rfl⟩

example : ¬ IsDouble (.long 3 : Scalar XRat) ∧ ¬ IsDouble (.int 4 : Scalar XRat) := ⟨fun h => h, fun h => h⟩

end VM.Props
