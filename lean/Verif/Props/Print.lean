import Verif.Rt.PrintLemmas
import Verif.NumRat
import Verif.Props.Latex
/-
C45: the plain text of expressions.
-/
namespace VM.Props
open Spec
variable {K : Type}

/-- C45: two `expr` objects that are streamed as the same text hold the same expression, whatever node kinds it
has: integrals with their bounds and variable, symbolic integrals, derivatives, vectors. -/
theorem C45_identifies {S : K → Prop} {fmt : K → Txt} (hfmt : TellsApart S fmt) {e f : Expr K}
    (he : Printable S e) (hf : Printable S f) (h : exprStr fmt e = exprStr fmt f) : e = f :=
  ((read hfmt e he).2 f [] [] hf (by simpa [exprStr] using h)).1

/-- The same for `deep_str()`, also as a part of a longer text. -/
theorem C45_identifies_deep {S : K → Prop} {fmt : K → Txt} (hfmt : TellsApart S fmt) {e f : Expr K}
    (he : Printable S e) (hf : Printable S f) {r s : Txt} (h : deepStr fmt e ++ r = deepStr fmt f ++ s) :
    e = f ∧ r = s :=
  (read hfmt e he).1 f r s hf h

/-- The same for equations. -/
theorem C45_equation {S : K → Prop} {fmt : K → Txt} (hfmt : TellsApart S fmt) {e e' f f' : Expr K}
    (he : Printable S e) (he' : Printable S e') (hf : Printable S f) (hf' : Printable S f')
    (h : equationStr fmt e e' = equationStr fmt f f') : e = f ∧ e' = f' := by
  simp only [equationStr, List.cons_append, List.nil_append, List.cons.injEq, true_and, exprStr] at h
  obtain ⟨h1, h2⟩ := (read hfmt e he).2 _ _ _ hf h
  simp only [List.cons.injEq, true_and] at h2
  exact ⟨h1, ((read hfmt e' he').2 _ _ _ hf' h2).1⟩

/-- The hypotheses are met over the integers by an integral
with a bound that is a sum, and a vector. -/
example : TellsApart (fun q : XRat => ∃ n : Int, q = some (n : Rat)) showInt ∧
    Printable (fun q : XRat => ∃ n : Int, q = some (n : Rat))
      (.integ (.const (some 0)) (.bin .plus (.var 0) (.const (some 2))) 1
        (.bin .mult (.un .grad (.fsym 0 1)) (.vec [.var 1, .bin .div (.var 2) (.var 3)]))) ∧
    deepStr showInt (.bin .plus (.var 0) (.un (.fn .sin) (.const (some (-2))))) =
      "(variable(0)+sin(constant(-2)))".toList ∧
    exprStr showInt (.integ (.const (some 0)) (.bin .plus (.var 0) (.const (some 2))) 1
      (.un (.pd 2) (.fsym 3 0))) =
      ("expr(rt_integral[interval(expr(constant(0)), expr(variable(0)+constant(2))), variable(1)]" ++
       "(partial_deriv<2>(function_symbol<unknown(3)>)))").toList ∧
    exprStr showInt (.vec [.var 1, .bin .div (.var 2) (.var 3)]) =
      "expr([2](expr(variable(1)), expr(variable(2)/variable(3))))".toList := by
  have hd : ∀ n c, c ∈ Nat.toDigits 10 n → c.isDigit = true := fun n c h =>
    Nat.isDigit_of_mem_toDigits (by decide) (by decide) h
  refine ⟨⟨?_, ?_⟩, ?_, ?_, ?_, ?_⟩
  · rintro _ ⟨n, rfl⟩ h
    rw [showInt, List.mem_append] at h
    rcases h with h | h
    · split at h <;> simp at h
    · exact absurd (hd _ _ h) (by decide)
  · exact showInt_inj
  · refine .integ _ (.const ⟨0, rfl⟩) (.bin _ (.var 0) (.const ⟨2, rfl⟩)) (.bin _ (.un _ (.fsym 0 (.inr rfl))) (.vec ?_))
    intro e he
    simp only [List.mem_cons, List.not_mem_nil, or_false] at he
    rcases he with rfl | rfl
    · exact .var 1
    · exact .bin _ (.var 2) (.var 3)
  · decide +kernel
  · decide +kernel
  · decide +kernel

/-- The same for objects of all classes: the text tells the class and the contents, except that an `rt_binary_expr` looks
like the `rt_expr` that holds it. -/
theorem C45_object {S : K → Prop} {fmt : K → Txt} (hfmt : TellsApart S fmt) {a b : Shown K}
    (ha : PrintableObj S a) (hb : PrintableObj S b) : a.str fmt = b.str fmt ↔ SameShown a b := by
  constructor
  · intro h
    have hm := Shown.mark_eq h
    by_cases h5 : a.mark ≤ 5
    · have hi := Shown.inner_eq hfmt ha hb h5 h
      cases a <;> cases b <;> first
        | (simp [Shown.mark] at hm; done)
        | (simp [Shown.mark] at h5; done)
        | (simp [Shown.inner] at hi; done)
        | (simp only [Shown.inner] at hi; cases hi; exact .inl rfl)
        | (simp only [Shown.inner] at hi; subst hi; exact .inr ⟨_, _, _, .inl ⟨rfl, rfl⟩⟩)
        | (simp only [Shown.inner] at hi; subst hi; exact .inr ⟨_, _, _, .inr ⟨rfl, rfl⟩⟩)
    · cases ha with
      | equation h1 h2 =>
        cases hb with
        | equation h3 h4 =>
          obtain ⟨rfl, rfl⟩ := C45_equation hfmt h1 h2 h3 h4 h
          exact .inl rfl
        | _ => simp [Shown.mark] at hm
      | interval h1 h2 =>
        cases hb with
        | interval h3 h4 =>
          simp only [Shown.str, List.append_cancel_left_eq] at h
          obtain ⟨rfl, h5⟩ := (read hfmt _ h1).2 _ _ _ h3 h
          simp only [List.append_cancel_left_eq] at h5
          obtain ⟨rfl, -⟩ := (read hfmt _ h2).2 _ _ _ h4 h5
          exact .inl rfl
        | _ => simp [Shown.mark] at hm
      | symbolic i =>
        cases hb with
        | symbolic j =>
          simp only [Shown.str, List.append_cancel_left_eq, List.append_cancel_right_eq] at h
          rw [idTxt_inj h]
          exact .inl rfl
        | _ => simp [Shown.mark] at hm
      | _ => exact absurd (by simp [Shown.mark]) h5
  · rintro (rfl | ⟨op, l, r, ⟨rfl, rfl⟩ | ⟨rfl, rfl⟩⟩) <;> rfl

/-- An interval with a sum in it; and the text of some objects of other classes. -/
example : PrintableObj (fun q : XRat => ∃ n : Int, q = some (n : Rat))
      (.interval (.const (some 0)) (.bin .plus (.var 0) (.var 1))) ∧
    Shown.str showInt (.un (.fn .sin) (.var 0)) = "unarysin(variable(0))".toList ∧
    Shown.str showInt (.expr (.un (.fn .sin) (.var 0))) = "expr(sin(variable(0)))".toList ∧
    Shown.str showInt (.bin .plus (.var 0) (.const (some 2))) = "expr(variable(0)+constant(2))".toList :=
  ⟨.interval (.const ⟨0, rfl⟩) (.bin _ (.var 0) (.var 1)), by decide +kernel, by decide +kernel, by decide +kernel⟩

/-- C45, why constants are restricted: numbers that agree in the printed digits give the same text. -/
theorem C45_digits (fmt : K → Txt) {a b : K} (h : fmt a = fmt b) (hab : a ≠ b) :
    ∃ e f : Expr K, Printable (fun _ => True) e ∧ Printable (fun _ => True) f ∧ exprStr fmt e = exprStr fmt f ∧
      e ≠ f :=
  ⟨.const a, .const b, .const trivial, .const trivial, by simp [exprStr, wrapStr, Expr.isUnary, deepStr, h],
    by simpa using hab⟩

/-- C45, why function symbols are restricted: for any other tag not even the id is printed. -/
theorem C45_tags (fmt : K → Txt) (i j g : Nat) (h0 : g ≠ 0) (h1 : g ≠ 1) :
    exprStr fmt (.fsym i g : Expr K) = "expr(function_symbol<invalid>)".toList ∧
    exprStr fmt (.fsym j g : Expr K) = exprStr fmt (.fsym i g) := by
  constructor
  · simp only [exprStr, wrapStr, Expr.isUnary, if_true, deepStr, h0, h1, if_false]
    decide
  · simp [exprStr, wrapStr, Expr.isUnary, deepStr, h0, h1]

end VM.Props
