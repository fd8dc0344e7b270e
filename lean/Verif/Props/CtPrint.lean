import Verif.Ct.PrintLemmas
import Verif.Props.Latex
import Verif.NumRat
/-
C52: the text of compile-time objects.

Full statement: compile-time expressions, equations, intervals and vectors can be written to a stream, and two objects
of one of these kinds that are written as the same text are the same.

False of the code where function symbols are involved: they cannot be written (`C52_compiles` and so on say exactly what
can be).  What can be written is identified by its text.  The text of numbers is a parameter, as in C45.
-/
namespace VM.Props
open VM VM.Ct VM.Spec
variable {K : Type} {fmt : K → Txt}

/-- C52, in part: two compile-time expressions that are written as the same text are the same. -/
theorem C52_identifies_partial {S : K → Prop} (hfmt : TellsApart S fmt) {e f : MixExpr K} (he : ConstantsIn S e)
    (hf : ConstantsIn S f) {t : Txt} (h1 : ctStr fmt e = some t) (h2 : ctStr fmt f = some t) : e = f :=
  (ctRead (r := []) (s := []) hfmt he hf h1 h2 rfl).1

-- [[ct_constant<-12>*ct_variable<3>]-constant(5)]
example : ctStr showInt (.bin (.bin (.const (-12)) .mult (.var 3)) .minus (.rc (some 5))) =
    some "[[ct_constant<-12>*ct_variable<3>]-constant(5)]".toList ∧
    ConstantsIn (fun q : XRat => ∃ n : Int, q = some (n : Rat))
      (.bin (.bin (.const (-12)) .mult (.var 3)) .minus (.rc (some 5))) :=
  ⟨by decide +kernel, ⟨trivial, trivial⟩, 5, rfl⟩

/-- Which expressions can be written: those without function symbols. -/
theorem C52_compiles (fmt : K → Txt) (e : MixExpr K) : (ctStr fmt e).isSome ↔ NoSymbol e :=
  ctStr_isSome e

example : NoSymbol (.bin (.const 2) .mult (.var 3) : MixExpr XRat) ∧
    ¬ NoSymbol (.bin (.const 2) .mult (.fsym 3) : MixExpr XRat) :=
  ⟨⟨trivial, trivial⟩, fun h => h.2⟩

/-- C52 for equations between compile-time expressions, in part. -/
theorem C52_equation_partial (fmt : K → Txt) {l r l' r' : MixExpr K} {t : Txt} (h1 : ctEquationStr fmt l r = some t)
    (h2 : ctEquationStr fmt l' r' = some t) : l = l' ∧ r = r' := by
  simp only [ctEquationStr, Option.bind_eq_some_iff, Option.map_eq_some_iff] at h1 h2
  obtain ⟨s1, h1, s2, k1, rfl⟩ := h1
  obtain ⟨u1, h2, u2, k2, h⟩ := h2
  simp only [List.cons_append, List.nil_append, List.cons.injEq, true_and] at h
  obtain ⟨h1, c1⟩ := defaultStr_eq h1
  obtain ⟨h2, c2⟩ := defaultStr_eq h2
  obtain ⟨k1, c3⟩ := defaultStr_eq k1
  obtain ⟨k2, c4⟩ := defaultStr_eq k2
  obtain ⟨rfl, h⟩ := ctRead (tells_none fmt) c2 c1 h2 h1 h
  simp only [List.cons.injEq, true_and] at h
  exact ⟨rfl, (ctRead (tells_none fmt) c3 c4 k1 k2 h.symm).1⟩

/-- C52 for intervals, in part. -/
theorem C52_interval_partial (fmt : K → Txt) {l r l' r' : MixExpr K} {t : Txt} (h1 : ctIntervalStr fmt l r = some t)
    (h2 : ctIntervalStr fmt l' r' = some t) : l = l' ∧ r = r' := by
  simp only [ctIntervalStr, Option.bind_eq_some_iff, Option.map_eq_some_iff] at h1 h2
  obtain ⟨s1, h1, s2, k1, rfl⟩ := h1
  obtain ⟨u1, h2, u2, k2, h⟩ := h2
  simp only [List.cons_append, List.nil_append, List.cons.injEq, true_and] at h
  obtain ⟨h1, c1⟩ := defaultStr_eq h1
  obtain ⟨h2, c2⟩ := defaultStr_eq h2
  obtain ⟨k1, c3⟩ := defaultStr_eq k1
  obtain ⟨k2, c4⟩ := defaultStr_eq k2
  obtain ⟨rfl, h⟩ := ctRead (tells_none fmt) c2 c1 h2 h1 h
  simp only [List.cons.injEq, true_and] at h
  exact ⟨rfl, (ctRead (tells_none fmt) c3 c4 k1 k2 h.symm).1⟩

example : ctEquationStr showInt (.var 0) (.bin (.const 2) .div (.var 1)) =
      some "ct_equation(ct_variable<0> = [ct_constant<2>/ct_variable<1>])".toList ∧
    ctIntervalStr showInt (.const (-1)) (.bin (.const 2) .plus (.var 1)) =
      some "ct_interval(ct_constant<-1>, [ct_constant<2>+ct_variable<1>])".toList := by decide +kernel

/-- Which equations and intervals can be written: no function symbols, and no run-time constants inside. -/
theorem C52_sides_compile (fmt : K → Txt) (l r : MixExpr K) :
    ((ctEquationStr fmt l r).isSome ↔ (NoSymbol l ∧ NoRunTimeConstant l) ∧ NoSymbol r ∧ NoRunTimeConstant r) ∧
    ((ctIntervalStr fmt l r).isSome ↔ (NoSymbol l ∧ NoRunTimeConstant l) ∧ NoSymbol r ∧ NoRunTimeConstant r) := by
  rw [← defaultStr_isSome (fmt := fmt), ← defaultStr_isSome (fmt := fmt), ctEquationStr, ctIntervalStr]
  cases defaultStr fmt l <;> cases defaultStr fmt r <;> simp

example : NoSymbol (.bin (.rc (some 2)) .plus (.var 0) : MixExpr XRat) ∧
    ¬ NoRunTimeConstant (.bin (.rc (some 2)) .plus (.var 0) : MixExpr XRat) := ⟨⟨trivial, trivial⟩, fun h => h.1⟩

/-- C52 for vectors, in part: same number of entries, same entries. -/
theorem C52_vector_partial {S : K → Prop} (hfmt : TellsApart S fmt) {es fs : List (MixExpr K)}
    (he : ∀ e ∈ es, ConstantsIn S e) (hf : ∀ f ∈ fs, ConstantsIn S f) {t : Txt} (h1 : ctVectorStr fmt es = some t)
    (h2 : ctVectorStr fmt fs = some t) : es = fs := by
  unfold ctVectorStr at h1 h2
  split at h1 <;> split at h2 <;> try contradiction
  rename_i a b
  obtain ⟨s1, k1, rfl⟩ := Option.map_eq_some_iff.1 h1
  obtain ⟨s2, k2, h⟩ := Option.map_eq_some_iff.1 h2
  simp only [List.cons_append, List.nil_append, List.cons.injEq, true_and] at h
  refine (entriesRead (r := []) (s := []) hfmt ?_ ?_ he hf k1 k2 h.symm).1
  · rintro rfl; simp at a
  · rintro rfl; simp at b

/-- Which vectors can be written: one to three entries without function symbols. -/
theorem C52_vector_compiles (fmt : K → Txt) (es : List (MixExpr K)) :
    (ctVectorStr fmt es).isSome ↔ (es.length = 1 ∨ es.length = 2 ∨ es.length = 3) ∧ ∀ e ∈ es, NoSymbol e := by
  rw [← entries_isSome (fmt := fmt), ctVectorStr]
  split
  · rw [Option.isSome_map]; constructor
    · intro h; exact ⟨by omega, h⟩
    · exact fun h => h.2
  · constructor
    · intro h; simp at h
    · intro h; omega

example : ctVectorStr showInt [.var 0, .bin (.const 2) .div (.var 1), .rc (some (-3))] =
      some "vector<ct_variable<0>, [ct_constant<2>/ct_variable<1>], constant(-3)>".toList := by decide +kernel

end VM.Props
