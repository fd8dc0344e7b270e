import Verif.Rt.LatexLemmas
import Verif.NumRat
import Verif.NumReal
/-
C32, C33: the LaTeX translator.
-/
namespace VM.Props
open Spec
variable {K : Type}

/-- C32, with two restrictions that the full claim does not have: different constants of the two
expressions must be printed differently (the stream prints six digits), and function symbols carry the
unknown or the test tag. -/
theorem C32_unambiguous_partial [Num K] {S : K → Prop} {fmt : K → Txt} (hfmt : ShowsNumbers S fmt)
    (laws : SumLaws K) {e f : Expr K} (he : Readable S e) (hf : Readable S f)
    (h : latex fmt .new false e = latex fmt .new false f) :
    ∀ I ρ a, Val I ρ e a ↔ Val I ρ f a := by
  intro I ρ a
  rw [(lsum_txt (readable_typeset he)).1, (lsum_txt (readable_typeset hf)).1] at h
  have := LSum.readable hfmt (lsum e) (lsum f) (r := []) (s := []) (lsum_over (readable_typeset he)) (lsum_over (readable_typeset hf))
    (by simp [NoSp]) (by simp [NoSp]) (by simpa using h)
  rw [lsum_val laws he, lsum_val laws hf, this.1]

/-- The same for equations: equal text, same left and same right side. -/
theorem C32_equation_partial [Num K] {S : K → Prop} {fmt : K → Txt} (hfmt : ShowsNumbers S fmt)
    (laws : SumLaws K) {e e' f f' : Expr K} (he : Readable S e) (he' : Readable S e')
    (hf : Readable S f) (hf' : Readable S f')
    (h : latexEq fmt .new e e' = latexEq fmt .new f f') :
    ∀ I ρ a, (Val I ρ e a ↔ Val I ρ f a) ∧ (Val I ρ e' a ↔ Val I ρ f' a) := by
  simp only [latexEq, (lsum_txt (readable_typeset he)).1, (lsum_txt (readable_typeset hf)).1, (lsum_txt (readable_typeset he')).1, (lsum_txt (readable_typeset hf')).1,
    List.append_assoc] at h
  obtain ⟨h1, h2⟩ := LSum.readable hfmt (lsum e) (lsum f) (lsum_over (readable_typeset he)) (lsum_over (readable_typeset hf))
    (by simp [NoSp]) (by simp [NoSp]) h
  have h3 := LSum.readable hfmt (lsum e') (lsum f') (r := []) (s := []) (lsum_over (readable_typeset he')) (lsum_over (readable_typeset hf'))
    (by simp [NoSp]) (by simp [NoSp]) (by simpa using h2)
  intro I ρ a
  rw [lsum_val laws he, lsum_val laws hf, lsum_val laws he', lsum_val laws hf', h1, h3.1]
  exact ⟨Iff.rfl, Iff.rfl⟩

/-- The same for intervals: equal text, same lower and same upper bound. -/
theorem C32_interval_partial [Num K] {S : K → Prop} {fmt : K → Txt} (hfmt : ShowsNumbers S fmt)
    (laws : SumLaws K) {e e' f f' : Expr K} (he : Readable S e) (he' : Readable S e')
    (hf : Readable S f) (hf' : Readable S f')
    (h : latexInterval fmt .new e e' = latexInterval fmt .new f f') :
    ∀ I ρ a, (Val I ρ e a ↔ Val I ρ f a) ∧ (Val I ρ e' a ↔ Val I ρ f' a) := by
  simp only [latexInterval, (lsum_txt (readable_typeset he)).1, (lsum_txt (readable_typeset hf)).1,
    (lsum_txt (readable_typeset he')).1, (lsum_txt (readable_typeset hf')).1, List.append_assoc,
    List.append_cancel_left_eq] at h
  obtain ⟨h1, h2⟩ := LSum.readable hfmt (lsum e) (lsum f) (lsum_over (readable_typeset he))
    (lsum_over (readable_typeset hf)) (by simp [NoSp]) (by simp [NoSp]) h
  rw [List.append_cancel_left_eq] at h2
  have h3 := LSum.readable hfmt (lsum e') (lsum f') (lsum_over (readable_typeset he'))
    (lsum_over (readable_typeset hf')) (by simp [NoSp]) (by simp [NoSp]) h2
  intro I ρ a
  rw [lsum_val laws he, lsum_val laws hf, lsum_val laws he', lsum_val laws hf', h1, h3.1]
  exact ⟨Iff.rfl, Iff.rfl⟩

/-- The lower bound is printed first. -/
example : latexInterval (fun _ : Nat => ['7']) .new (.var 0) (.bin .plus (.var 1) (.const 0)) =
    " [  x_{0} ;  x_{1}  +  7  ] ".toList := by decide +kernel

/-! ### C61 -/

/-- C61: gradients, divergences, formal derivatives and integrals included, two expressions have the same
text exactly if they agree up to `id` and the grouping of sums. -/
theorem C61_text_iff {S : K → Prop} {fmt : K → Txt} (hfmt : ShowsNumbers S fmt) {e f : Expr K}
    (he : Typeset S e) (hf : Typeset S f) :
    latex fmt .new false e = latex fmt .new false f ↔ Regroup e f := by
  refine ⟨fun h => ?_, fun h => regroup_latex h false⟩
  rw [(lsum_txt he).1, (lsum_txt hf).1] at h
  have := LSum.readable hfmt (lsum e) (lsum f) (r := []) (s := []) (lsum_over he) (lsum_over hf)
    (by simp [NoSp]) (by simp [NoSp]) (by simpa using h)
  exact (lsum_toE he).trans (this.1 ▸ (lsum_toE hf).symm)

/-- C61, equations: equal text exactly if both sides agree. -/
theorem C61_equation_iff {S : K → Prop} {fmt : K → Txt} (hfmt : ShowsNumbers S fmt) {e e' f f' : Expr K}
    (he : Typeset S e) (he' : Typeset S e') (hf : Typeset S f) (hf' : Typeset S f') :
    latexEq fmt .new e e' = latexEq fmt .new f f' ↔ Regroup e f ∧ Regroup e' f' := by
  refine ⟨fun h => ?_, fun h => by simp only [latexEq, regroup_latex h.1, regroup_latex h.2]⟩
  simp only [latexEq, (lsum_txt he).1, (lsum_txt hf).1, (lsum_txt he').1, (lsum_txt hf').1,
    List.append_assoc] at h
  obtain ⟨h1, h2⟩ := LSum.readable hfmt (lsum e) (lsum f) (lsum_over he) (lsum_over hf)
    (by simp [NoSp]) (by simp [NoSp]) h
  have h3 := LSum.readable hfmt (lsum e') (lsum f') (r := []) (s := []) (lsum_over he') (lsum_over hf')
    (by simp [NoSp]) (by simp [NoSp]) (by simpa using h2)
  exact ⟨(lsum_toE he).trans (h1 ▸ (lsum_toE hf).symm), (lsum_toE he').trans (h3.1 ▸ (lsum_toE hf').symm)⟩

/-- C61, intervals: equal text exactly if both bounds agree. -/
theorem C61_interval_iff {S : K → Prop} {fmt : K → Txt} (hfmt : ShowsNumbers S fmt) {e e' f f' : Expr K}
    (he : Typeset S e) (he' : Typeset S e') (hf : Typeset S f) (hf' : Typeset S f') :
    latexInterval fmt .new e e' = latexInterval fmt .new f f' ↔ Regroup e f ∧ Regroup e' f' := by
  refine ⟨fun h => ?_, fun h => by simp only [latexInterval, regroup_latex h.1, regroup_latex h.2]⟩
  simp only [latexInterval, (lsum_txt he).1, (lsum_txt hf).1, (lsum_txt he').1, (lsum_txt hf').1,
    List.append_assoc, List.append_cancel_left_eq] at h
  obtain ⟨h1, h2⟩ := LSum.readable hfmt (lsum e) (lsum f) (lsum_over he) (lsum_over hf)
    (by simp [NoSp]) (by simp [NoSp]) h
  rw [List.append_cancel_left_eq] at h2
  have h3 := LSum.readable hfmt (lsum e') (lsum f') (lsum_over he') (lsum_over hf')
    (by simp [NoSp]) (by simp [NoSp]) h2
  exact ⟨(lsum_toE he).trans (h1 ▸ (lsum_toE hf).symm), (lsum_toE he').trans (h3.1 ▸ (lsum_toE hf').symm)⟩

/-- C61: the text of an integral shows its interval, variable and integrand as they are printed on their own. -/
theorem C61_integral (fmt : K → Txt) (t : Translator) (lo hi e : Expr K) (x : Nat) (p : Bool) :
    latexInterval fmt t lo hi <:+: latex fmt t p (.integ lo hi x e) ∧
    latex fmt t false e <:+: latex fmt t p (.integ lo hi x e) ∧
    latex fmt t false (.var x) <:+: latex fmt t p (.integ lo hi x e) := by
  refine ⟨?_, ?_, ?_⟩
  · rw [latex.eq_def]
    refine infix_orUnknown (by simp [latexInterval]) ?_
    simp only [latexInterval, List.append_assoc]
    exact ⟨" \\int_{ ".toList, _, by simp only [List.append_assoc]; rfl⟩
  · rw [latex.eq_def fmt t p (.integ lo hi x e)]
    refine infix_orUnknown (latex_ne _ _) ?_
    simp only [List.append_assoc]
    repeat (first
      | exact List.infix_append_of_infix_left List.infix_rfl
      | refine List.infix_append_of_infix_right ?_)
  · rw [latex, latex]
    refine infix_orUnknown (orUnknown_ne _) ?_
    simp only [List.append_assoc]
    repeat (first
      | exact List.infix_append_of_infix_left List.infix_rfl
      | refine List.infix_append_of_infix_right ?_)

/-- C61: expressions that agree up to `id` and grouping are printed alike by every translator, customised
or not, vectors included. -/
theorem C61_any_translator (fmt : K → Txt) (t : Translator) {e f : Expr K} (h : Regroup e f) (p : Bool) :
    latex fmt t p e = latex fmt t p f := regroup_latex h p

/-- C61, vectors are left out because they are all printed as the same text. -/
theorem C61_vectors (fmt : K → Txt) (t : Translator) (es fs : List (Expr K)) (p : Bool) :
    latex fmt t p (.vec es) = latex fmt t p (.vec fs) := by rw [latex, latex]

/-- Regrouping never moves a minus sign: `a - (b - c)` and `(a - b) - c` have different texts, and so have
the gradient and the divergence of a symbol, an integral and its integrand. -/
example : ShowsNumbers (fun _ : Unit => True) (fun _ => ['1']) ∧
    ¬ Regroup (.bin .minus (.var 0) (.bin .minus (.var 1) (.var 2)) : Expr Unit)
      (.bin .minus (.bin .minus (.var 0) (.var 1)) (.var 2)) ∧
    ¬ Regroup (.un .grad (.fsym 0 0) : Expr Unit) (.un .divg (.fsym 0 0)) ∧
    ¬ Regroup (.integ (.const ()) (.var 1) 0 (.un (.pd 0) (.fsym 0 1)) : Expr Unit)
      (.integ (.const ()) (.var 1) 1 (.un (.pd 0) (.fsym 0 1))) ∧
    Regroup (.bin .plus (.var 0) (.un (.fn .id) (.bin .minus (.var 1) (.var 2))) : Expr Unit)
      (.bin .minus (.bin .plus (.var 0) (.var 1)) (.var 2)) := by
  have hs : ShowsNumbers (fun _ : Unit => True) (fun _ => ['1']) :=
    ⟨by simp, by simp, by simp, fun _ _ _ _ _ => rfl⟩
  refine ⟨hs, ?_, ?_, ?_, (Regroup.bin .plus (.refl _) (.ident _)).trans (.addSub ..)⟩
  · rw [← C61_text_iff hs (.bin (.inr (.inl rfl)) (.var _) (.bin (.inr (.inl rfl)) (.var _) (.var _)))
      (.bin (.inr (.inl rfl)) (.bin (.inr (.inl rfl)) (.var _) (.var _)) (.var _))]
    decide +kernel
  · rw [← C61_text_iff hs (.un _ (.fsym _ (.inl rfl))) (.un _ (.fsym _ (.inl rfl)))]
    decide +kernel
  · rw [← C61_text_iff hs (.integ _ (.const trivial) (.var _) (.un _ (.fsym _ (.inr rfl))))
      (.integ _ (.const trivial) (.var _) (.un _ (.fsym _ (.inr rfl))))]
    decide +kernel

/-- Exact real arithmetic satisfies the laws. -/
theorem sumLaws_real : SumLaws XReal where
  add_add := by rintro (_ | a) (_ | b) (_ | c) <;> simp [Num.add, XReal.lift2, add_assoc]
  add_sub := by rintro (_ | a) (_ | b) (_ | c) <;> simp [Num.add, Num.sub, XReal.lift2, add_sub_assoc]

theorem sumLaws_rat : SumLaws XRat where
  add_add := by rintro (_ | a) (_ | b) (_ | c) <;> simp [Num.add, XRat.lift2, Rat.add_assoc]
  add_sub := by
    rintro (_ | a) (_ | b) (_ | c) <;> simp [Num.add, Num.sub, XRat.lift2, Rat.sub_eq_add_neg, Rat.add_assoc]

/-- What the stream prints for integers with up to six digits. -/
def showInt : XRat → Txt
  | some q => (if q.num < 0 then ['-'] else []) ++ Nat.toDigits 10 q.num.natAbs
  | none => ['n', 'a', 'n']

theorem showInt_inj : ∀ a b : XRat, (∃ n : Int, a = some (n : Rat)) → (∃ n : Int, b = some (n : Rat)) →
    showInt a = showInt b → a = b := by
  have hd : ∀ n c, c ∈ Nat.toDigits 10 n → c.isDigit = true := fun n c h =>
    Nat.isDigit_of_mem_toDigits (by decide) (by decide) h
  rintro a b ⟨n, rfl⟩ ⟨m, rfl⟩ h
  have key : ∀ n m : Nat, Nat.toDigits 10 n = Nat.toDigits 10 m → n = m := fun n m h => idTxt_inj h
  have hminus : ∀ (n : Nat) (l : Txt), '-' :: l ≠ Nat.toDigits 10 n := by
    intro n l h
    exact absurd (hd n '-' (h ▸ List.mem_cons_self)) (by decide)
  simp only [showInt, Rat.num_intCast] at h
  congr 2
  by_cases hn : n < 0 <;> by_cases hm : m < 0 <;> simp only [hn, hm, if_true, if_false] at h
  · simp only [List.cons_append, List.nil_append, List.cons.injEq, true_and] at h
    have := key _ _ h; omega
  · exact absurd (by simpa using h) (hminus _ _)
  · exact absurd (by simpa using h.symm) (hminus _ _)
  · simp only [List.nil_append] at h
    have := key _ _ h; omega

/-- The hypotheses of `C32_unambiguous_partial` are met by `a + (b - 2)` and `(a + b) - 2` (with
different trees and the same text) over the integers. -/
example : ShowsNumbers (fun q : XRat => ∃ n : Int, q = some (n : Rat)) showInt ∧
    Readable (fun q : XRat => ∃ n : Int, q = some (n : Rat))
      (.bin .plus (.var 0) (.bin .minus (.fsym 1 0) (.const (some 2)))) ∧
    Readable (fun q : XRat => ∃ n : Int, q = some (n : Rat))
      (.bin .minus (.bin .plus (.var 0) (.fsym 1 0)) (.const (some 2))) ∧
    latex showInt .new false (.bin .plus (.var 0) (.bin .minus (.fsym 1 0) (.const (some 2)))) =
      " x_{0}  +  u_{1}  -  2 ".toList ∧
    latex showInt .new false (.bin .minus (.bin .plus (.var 0) (.fsym 1 0)) (.const (some 2))) =
      " x_{0}  +  u_{1}  -  2 ".toList := by
  have hd : ∀ n c, c ∈ Nat.toDigits 10 n → c.isDigit = true := fun n c h =>
    Nat.isDigit_of_mem_toDigits (by decide) (by decide) h
  refine ⟨⟨?_, ?_, ?_, ?_⟩, ?_, ?_, ?_, ?_⟩
  · rintro (_ | q)
    · simp [showInt]
    · simp [showInt, Nat.toDigits_ne_nil]
  · rintro (_ | q)
    · simp [showInt]
    · intro h
      rw [showInt, List.mem_append] at h
      rcases h with h | h
      · split at h <;> simp at h
      · exact absurd (hd _ _ h) (by decide)
  · rintro (_ | q) ch hch h
    · simp [showInt] at h; subst h; simp at hch
    · rw [showInt] at h
      split at h
      · simp at h; subst h; simp at hch
      · have := hd _ ch (List.mem_of_mem_head? (by simpa using h))
        have h2 : ∀ ch ∈ ['x', 'u', 'v', '\\'], Char.isDigit ch = false := by decide
        rw [h2 ch hch] at this; cases this
  · exact showInt_inj
  · exact .bin (.inl rfl) (.var 0) (.bin (.inr (.inl rfl)) (.fsym 1 (.inl rfl)) (.const ⟨2, rfl⟩))
  · exact .bin (.inr (.inl rfl)) (.bin (.inl rfl) (.var 0) (.fsym 1 (.inl rfl))) (.const ⟨2, rfl⟩)
  · decide +kernel
  · decide +kernel

/-- C32, why the first restriction is there: constants that the stream prints with the same digits
cannot be told apart. -/
theorem C32_digits [Num K] (fmt : K → Txt) {a b : K} (h : fmt a = fmt b) (hab : a ≠ b) :
    ∃ e f : Expr K, Readable (fun _ => True) e ∧ Readable (fun _ => True) f ∧
      latex fmt .new false e = latex fmt .new false f ∧
      ∃ I ρ v, Val I ρ e v ∧ ¬ Val I ρ f v :=
  ⟨.const a, .const b, .const trivial, .const trivial, by simp [latex, h], .none, fun _ => none, a, .const,
    fun h => by cases h; exact hab rfl⟩

/-- C32, why the second restriction is there: two function symbols with the same id, one with the unknown
tag and one with a tag of the user, have the same text. -/
theorem C32_tags [Num K] (fmt : K → Txt) (i g : Nat) (h0 : g ≠ 0) (h1 : g ≠ 1) (a b : K) (hab : a ≠ b) :
    latex fmt .new false (.fsym i 0 : Expr K) = latex fmt .new false (.fsym i g) ∧
    ∃ I ρ v, Val I ρ (.fsym i 0 : Expr K) v ∧ ¬ Val I ρ (.fsym i g : Expr K) v := by
  refine ⟨by simp [latex, latexSym, Translator.new, h1], ⟨fun _ t => if t = 0 then some a else some b,
    fun _ _ _ => none, fun _ => False, fun _ _ _ => False, fun _ _ _ _ => False⟩, fun _ => none, a,
    .fsym rfl, ?_⟩
  intro h
  cases h with | fsym h => simp [h0] at h; exact hab h.symm

/-! ### C33 -/

/-- The translator after the calls `customize(e, s)` in the list, first call first. -/
def after (h : List (Expr K × Txt)) : Translator := h.foldl (fun t x => t.customize x.1 x.2) .new

/-- C33, variables: after any history a variable is printed with the last string given for it, or by its
default name. The claim does not have the restriction to strings that are not empty. -/
theorem C33_variable_partial (fmt : K → Txt) (h : List (Expr K × Txt)) (i : Nat) (p : Bool)
    (hne : lastFor (isVar i) h ≠ some []) :
    latex fmt (after h) p (.var i) = (lastFor (isVar i) h).getD (named " x_{" i) := by
  rw [latex, latexVar, after, vars_custom]
  cases hl : lastFor (isVar i) h with
  | none => simp [named, idTxt, orUnknown]
  | some s =>
    rw [hl] at hne
    exact orUnknown_of_ne (s := s) (fun h => hne (by rw [h]))

/-- C33, function symbols. -/
theorem C33_symbol_partial (fmt : K → Txt) (h : List (Expr K × Txt)) (i g : Nat) (p : Bool)
    (hne : lastFor (isSym i g) h ≠ some []) :
    latex fmt (after h) p (.fsym i g) =
      (lastFor (isSym i g) h).getD (named (if g = 1 then " v_{" else " u_{") i) := by
  rw [latex, latexSym, after, syms_custom]
  cases hl : lastFor (isSym i g) h with
  | none => by_cases hg : g = 1 <;> simp [named, idTxt, orUnknown, hg]
  | some s =>
    rw [hl] at hne
    exact orUnknown_of_ne (s := s) (fun h => hne (by rw [h]))

/-- C33: in a larger expression the text of each variable is part of the text. -/
theorem C33_variable_in_expr (fmt : K → Txt) (h : List (Expr K × Txt)) (i : Nat) (e : Expr K)
    (hs : Shows (.var i) e) (s : Txt) (hl : lastFor (isVar i) h = some s) (hne : s ≠ []) (p : Bool) :
    s <:+: latex fmt (after h) p e := by
  have h1 := C33_variable_partial fmt h i true (by rw [hl]; simpa using hne)
  rw [hl, Option.getD_some] at h1
  rw [← h1]
  exact latex_infix hs (fun p q => by rw [latex, latex]) p

/-- C33: in a larger expression the text of each function symbol is part of the text. -/
theorem C33_symbol_in_expr (fmt : K → Txt) (h : List (Expr K × Txt)) (i g : Nat) (e : Expr K)
    (hs : Shows (.fsym i g) e) (s : Txt) (hl : lastFor (isSym i g) h = some s) (hne : s ≠ []) (p : Bool) :
    s <:+: latex fmt (after h) p e := by
  have h1 := C33_symbol_partial fmt h i g true (by rw [hl]; simpa using hne)
  rw [hl, Option.getD_some] at h1
  rw [← h1]
  exact latex_infix hs (fun p q => by rw [latex, latex]) p

/-- C33: the text depends on nothing but the last string of each variable and function symbol that is
shown; in particular customisations of anything else have no effect. -/
theorem C33_nothing_else (fmt : K → Txt) (h h' : List (Expr K × Txt)) (e : Expr K) (p : Bool)
    (hv : ∀ i, Shows (.var i) e → lastFor (isVar i) h = lastFor (isVar i) h')
    (hs : ∀ i g, Shows (.fsym i g) e → lastFor (isSym i g) h = lastFor (isSym i g) h') :
    latex fmt (after h) p e = latex fmt (after h') p e :=
  latex_congr e (fun i hi => by rw [after, after, vars_custom, vars_custom, hv i hi])
    (fun i g hi => by rw [after, after, syms_custom, syms_custom, hs i g hi]) p

/-- A history: `x0` twice, a function symbol, an expression that cannot be customised. -/
def sample : List (Expr XRat × Txt) :=
  [(.var 0, "a".toList), (.fsym 0 0, "w".toList), (.var 0, "y".toList), (.const (some 2), "two".toList)]

example : lastFor (isVar 0) sample = some "y".toList ∧ lastFor (isSym 0 0) sample = some "w".toList ∧
    lastFor (isVar 1) sample = none ∧
    Shows (.var 0) (.bin .mult (.var 0) (.fsym 0 0) : Expr XRat) ∧
    latex showInt (after sample) false (.bin .mult (.var 0) (.bin .plus (.fsym 0 0) (.var 1))) =
      "y \\cdot (w +  x_{1} )".toList := by
  refine ⟨by decide, by decide, by decide, .binL .self, by decide +kernel⟩

/-- C33: a copy of a translator prints an expression whose variables and function symbols were never
customised as the original does. -/
theorem C33_copy_partial (fmt : K → Txt) (h : List (Expr K × Txt)) (e : Expr K) (p : Bool)
    (hv : ∀ i, Shows (.var i) e → lastFor (isVar i) h = none)
    (hs : ∀ i g, Shows (.fsym i g) e → lastFor (isSym i g) h = none) :
    latex fmt (after h).copy p e = latex fmt (after h) p e :=
  latex_congr e (fun i hi => by rw [after, vars_custom, hv i hi]; rfl)
    (fun i g hi => by rw [after, syms_custom, hs i g hi]; rfl) p

example : (∀ i, Shows (.var i) (.un (.fn .exp) (.var 1) : Expr XRat) → lastFor (isVar i) sample = none) ∧
    ∀ i g, Shows (.fsym i g) (.un (.fn .exp) (.var 1) : Expr XRat) → lastFor (isSym i g) sample = none := by
  refine ⟨?_, ?_⟩
  · intro i h
    cases h with | un h => cases h with | self => decide
  · intro i g h
    cases h with | un h => cases h

/-- C33, negation of the claim about copies: as soon as a variable was given a string other than its
default name (and not empty), a copy of the translator prints the variable differently. -/
theorem C33_copy_differs (fmt : K → Txt) (h : List (Expr K × Txt)) (i : Nat) (p : Bool) (s : Txt)
    (hl : lastFor (isVar i) h = some s) (hne : s ≠ []) (hd : s ≠ named " x_{" i) :
    latex fmt (after h).copy p (.var i) ≠ latex fmt (after h) p (.var i) := by
  rw [C33_variable_partial fmt h i p (by rw [hl]; simpa using hne), hl, latex, latexVar]
  intro h'
  refine hd ?_
  rw [Option.getD_some] at h'
  rw [← h']
  simp [Translator.copy, named, idTxt, orUnknown]

/-- C33, negation for empty strings: a variable customised to the empty string is printed as
`\chi_{unknown}`. -/
theorem C33_empty (fmt : K → Txt) (h : List (Expr K × Txt)) (i : Nat) (p : Bool)
    (hl : lastFor (isVar i) h = some []) :
    latex fmt (after h) p (.var i) = " \\chi_{\\mathrm{unknown}} ".toList := by
  rw [latex, latexVar, after, vars_custom, hl]; rfl

example : lastFor (isVar 3) ([(.var 3, []), (.var 2, ['a'])] : List (Expr XRat × Txt)) = some [] := by decide

end VM.Props
