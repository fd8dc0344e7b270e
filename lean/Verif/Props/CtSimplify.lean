import Verif.Ct.EvalLemmas
import Mathlib.Tactic.NormNum
/-
Properties C34, C35, C36 and C40: compile-time simplification, rational arithmetic and evaluation.

`SimplifyAny cv e e'` is `simplify` with an arbitrary choice among the matching specialisations;
`ctSimplify cv e` is `simplify` with the C++ rule (the most specialised one, none if there is no such).
`narrow` is what happens to a `long` stored in a `static const int`; `strict` refuses to store a number that
does not fit, so `strict` in a hypothesis means "no number left the range of int".
-/
namespace VM.Props
open VM.Ct VM.Spec

variable {F : Type*} [Field F] [CharZero F]

/-! ### C34 -/

/-- Whichever specialisations are taken, the result has the value of the expression wherever that is
defined, as long as no intermediate numerator or denominator leaves the range of `int`.
Missing for the full C34: nothing can be said when one does, see `C34_truncation`. -/
theorem C34_value_partial {e e' : CtExpr} (h : SimplifyAny strict e e') : SameVal F e e' :=
  fun _ _ _ => simplifyAny_sound strict_exact h

/-- The same for the specialisation that C++ selects and the conversion that compilers perform. -/
theorem C34_selected_partial {e e' : CtExpr} (h : ctSimplify strict e = some e') :
    ctSimplify narrow e = some e' ∧ SimplifyAny strict e e' ∧ SameVal F e e' :=
  have h' := ctSimplify_any _ le_rfl h
  ⟨ctSimplify_ext strict_narrow h, h', C34_value_partial h'⟩

/-- Without division there is no condition: the value is preserved whatever is selected, and no division
appears. -/
theorem C34_division_free (cv : Conv) {e e' : CtExpr} (hd : DivFree e) (h : SimplifyAny cv e e') :
    SameVal F e e' ∧ DivFree e' :=
  ⟨C34_value_partial (simplifyAny_divFree h hd).1, (simplifyAny_divFree (cv' := cv) h hd).2⟩

/-- What the compiler selects is one of the choices. -/
theorem C34_selected_is_choice (cv : Conv) {e e' : CtExpr} (h : ctSimplify cv e = some e') :
    SimplifyAny cv e e' := ctSimplify_any _ le_rfl h

/-- C34 is false of the code: (65536/3)*(65536/5) simplifies to 0. -/
theorem C34_truncation : ∃ e e', ctSimplify narrow e = some e' ∧
    (∀ v φ : Nat → F, CVal v φ e (4294967296 / 15)) ∧ ¬ SameVal F e e' := by
  have hv : ∀ v φ : Nat → F, CVal v φ ((♯65536 /' ♯3) *' (♯65536 /' ♯5)) (4294967296 / 15) := by
    intro v φ
    refine ⟨by simp [CDefined, cval], ?_⟩
    simp only [cval]; push_cast; norm_num
  refine ⟨(♯65536 /' ♯3) *' (♯65536 /' ♯5), ♯0, by decide +kernel, hv, fun hs => ?_⟩
  have := (hs (fun _ => 0) (fun _ => 0) _ (hv _ _)).2
  simp only [cval] at this
  norm_num at this

example : ctSimplify strict (((♯0 -' .var 0) +' .var 1) *' (♯2 /' ♯4 +' ♯1)) =
    some ((.var 1 -' .var 0) *' (♯3 /' ♯2)) := by decide +kernel
example : SimplifyAny strict (♯0 +' (♯0 -' .var 2)) (♯0 -' .var 2) :=
  .turn (n := 0) (.special (s := specs[1]) (by simp [specs, specsPlus]) (by decide) rfl)
    (.stop (e' := ♯0 -' .var 2) (.general (n := 0) (m := 0) _ (.const 0) (.var 2)))
example : DivFree ((♯0 -' .var 0) +' .var 1) ∧
    ctSimplify narrow ((♯0 -' .var 0) +' .var 1) = some (.var 1 -' .var 0) :=
  ⟨⟨⟨trivial, trivial⟩, trivial⟩, by decide +kernel⟩

/-! ### C35 -/

/-- The loop cannot turn forever, whichever specialisations are taken and however numbers are converted. -/
theorem C35_terminates (cv : Conv) (f : Nat → CtExpr) :
    ¬ ∀ i, ∃ n, n ≠ 0 ∧ ImplAny cv (f i) n (f (i + 1)) := by
  intro h
  have key : ∀ i, weight (f i) + i ≤ weight (f 0) := by
    intro i
    induction i with
    | zero => simp
    | succ i ih =>
      obtain ⟨n, hn, hi⟩ := h i
      have := implAny_weight hi
      omega
  have := key (weight (f 0) + 1)
  omega

/-- It turns less than twice as often as the expression has nodes. -/
theorem C35_bound (cv : Conv) (f : Nat → CtExpr) (k : Nat)
    (h : ∀ i, i < k → ∃ n, n ≠ 0 ∧ ImplAny cv (f i) n (f (i + 1))) : k < 2 * nodes (f 0) := by
  have key : ∀ i, i ≤ k → weight (f i) + i ≤ weight (f 0) := by
    intro i
    induction i with
    | zero => simp
    | succ i ih =>
      intro hi
      obtain ⟨n, hn, hi'⟩ := h i (by omega)
      have := implAny_weight hi'
      have := ih (by omega)
      omega
  have h1 := key k le_rfl
  have h2 := weight_pos (f k)
  have h3 : ∀ e : CtExpr, weight e ≤ 2 * nodes e ∧ 0 < nodes e := by
    intro e
    induction e with
    | bin l op r ihl ihr => cases op <;> simp only [weight, nodes] <;> omega
    | _ => simp [weight, nodes]
  have := h3 (f 0)
  omega

/-- The loop that C++ runs needs no bound: the model's function satisfies the defining equation of
`simplify`, and the model's gcd that of `gcd`. -/
theorem C35_recursions (cv : Conv) :
    (∀ e, ctSimplify cv e = (simplifyImpl cv e).bind fun p => if p.1 = 0 then some e else ctSimplify cv p.2) ∧
    ∀ a b, gcdC cv a b = if b = 0 then (if a = 0 then none else cv a)
      else if a = -2 ^ 63 ∧ b = -1 then none else gcdC cv b (a.tmod b) :=
  ⟨ctSimplify_eq cv, gcdC_eq cv⟩

example : ∃ f : Nat → CtExpr, f 0 = .var 0 -' (♯0 -' (.var 1 *' ♯1)) ∧
    ∀ i, i < 2 → ∃ n, n ≠ 0 ∧ ImplAny narrow (f i) n (f (i + 1)) := by
  refine ⟨fun i => match i with
    | 0 => .var 0 -' (♯0 -' (.var 1 *' ♯1)) | 1 => .var 0 +' (.var 1 *' ♯1) | _ => .var 0 +' .var 1,
    rfl, fun i hi => ⟨1, one_ne_zero, ?_⟩⟩
  match i with
  | 0 => exact simplifyImpl_any (by decide +kernel)
  | 1 => exact simplifyImpl_any (by decide +kernel)
  | _ + 2 => omega

/-! ### C36 -/

/-- Sums of fractions are exact and in lowest terms (or an integer), if numerator and denominator before
reduction fit into `int`. -/
theorem C36_sum_partial (a b c d : Int) (hb : b ≠ 0) (hd : d ≠ 0)
    (sa : a.natAbs ≤ 2 ^ 31) (sb : b.natAbs ≤ 2 ^ 31) (sc : c.natAbs ≤ 2 ^ 31) (sd : d.natAbs ≤ 2 ^ 31)
    (hn : (a * d + c * b).natAbs < 2 ^ 31) (hm : (b * d).natAbs < 2 ^ 31) :
    ∃ e', ctSimplify narrow ((♯a /' ♯b) +' (♯c /' ♯d)) = some e' ∧
      (IsInt e' ((a : ℚ) / b + c / d) ∨ IsReduced e' ((a : ℚ) / b + c / d)) := by
  have hbd : b * d ≠ 0 := mul_ne_zero hb hd
  have he := impl_plus strict a b c d
  rw [cmul_of sa sd, cmul_of sc sb, cmul_of sb sd, cadd_of hn] at he
  have hq : (a : ℚ) / b + c / d = ((a * d + c * b : Int) : ℚ) / ((b * d : Int) : ℚ) := by
    have : (b : ℚ) ≠ 0 := by exact_mod_cast hb
    have : (d : ℚ) ≠ 0 := by exact_mod_cast hd
    push_cast; field_simp
  rw [hq]
  exact simplify_frac hn hm hbd he

/-- Differences. -/
theorem C36_difference_partial (a b c d : Int) (hb : b ≠ 0) (hd : d ≠ 0)
    (sa : a.natAbs ≤ 2 ^ 31) (sb : b.natAbs ≤ 2 ^ 31) (sc : c.natAbs ≤ 2 ^ 31) (sd : d.natAbs ≤ 2 ^ 31)
    (hn : (a * d - c * b).natAbs < 2 ^ 31) (hm : (b * d).natAbs < 2 ^ 31) :
    ∃ e', ctSimplify narrow ((♯a /' ♯b) -' (♯c /' ♯d)) = some e' ∧
      (IsInt e' ((a : ℚ) / b - c / d) ∨ IsReduced e' ((a : ℚ) / b - c / d)) := by
  have hbd : b * d ≠ 0 := mul_ne_zero hb hd
  have he := impl_minus strict a b c d
  rw [cmul_of sa sd, cmul_of sc sb, cmul_of sb sd, csub_of hn] at he
  have hq : (a : ℚ) / b - c / d = ((a * d - c * b : Int) : ℚ) / ((b * d : Int) : ℚ) := by
    have : (b : ℚ) ≠ 0 := by exact_mod_cast hb
    have : (d : ℚ) ≠ 0 := by exact_mod_cast hd
    push_cast; field_simp
  rw [hq]
  exact simplify_frac hn hm hbd he

/-- Products, if neither numerator is 1 (see `C36_unit_fraction_rejected`). -/
theorem C36_product_partial (a b c d : Int) (hb : b ≠ 0) (hd : d ≠ 0) (ha1 : a ≠ 1) (hc1 : c ≠ 1)
    (sa : a.natAbs ≤ 2 ^ 31) (sb : b.natAbs ≤ 2 ^ 31) (sc : c.natAbs ≤ 2 ^ 31) (sd : d.natAbs ≤ 2 ^ 31)
    (hn : (a * c).natAbs < 2 ^ 31) (hm : (b * d).natAbs < 2 ^ 31) :
    ∃ e', ctSimplify narrow ((♯a /' ♯b) *' (♯c /' ♯d)) = some e' ∧
      (IsInt e' ((a : ℚ) / b * (c / d)) ∨ IsReduced e' ((a : ℚ) / b * (c / d))) := by
  have hbd : b * d ≠ 0 := mul_ne_zero hb hd
  have he := impl_mult strict a b c d ha1 hc1
  rw [cmul_of sa sc, cmul_of sb sd] at he
  have hq : (a : ℚ) / b * (c / d) = ((a * c : Int) : ℚ) / ((b * d : Int) : ℚ) := by
    have : (b : ℚ) ≠ 0 := by exact_mod_cast hb
    have : (d : ℚ) ≠ 0 := by exact_mod_cast hd
    push_cast; field_simp
  rw [hq]
  exact simplify_frac hn hm hbd he

/-- Quotients. -/
theorem C36_quotient_partial (a b c d : Int) (hb : b ≠ 0) (hd : d ≠ 0) (hc : c ≠ 0)
    (sa : a.natAbs ≤ 2 ^ 31) (sb : b.natAbs ≤ 2 ^ 31) (sc : c.natAbs ≤ 2 ^ 31) (sd : d.natAbs ≤ 2 ^ 31)
    (hn : (a * d).natAbs < 2 ^ 31) (hm : (b * c).natAbs < 2 ^ 31) :
    ∃ e', ctSimplify narrow ((♯a /' ♯b) /' (♯c /' ♯d)) = some e' ∧
      (IsInt e' ((a : ℚ) / b / (c / d)) ∨ IsReduced e' ((a : ℚ) / b / (c / d))) := by
  have hbd : b * c ≠ 0 := mul_ne_zero hb hc
  have he := impl_div strict a b c d
  rw [cmul_of sa sd, cmul_of sb sc] at he
  have hq : (a : ℚ) / b / (c / d) = ((a * d : Int) : ℚ) / ((b * c : Int) : ℚ) := by
    have : (b : ℚ) ≠ 0 := by exact_mod_cast hb
    have : (c : ℚ) ≠ 0 := by exact_mod_cast hc
    have : (d : ℚ) ≠ 0 := by exact_mod_cast hd
    push_cast; field_simp
  rw [hq]
  exact simplify_frac hn hm hbd he

/-- A product of fractions with a numerator 1 does not compile: two specialisations match and none is more
specialised. -/
theorem C36_unit_fraction_rejected (cv : Conv) (a b c d : Int) (h : a = 1 ∨ c = 1) :
    ctSimplify cv ((♯a /' ♯b) *' (♯c /' ♯d)) = none := by
  rw [ctSimplify_eq, impl_mult_unit cv a b c d h]; rfl

/-- A product that does not fit into `int` is wrong without notice, even if the reduced result would
fit: 65536/3 * 65536/65536 gives 0. -/
theorem C36_truncation : ctSimplify narrow ((♯65536 /' ♯3) *' (♯65536 /' ♯5)) = some ♯0 ∧
    ctSimplify narrow ((♯65536 /' ♯3) *' (♯65536 /' ♯65536)) = some ♯0 ∧
    ctSimplify narrow ((♯65537 /' ♯3) *' (♯65537 /' ♯5)) = some (♯43691 /' ♯5) := by
  refine ⟨?_, ?_, ?_⟩ <;> decide +kernel

example : ctSimplify narrow ((♯3 /' ♯4) +' (♯5 /' ♯(-6))) = some (♯(-1) /' ♯12) ∨
    ctSimplify narrow ((♯3 /' ♯4) +' (♯5 /' ♯(-6))) = some (♯1 /' ♯(-12)) := by decide +kernel
example : ctSimplify narrow ((♯3 /' ♯4) /' (♯9 /' ♯16)) = some (♯4 /' ♯3) := by decide +kernel

/-! ### C40 -/

/-- If evaluation compiles and no number left the range of `int`, then the expression is defined at the
vector and the result is an integer or a fraction with exactly that value.
Missing for the full C40: the fraction need not be reduced (`C40_not_reduced`), evaluation need not compile
(`C40_rejected`), and it can be wrong when numbers do not fit into `int` (`C40_truncation`). -/
theorem C40_exact_partial {v : List Int} {e e' : CtExpr} (h : ctEval strict v e = some e') :
    ctEval narrow v e = some e' ∧
    ∃ q : ℚ, CVal (point ℚ v) (fun _ => 0) e q ∧ (IsInt e' q ∨ IsFrac e' q) := by
  obtain ⟨q, h1, h2⟩ := ctEval_val (F := ℚ) (fun _ => 0) h
  exact ⟨ctEval_ext strict_narrow h, q, h1, evald_isFrac (ctEval_evald h) h2⟩

/-- The fraction is reduced unless the expression is a quotient of two parts with integer values. -/
theorem C40_reduced_partial {v : List Int} {l r e' : CtExpr} {op : COp}
    (h : ctEval strict v (.bin l op r) = some e')
    (hop : op = .div → ¬ ∃ a b : Int, ctEval strict v l = some (.const a) ∧ ctEval strict v r = some (.const b)) :
    ∃ q : ℚ, CVal (point ℚ v) (fun _ => 0) (.bin l op r) q ∧ (IsInt e' q ∨ IsReduced e' q) := by
  obtain ⟨q, h1, h2⟩ := ctEval_val (F := ℚ) (fun _ => 0) h
  refine ⟨q, h1, ?_⟩
  simp only [ctEval, Option.bind_eq_some_iff] at h
  obtain ⟨l', hl, r', hr, h⟩ := h
  rcases ctSimplify_simple (ctEval_evald hl).simple (ctEval_evald hr).simple h with
    ⟨k, rfl⟩ | ⟨x, y, hxy⟩ | ⟨rfl, a, b, rfl, rfl, -⟩
  · exact .inl ⟨k, rfl, h2.2⟩
  · right
    obtain ⟨n, d, n', d', g, -, -, rfl, hg, -, -, hc⟩ := frac_exact strict_exact hxy
    refine ⟨n', d', rfl, ?_, hc, h2.2⟩
    have := h2.1
    simpa [CDefined, cval] using this
  · exact absurd ⟨a, b, hl, hr⟩ (hop rfl)

/-- C40 is false of the code in three ways.  5/x at x = 10 is left as 5/10. -/
theorem C40_not_reduced : ctEval narrow [10] (♯5 /' .var 0) = some (♯5 /' ♯10) := by decide +kernel

/-- x - y at (5, 0) and x * (y / z) at (1, 1, 2) do not compile. -/
theorem C40_rejected : ctEval narrow [5, 0] (.var 0 -' .var 1) = none ∧
    ctEval narrow [1, 1, 2] (.var 0 *' (.var 1 /' .var 2)) = none := by
  constructor <;> decide +kernel

/-- x - y at (c, 0) does not compile for any integer c but 1 and -1. -/
theorem C40_minus_zero_rejected (cv : Conv) (c : Int) (h1 : c ≠ 1) (h2 : c ≠ -1) :
    ctEval cv [c, 0] (.var 0 -' .var 1) = none := by
  have : simplifyImpl cv (♯c -' ♯0) = none := by
    unfold simplifyImpl; select [h1.symm, h2.symm]
  have h : ctSimplify cv (♯c -' ♯0) = none := by rw [ctSimplify_eq, this]; rfl
  exact h

/-- (x/3)*(x/5) at 65536 gives 0. -/
theorem C40_truncation : ctEval narrow [65536] ((.var 0 /' ♯3) *' (.var 0 /' ♯5)) = some ♯0 ∧
    CVal (point ℚ [65536]) (fun _ => 0) ((.var 0 /' ♯3) *' (.var 0 /' ♯5)) (4294967296 / 15) := by
  refine ⟨by decide +kernel, by simp [CDefined, cval], ?_⟩
  simp [cval, point]; norm_num

/-- The test suite's "complicated beast" at (4, 6, 8). -/
example : ctEval strict [4, 6, 8]
    ((.var 0 +' ♯5) /' ♯7 -' (.var 1 /' .var 2 +' .var 0 *' ♯5)) = some (♯545 /' ♯(-28)) := by
  decide +kernel

end VM.Props
