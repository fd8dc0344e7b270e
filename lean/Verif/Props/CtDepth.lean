import Verif.Ct.DepthLemmas
/-
Property C111: how deep compilers have to nest templates.
-/
namespace VM.Props
open VM.Spec VM.Ct

/-- C111.  `gcd<a, b>` nests at most 92 instantiations, and for some numbers it does. -/
theorem C111_gcd : (∀ a b, InLong a → InLong b → gcdDepth a b ≤ 92) ∧
    ∃ a b, InLong a ∧ InLong b ∧ gcdDepth a b = 92 := by
  refine ⟨fun a b _ hb => gcdDepth_le a hb, (Nat.fib 91 : Nat), (Nat.fib 92 : Nat), ?_, ?_, ?_⟩
  · decide +kernel
  · decide +kernel
  · have h0 : ((Nat.fib 92 : Nat) : Int) ≠ 0 := by decide +kernel
    have h1 : ((Nat.fib 91 : Nat) : Int).tmod ((Nat.fib 92 : Nat) : Int) = (Nat.fib 91 : Nat) := by decide +kernel
    rw [gcdDepth_eq, if_neg h0, h1, gcdDepth_fib 89]

/-- C111.  `simplify<E>` nests at most two instantiations for each node of `E` and 91 more, whether it compiles or not. -/
theorem C111_simplify {cv : Conv} (hcv : GivesInt cv) (e : CtExpr) (he : Longs e) :
    simplifyDepth cv e ≤ 2 * nodes e + 91 := by
  have h1 := simplifyDepthN_le hcv (Ct.weight e) he
  have h2 := weight_lt_nodes e
  rw [simplifyDepth]
  omega

/-- C111.  `simplify` of a derivative: four times the square of the number of nodes, and 91 more. -/
theorem C111_derivative {cv : Conv} (hcv : GivesInt cv) (i : Nat) (e d : CtExpr) (he : Longs e)
    (h : ctDiff i e = some d) : simplifyDepth cv d ≤ 4 * nodes e ^ 2 + 91 := by
  have h1 := C111_simplify hcv d (diff_longs he h)
  have h2 := diff_nodes h
  omega

/-- C111.  It cannot do with less than proportional: `x + x + ... + x` needs one for each addition although there is nothing
to simplify. -/
theorem C111_linear (cv : Conv) (n : Nat) :
    nodes (ctSums n) = 2 * n + 1 ∧ ctSimplify cv (ctSums n) = some (ctSums n) ∧ simplifyDepth cv (ctSums n) = n + 2 := by
  have hc : ∀ n, cands (ctSums n +' .var 0) = [] := by
    intro n
    cases n <;> rfl
  have hi : ∀ n, simplifyImpl cv (ctSums n) = some (0, ctSums n) := by
    intro n
    induction n with
    | zero => rfl
    | succ n ih => rw [ctSums, simplifyImpl, if_pos (hc n), ih]; rfl
  have hd : ∀ n, implDepth cv (ctSums n) = n + 1 := by
    intro n
    induction n with
    | zero => rfl
    | succ n ih => rw [ctSums, implDepth, if_pos (hc n), ih]; simp [implDepth]; omega
  refine ⟨?_, ?_, ?_⟩
  · induction n with
    | zero => rfl
    | succ n ih => simp only [ctSums, nodes, ih]; omega
  · rw [ctSimplify_eq, hi]; rfl
  · rw [simplifyDepth_eq, hi, hd]; simp; omega

/-- C111.  What is counted: in `simplify<E>`, `simplify_impl<E>` and the next turn of the loop; in a specialisation of
`simplify_impl`, the `gcd` whose result it divides by, and nothing in specialisations without; in `gcd`, the
instantiations without which there is no result. -/
theorem C111_counted (cv : Conv) :
    (∀ e, simplifyDepth cv e = 1 + max (implDepth cv e) (match simplifyImpl cv e with
      | some p => if p.1 = 0 then 0 else simplifyDepth cv p.2
      | none => 0)) ∧
    (∀ s ∈ specs, ∀ e, s.pat.fits e = true → if s.pat ∈ gcdPats then
        ∀ e', s.type cv e = some e' → ∃ a b g, gcdArgs cv e = some (a, b) ∧ gcdC cv a b = some g ∧
          e' = ♯(a.tdiv g) /' ♯(b.tdiv g)
      else ∀ cv' : Conv, s.type cv' e = s.type cv e) ∧
    ∀ k a b, (gcdDepth a b ≤ k → gcdN cv k a b = gcdC cv a b) ∧ (k < gcdDepth a b → gcdN cv k a b = none) :=
  ⟨simplifyDepth_eq cv, fun _ hs _ hm => spec_gcd hs hm, gcdN_depth cv⟩

/-! ### Concrete cases -/

theorem givesInt_narrow : GivesInt narrow := by
  intro x y h
  simp only [narrow, Option.some.injEq] at h
  simp only [InInt]
  omega

theorem givesInt_strict : GivesInt strict := by
  intro x y h
  simp only [strict] at h
  split at h
  · cases h; assumption
  · cases h

/-- GCC allows 900 levels, C++11 recommends 1024: enough for 404 and 466 nodes. -/
example (e : CtExpr) (he : Longs e) :
    (nodes e ≤ 404 → simplifyDepth narrow e ≤ 900) ∧ (nodes e ≤ 466 → simplifyDepth narrow e ≤ 1024) := by
  have := C111_simplify givesInt_narrow e he
  omega

example : Longs (♯(2 ^ 40) /' ♯6 +' .var 0) := ⟨⟨(by decide : InLong (2 ^ 40)), (by decide : InLong 6)⟩, trivial⟩

/-- `4/6 + x`: `simplify`, in it `simplify_impl` of the sum, in it of the quotient, in it four times `gcd`. -/
example : simplifyDepth narrow (♯4 /' ♯6 +' .var 0) = 7 := by
  have h : gcdDepth 4 6 = 4 := by
    rw [gcdDepth_eq, gcdDepth_eq, gcdDepth_eq, gcdDepth_eq]; rfl
  have hi : implDepth narrow (♯4 /' ♯6 +' .var 0) = 2 + gcdDepth 4 6 := by
    have h1 : cands (♯4 /' ♯6 +' .var 0) = [] := rfl
    have h2 : implDepth narrow (♯4 /' ♯6) = 1 + gcdDepth 4 6 := rfl
    rw [implDepth, if_pos h1, h2]
    simp only [implDepth]
    omega
  have hs : simplifyImpl narrow (♯4 /' ♯6 +' .var 0) = some (0, ♯2 /' ♯3 +' .var 0) := by decide +kernel
  rw [simplifyDepth_eq, hi, hs, h]; rfl

end VM.Props
