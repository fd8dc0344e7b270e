import Verif.Ct.NodesLemmas
import Verif.Ct.AddendsLemmas
/-
Property C116: how large the types of compile-time results are.
-/
namespace VM.Props
open VM.Ct VM.Spec

/-- C116.  `simplify` never enlarges, whichever of the matching rules are applied. -/
theorem C116_simplify {cv : Conv} {e e' : CtExpr} (h : SimplifyAny cv e e') : nodes e' ≤ nodes e :=
  simplifyAny_nodes h

/-- x * 1 + (y - 0) becomes x + y. -/
example : SimplifyAny strict ((.var 0 *' ♯1) +' (.var 1 -' ♯0)) (.var 0 +' .var 1) :=
  ctSimplify_any _ le_rfl rfl

/-- C116.  The derivative has at most twice the square of the number of nodes, also once it is simplified. -/
theorem C116_diff {cv : Conv} {i : Nat} {e d : CtExpr} (h : ctDiff i e = some d) :
    nodes d ≤ 2 * nodes e ^ 2 ∧ ∀ d', SimplifyAny cv d d' → nodes d' ≤ 2 * nodes e ^ 2 :=
  ⟨diff_nodes h, fun _ hd => (simplifyAny_nodes hd).trans (diff_nodes h)⟩

/-- `x * (x * (... * x))` with `n` multiplications. -/
def ctFactors : Nat → CtExpr
  | 0 => .var 0
  | n + 1 => .var 0 *' ctFactors n

/-- C116.  The square is needed: a product of `n + 1` factors has `2 n + 1` nodes and its derivative
`n^2 + 5 n + 1`. -/
theorem C116_diff_sharp (n : Nat) : nodes (ctFactors n) = 2 * n + 1 ∧
    ∃ d, ctDiff 0 (ctFactors n) = some d ∧ nodes d = n ^ 2 + 5 * n + 1 := by
  have h1 : ∀ n, nodes (ctFactors n) = 2 * n + 1 := by
    intro n
    induction n with
    | zero => rfl
    | succ n ih => simp only [ctFactors, nodes, ih]; omega
  refine ⟨h1 n, ?_⟩
  induction n with
  | zero => exact ⟨♯1, rfl, rfl⟩
  | succ n ih =>
    obtain ⟨d, hd, hn⟩ := ih
    refine ⟨(♯1 *' ctFactors n) +' (.var 0 *' d), ?_, ?_⟩
    · simp [ctFactors, ctDiff, hd]
    · simp only [nodes, h1, hn]; ring

/-- C116.  Substituting multiplies the numbers of nodes at most. -/
theorem C116_substitute (s r e : CtExpr) : nodes (ctSubst s r e) ≤ nodes e * nodes r := ctSubst_nodes s r e

/-- C116.  Coefficients and what is left after dropping terms are not larger than the expanded expression. -/
theorem C116_coefficient {cv : Conv} {f e c : CtExpr} :
    (coefficient f e = some c → nodes c ≤ nodes (expand e)) ∧
    (dropTerms cv f e = some c → nodes c ≤ nodes (expand e)) := by
  refine ⟨coefImpl_nodes f, fun h => ?_⟩
  have h1 := ctSimplify_nodes h
  have h2 := ctSubst_nodes f ♯0 (expand e)
  simp only [nodes, Nat.mul_one] at h2
  omega

/-- The coefficient of x in x*(y+1) + 2 is y + 1, up to trivial operations. -/
example : (coefficient (.var 0) ((.var 0 *' (.var 1 +' ♯1)) +' ♯2)).isSome := by
  simp [coefficient, expand, expandE, expandF, hasPM, coefImpl]

/-- C116.  The integral has at most `2 (A + B) + 7` nodes for each node of the expanded integrand, where `A` and `B`
are the numbers of nodes of the bounds. -/
theorem C116_integrate {cv : Conv} {a b x e r : CtExpr} (h : ctIntegrate cv a b e x = some r) :
    nodes r ≤ nodes (expand e) * (2 * (nodes a + nodes b) + 7) :=
  ctIntegrate_nodes h

/-- The same in terms of the integrand itself, if it has no divisions. -/
theorem C116_integrate_divFree {cv : Conv} {a b x e r : CtExpr} (hd : DivFree e)
    (h : ctIntegrate cv a b e x = some r) :
    nodes r < 2 * atomCount e * (2 * (nodes a + nodes b) + 7) := by
  have h1 := ctIntegrate_nodes h
  have h2 : nodes (expand e) + 1 = 2 * atomCount e := by
    rw [← expand_atomCount.1 e]
    exact nodes_expanded (expand_shape.1 e) (expand_divFree.1 e hd)
  rw [← h2, Nat.add_mul]
  omega

/-- C116.  The bound is attained: the integral of x from y to z is z*z/2 - y*y/2. -/
theorem C116_integrate_sharp : ∃ a b x e r : CtExpr, ctIntegrate strict a b e x = some r ∧
    nodes r = nodes (expand e) * (2 * (nodes a + nodes b) + 7) :=
  ⟨.var 1, .var 2, .var 0, .var 0, ((.var 2 *' .var 2) /' ♯2) -' ((.var 1 *' .var 1) /' ♯2), rfl, by
    simp [expand, expandE, nodes]⟩

end VM.Props
