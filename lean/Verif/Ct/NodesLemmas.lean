import Verif.Ct.DepthLemmas
import Verif.Ct.IntegrateLemmas
/-
Bounds for the number of nodes of compile-time results, for C116.
-/
namespace VM.Ct
open VM.Spec

theorem nodes_pos (e : CtExpr) : 1 ≤ nodes e := by cases e <;> simp [nodes]

theorem frac_nodes {cv : Conv} {x y : CExp} {e : CtExpr} (h : frac cv x y = some e) : nodes e = 3 := by
  obtain ⟨n, d, n₁, d₁, g, n', d', h1, h2, h3, h4, h5, h6, h7, rfl⟩ := frac_some.1 h
  rfl

theorem spz_nodes {cv : Conv} {s : Spz} {e e' : CtExpr} (hs : s ∈ specs) (hm : s.pat.fits e = true) :
    s.type cv e = some e' → nodes e' ≤ nodes e := by
  simp only [specs, List.mem_append] at hs
  obtain ((hs | hs) | hs) | hs := hs
  all_goals revert hm; revert hs
  all_goals intro _ _
  all_goals per_rule
  all_goals
    intro ht
    dsimp only at ht
  all_goals try (simp at ht; done)
  all_goals first
    | (rw [frac_nodes ht]; simp only [nodes]; omega)
    | (cases ht
       simp only [nodes]
       omega)
    | (simp only [Option.map_eq_some_iff] at ht
       obtain ⟨c, -, rfl⟩ := ht
       simp only [nodes]
       omega)
    | (simp only [Option.bind_eq_some_iff, Option.some.injEq] at ht
       obtain ⟨g, hg, a', -, b', -, rfl⟩ := ht
       simp only [nodes]
       omega)

theorem impl_nodes {cv : Conv} {e e' : CtExpr} {n : Nat} (h : ImplAny cv e n e') : nodes e' ≤ nodes e := by
  induction h with
  | const | var | fsym => exact le_rfl
  | general op _ _ ihl ihr => simp only [nodes]; omega
  | special hs hm ht => exact spz_nodes hs hm ht

theorem simplifyAny_nodes {cv : Conv} {e e' : CtExpr} (h : SimplifyAny cv e e') : nodes e' ≤ nodes e := by
  induction h with
  | stop => exact le_rfl
  | turn h1 _ ih => exact ih.trans (impl_nodes h1)

theorem ctSimplify_nodes {cv : Conv} {e e' : CtExpr} (h : ctSimplify cv e = some e') : nodes e' ≤ nodes e :=
  simplifyAny_nodes (ctSimplify_any _ le_rfl h)

theorem ctSubst_nodes (s r : CtExpr) : ∀ e : CtExpr, nodes (ctSubst s r e) ≤ nodes e * nodes r
  | .const n => by
    have := nodes_pos r
    rw [ctSubst]; split <;> simp only [nodes] <;> omega
  | .var n => by
    have := nodes_pos r
    rw [ctSubst]; split <;> simp only [nodes] <;> omega
  | .fsym n => by
    have := nodes_pos r
    rw [ctSubst]; split <;> simp only [nodes] <;> omega
  | .bin l op q => by
    have h1 := ctSubst_nodes s r l
    have h2 := ctSubst_nodes s r q
    have := nodes_pos r
    rw [ctSubst]
    split
    · simp only [nodes]
      exact Nat.le_mul_of_pos_left _ (by omega)
    · simp only [nodes, Nat.add_mul]
      omega

theorem coefImpl_nodes (f : CtExpr) : ∀ {e c : CtExpr}, coefImpl f e = some c → nodes c ≤ nodes e
  | .const n, c, h => by
    unfold coefImpl at h; split at h
    · split at h <;> cases h; simp [nodes]
    · cases h; simp [nodes]
  | .var n, c, h => by
    unfold coefImpl at h; split at h
    · split at h <;> cases h; simp [nodes]
    · cases h; simp [nodes]
  | .fsym n, c, h => by
    unfold coefImpl at h; split at h
    · split at h <;> cases h; simp [nodes]
    · cases h; simp [nodes]
  | .bin l op r, c, h => by
    unfold coefImpl at h; split at h
    · split at h <;> cases h; simp [nodes]
    · cases op
      · simp only [Option.bind_eq_some_iff, Option.some.injEq] at h
        obtain ⟨a, ha, b, hb, rfl⟩ := h
        have := coefImpl_nodes f ha
        have := coefImpl_nodes f hb
        simp only [nodes]; omega
      · simp only [Option.bind_eq_some_iff, Option.some.injEq] at h
        obtain ⟨a, ha, b, hb, rfl⟩ := h
        have := coefImpl_nodes f ha
        have := coefImpl_nodes f hb
        simp only [nodes]; omega
      · simp only at h
        split_ifs at h with h1 h2 h3
        · cases h; rw [← h1.1]; simp only [nodes]; omega
        · cases h; simp only [nodes]; omega
        · cases h; simp only [nodes]; omega
        · simp only [Option.bind_eq_some_iff] at h
          obtain ⟨a, -, b, -, h⟩ := h
          split at h
          · cases h; simp only [nodes]; omega
          all_goals
            simp only [Option.bind_eq_some_iff, Option.some.injEq] at h
            obtain ⟨c, hc, rfl⟩ := h
            have := coefImpl_nodes f hc
            simp only [nodes]; omega
      · simp only [Option.bind_eq_some_iff, Option.some.injEq] at h
        obtain ⟨a, ha, rfl⟩ := h
        have := coefImpl_nodes f ha
        simp only [nodes]; omega

theorem powC_nodes (t : CtExpr) (n : Nat) (h : 1 ≤ n) : nodes (powC t n) + 1 = n * (nodes t + 1) := by
  induction n using Nat.strong_induction_on with
  | _ n ih =>
    rw [powC_eq]
    split_ifs with h0 h1 h2
    · omega
    · subst h1; omega
    · subst h2; simp only [nodes]; omega
    · have i1 := ih (n / 2) (by omega) (by omega)
      have i2 := ih (n - n / 2) (by omega) (by omega)
      have h3 : n * (nodes t + 1) = n / 2 * (nodes t + 1) + (n - n / 2) * (nodes t + 1) := by
        rw [← Nat.add_mul]; congr 1; omega
      simp only [nodes]
      omega

theorem monomial_nodes {t e : CtExpr} {k : Int} {n : Nat} (hk : k + 1 ≤ n) (hn : 1 ≤ n)
    (h : monomial t k = some e) : nodes e ≤ n * (nodes t + 1) + 1 := by
  have h4 : nodes t + 1 ≤ n * (nodes t + 1) := Nat.le_mul_of_pos_left _ hn
  have ht := nodes_pos t
  unfold monomial at h
  split_ifs at h with h0 h1
  · cases h; omega
  · cases h
    rcases Nat.eq_zero_or_pos (k + 1).toNat with h2 | h2
    · rw [h2]
      rw [powC_eq, if_pos rfl]
      simp only [nodes]
      omega
    · have h3 := powC_nodes t _ h2
      have h5 : (k + 1).toNat * (nodes t + 1) ≤ n * (nodes t + 1) := Nat.mul_le_mul_right _ (by omega)
      simp only [nodes]
      omega

theorem polyDegree_nodes (x : CtExpr) : ∀ {e : CtExpr} {k : Int}, polyDegree x e = some k →
    2 * k ≤ nodes e + 1 ∧ -(nodes e + 1 : Int) ≤ 2 * k
  | .const n, k, h => by
    unfold polyDegree at h; split at h <;> cases h <;> simp [nodes]
  | .var n, k, h => by
    unfold polyDegree at h; split at h <;> cases h <;> simp [nodes]
  | .fsym n, k, h => by
    unfold polyDegree at h; split at h <;> cases h <;> simp [nodes]
  | .bin l op r, k, h => by
    have hl := nodes_pos l
    have hr := nodes_pos r
    unfold polyDegree at h; split at h
    · cases h; simp only [nodes]; omega
    · cases op
      · simp at h
      · simp at h
      all_goals
        simp only [Option.bind_eq_some_iff, Option.some.injEq] at h
        obtain ⟨a, ha, b, hb, rfl⟩ := h
        have := polyDegree_nodes x ha
        have := polyDegree_nodes x hb
        simp only [nodes]; omega

theorem integrateImpl_nodes {cv : Conv} {a b x : CtExpr} : ∀ {e r : CtExpr}, integrateImpl cv a b x e = some r →
    nodes r ≤ nodes e * (2 * (nodes a + nodes b) + 7)
  | .const n, r, h => by
    have := ctSimplify_nodes h
    simp only [nodes] at this ⊢
    omega
  | .var n, r, h => by
    have := ctSimplify_nodes h
    simp only [nodes] at this ⊢
    omega
  | .fsym n, r, h => by cases h
  | .bin l .plus q, r, h => by
    simp only [integrateImpl, Option.bind_eq_some_iff] at h
    obtain ⟨l', hl, r', hr, h⟩ := h
    have h1 := integrateImpl_nodes hl
    have h2 := integrateImpl_nodes hr
    have h3 := ctSimplify_nodes h
    simp only [nodes, Nat.add_mul] at h3 ⊢
    omega
  | .bin l .minus q, r, h => by
    simp only [integrateImpl, Option.bind_eq_some_iff] at h
    obtain ⟨l', hl, r', hr, h⟩ := h
    have h1 := integrateImpl_nodes hl
    have h2 := integrateImpl_nodes hr
    have h3 := ctSimplify_nodes h
    simp only [nodes, Nat.add_mul] at h3 ⊢
    omega
  | .bin l .mult q, r, h => by
    simp only [integrateImpl, Option.bind_eq_some_iff] at h
    obtain ⟨c, hc, k, hk, mb, hmb, ma, hma, u, hu, w, hw, h⟩ := h
    have h1 := ctSimplify_nodes hc
    have h2 := ctSubst_nodes x ♯1 (l *' q)
    have hpl := nodes_pos l
    have hpq := nodes_pos q
    have hpa := nodes_pos a
    have hpb := nodes_pos b
    have h3 := (polyDegree_nodes x hk).1
    generalize hN : nodes (l *' q) = N at *
    have hN3 : 3 ≤ N := by rw [← hN]; simp only [nodes]; omega
    have h4 := monomial_nodes (n := N) (by omega) (by omega) hmb
    have h5 := monomial_nodes (n := N) (by omega) (by omega) hma
    have h6 := ctSimplify_nodes hu
    have h7 := ctSimplify_nodes hw
    have h8 := ctSimplify_nodes h
    simp only [nodes] at h2 h6 h7 h8
    have h9 : nodes r ≤ N * (nodes a + nodes b + 4) + 5 := by
      have : N * (nodes a + nodes b + 4) = N * (nodes a + 1) + N * (nodes b + 1) + 2 * N := by ring
      omega
    have h10 : N * (2 * (nodes a + nodes b) + 7) = N * (nodes a + nodes b + 4) + N * (nodes a + nodes b + 3) := by ring
    have h11 : 3 * 5 ≤ N * (nodes a + nodes b + 3) := Nat.mul_le_mul hN3 (by omega)
    omega
  | .bin l .div q, r, h => by
    simp only [integrateImpl, Option.bind_eq_some_iff] at h
    obtain ⟨l', hl, h⟩ := h
    have h1 := integrateImpl_nodes hl
    have h3 := ctSimplify_nodes h
    have : nodes q ≤ nodes q * (2 * (nodes a + nodes b) + 7) := Nat.le_mul_of_pos_right _ (by omega)
    simp only [nodes, Nat.add_mul] at h3 ⊢
    omega

theorem ctIntegrate_nodes {cv : Conv} {a b x e r : CtExpr} (h : ctIntegrate cv a b e x = some r) :
    nodes r ≤ nodes (expand e) * (2 * (nodes a + nodes b) + 7) := by
  have key : ∀ e', nodes e' = 1 → integrateImpl cv a b x e' = some r →
      nodes r ≤ nodes (expand e) * (2 * (nodes a + nodes b) + 7) := by
    intro e' he h
    have h1 := integrateImpl_nodes h
    rw [he] at h1
    exact h1.trans (Nat.mul_le_mul_right _ (nodes_pos _))
  cases e with
  | bin l op q =>
    simp only [ctIntegrate, Option.bind_eq_some_iff] at h
    obtain ⟨e', h1, h2⟩ := h
    exact (integrateImpl_nodes h2).trans (Nat.mul_le_mul_right _ (ctSimplify_nodes h1))
  | _ => exact key _ rfl h

end VM.Ct
