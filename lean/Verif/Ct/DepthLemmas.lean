import Verif.Ct.Depth
import Verif.Spec.CtDepth
import Verif.Ct.SimplifySound
import Verif.Ct.Manip
import Mathlib.Data.Nat.Fib.Basic
import Mathlib.Tactic.Ring
/-
Bounds for the depth of instantiations.
-/
namespace VM.Ct
open VM.Spec

theorem gcdDepth_eq (a b : Int) : gcdDepth a b = if b = 0 then 1 else 1 + gcdDepth b (a.tmod b) := by
  rw [gcdDepth]; split <;> rfl

/-- `gcdDepth` is the number of instantiations of `gcd` that are needed. -/
theorem gcdN_depth (cv : Conv) : ∀ (k : Nat) (a b : Int),
    (gcdDepth a b ≤ k → gcdN cv k a b = gcdC cv a b) ∧ (k < gcdDepth a b → gcdN cv k a b = none)
  | 0, a, b => by
    refine ⟨fun h => ?_, fun _ => rfl⟩
    rw [gcdDepth_eq] at h
    split at h <;> omega
  | k + 1, a, b => by
    obtain ⟨h1, h2⟩ := gcdN_depth cv k b (a.tmod b)
    rw [gcdDepth_eq, gcdN, gcdC_eq]
    split
    · exact ⟨fun _ => rfl, fun h => by omega⟩
    · split
      · exact ⟨fun _ => rfl, fun _ => rfl⟩
      · exact ⟨fun h => h1 (by omega), fun h => h2 (by omega)⟩

/-- Lamé: `n + 1` divisions need a divisor of at least the Fibonacci number. -/
theorem fib_le_of_gcdDepth : ∀ (n : Nat) (a b : Int), n + 2 ≤ gcdDepth a b → Nat.fib (n + 2) ≤ b.natAbs
  | 0, a, b, h => by
    rw [gcdDepth_eq] at h
    split at h
    · omega
    · next hb => exact Int.natAbs_pos.2 hb
  | 1, a, b, h => by
    rw [gcdDepth_eq] at h
    split at h
    · omega
    · next hb =>
      have h1 := fib_le_of_gcdDepth 0 b (a.tmod b) (by omega)
      rw [Int.natAbs_tmod] at h1
      have := Nat.mod_lt a.natAbs (Int.natAbs_pos.2 hb)
      have e : Nat.fib (1 + 2) = 2 := rfl
      have e' : Nat.fib (0 + 2) = 1 := rfl
      omega
  | n + 2, a, b, h => by
    rw [gcdDepth_eq] at h
    split at h
    · omega
    · next hb =>
      have h1 := fib_le_of_gcdDepth (n + 1) b (a.tmod b) (by omega)
      rw [gcdDepth_eq] at h
      split at h
      · omega
      · next hr =>
        have h2 := fib_le_of_gcdDepth n (a.tmod b) (b.tmod (a.tmod b)) (by omega)
        have hlt := Nat.mod_lt a.natAbs (Int.natAbs_pos.2 hb)
        rw [← Int.natAbs_tmod] at hlt
        rw [Int.natAbs_tmod] at h2
        have hq : 1 ≤ b.natAbs / (a.tmod b).natAbs := Nat.div_pos (by omega) (Int.natAbs_pos.2 hr)
        have hd := Nat.div_add_mod b.natAbs (a.tmod b).natAbs
        have hm : (a.tmod b).natAbs * 1 ≤ (a.tmod b).natAbs * (b.natAbs / (a.tmod b).natAbs) := Nat.mul_le_mul_left _ hq
        have e : Nat.fib (n + 2 + 2) = Nat.fib (n + 2) + Nat.fib (n + 2 + 1) := Nat.fib_add_two
        have e' : n + 1 + 2 = n + 2 + 1 := by omega
        rw [e'] at h1
        omega

theorem gcdDepth_le (a : Int) {b : Int} (hb : InLong b) : gcdDepth a b ≤ 92 := by
  by_contra h
  have h1 := fib_le_of_gcdDepth 91 a b (by omega)
  have h2 : Nat.fib 93 = 12200160415121876738 := by decide +kernel
  have : b.natAbs ≤ 2 ^ 63 := by obtain ⟨h3, h4⟩ := hb; omega
  rw [show 91 + 2 = 93 from rfl, h2] at h1
  omega

/-- Where the template arguments of `gcd` come from. -/
theorem gcdArgs_inLong {cv : Conv} (hcv : GivesInt cv) {e : CtExpr} (he : Longs e) {a b : Int}
    (h : gcdArgs cv e = some (a, b)) : InLong b := by
  have hb : ∀ x y : CExp, gcdArgs.both cv x y = some (a, b) → InLong b := by
    intro x y hxy
    simp only [gcdArgs.both, Option.bind_eq_some_iff, Option.some.injEq, Prod.mk.injEq] at hxy
    obtain ⟨_, _, _, _, _, _, _, h1, rfl, rfl⟩ := hxy
    have := hcv _ _ h1
    simp only [InInt] at this
    simp only [InLong]
    omega
  unfold gcdArgs at h
  split at h
  all_goals first
    | exact hb _ _ h
    | (cases h; exact he.2)
    | cases h

theorem specDepth_le {cv : Conv} (hcv : GivesInt cv) (s : Spz) {e : CtExpr} (he : Longs e) : specDepth cv s e ≤ 92 := by
  unfold specDepth
  split
  · split
    · next a b h => exact gcdDepth_le a (gcdArgs_inLong hcv he h)
    · omega
  · omega

theorem implDepth_le {cv : Conv} (hcv : GivesInt cv) : ∀ {e : CtExpr}, Longs e → implDepth cv e ≤ ctHeight e + 91
  | .const _, _ => by simp [implDepth, ctHeight]
  | .var _, _ => by simp [implDepth, ctHeight]
  | .fsym _, _ => by simp [implDepth, ctHeight]
  | .bin l op r, h => by
    have h1 := implDepth_le hcv h.1
    have h2 := implDepth_le hcv h.2
    have hl : 1 ≤ ctHeight l := by cases l <;> simp [ctHeight]
    rw [implDepth, ctHeight]
    split
    · omega
    · split
      · next s _ => have := specDepth_le hcv s h; omega
      · omega

theorem ctHeight_le_weight : ∀ e : CtExpr, ctHeight e ≤ weight e
  | .const _ => le_rfl
  | .var _ => le_rfl
  | .fsym _ => le_rfl
  | .bin l op r => by
    have h1 := ctHeight_le_weight l
    have h2 := ctHeight_le_weight r
    cases op <;> simp only [ctHeight, weight] <;> omega

theorem weight_lt_nodes : ∀ e : CtExpr, weight e < 2 * nodes e
  | .const _ => by simp [weight, nodes]
  | .var _ => by simp [weight, nodes]
  | .fsym _ => by simp [weight, nodes]
  | .bin l op r => by
    have h1 := weight_lt_nodes l
    have h2 := weight_lt_nodes r
    cases op <;> simp only [nodes, weight] <;> omega

theorem frac_longs {cv : Conv} {x y : CExp} {e : CtExpr} (h : frac cv x y = some e) : Longs e := by
  obtain ⟨n, d, n₁, d₁, g, n', d', h1, h2, h3, h4, h5, h6, h7, rfl⟩ := frac_some.1 h
  have key : ∀ {a b c : Int}, idiv a b = some c → InLong c := by
    intro a b c h
    obtain ⟨_, hi, rfl⟩ := idiv_some.1 h
    simp only [InInt] at hi
    simp only [InLong]
    omega
  exact ⟨key h6, key h7⟩

theorem spz_longs {cv : Conv} {s : Spz} {e e' : CtExpr} (hs : s ∈ specs) (hm : s.pat.fits e = true) :
    s.type cv e = some e' → Longs e → Longs e' := by
  simp only [specs, List.mem_append] at hs
  obtain ((hs | hs) | hs) | hs := hs
  all_goals revert hm; revert hs
  all_goals intro _ _
  all_goals per_rule
  all_goals
    intro ht he
    dsimp only at ht
  all_goals try (simp at ht; done)
  all_goals first
    | exact frac_longs ht
    | (cases ht
       simp only [Longs] at he ⊢
       tauto)
    | (simp only [Option.map_eq_some_iff, cadd_some, csub_some, cmul_some] at ht
       obtain ⟨c, ⟨rfl, hc⟩, rfl⟩ := ht
       exact hc)
    | (simp only [Option.bind_eq_some_iff, ldiv_some, Option.some.injEq] at ht
       obtain ⟨g, hg, a', ⟨hg0, h1, rfl⟩, b', ⟨-, h2, rfl⟩, rfl⟩ := ht
       exact ⟨h1, h2⟩)

theorem impl_longs {cv : Conv} {e e' : CtExpr} {n : Nat} (h : ImplAny cv e n e') : Longs e → Longs e' := by
  induction h with
  | const | var | fsym => exact id
  | general op _ _ ihl ihr => exact fun he => ⟨ihl he.1, ihr he.2⟩
  | special hs hm ht => exact spz_longs hs hm ht

theorem simplifyDepthN_le {cv : Conv} (hcv : GivesInt cv) : ∀ (k : Nat) {e : CtExpr}, Longs e →
    simplifyDepthN cv k e ≤ weight e + 92
  | 0, e, _ => by simp [simplifyDepthN]
  | k + 1, e, he => by
    have h1 := implDepth_le hcv he
    have h2 := ctHeight_le_weight e
    rw [simplifyDepthN]
    split
    · next p hp =>
      obtain ⟨n, e'⟩ := p
      dsimp only
      split
      · omega
      · have h3 := simplifyDepthN_le hcv k (impl_longs (simplifyImpl_any hp) he)
        have h4 := simplifyImpl_weight hp
        omega
    · omega

theorem simplifyDepthN_fuel (cv : Conv) : ∀ (k m : Nat) (e : CtExpr), weight e ≤ k → weight e ≤ m →
    simplifyDepthN cv k e = simplifyDepthN cv m e := by
  intro k
  induction k with
  | zero => intro m e h; have := weight_pos e; omega
  | succ k ih =>
    intro m e hk hm
    obtain ⟨m, rfl⟩ : ∃ m', m = m' + 1 := ⟨m - 1, by have := weight_pos e; omega⟩
    unfold simplifyDepthN
    cases h : simplifyImpl cv e with
    | none => rfl
    | some p =>
      obtain ⟨n, e'⟩ := p
      have := simplifyImpl_weight h
      dsimp only
      split
      · rfl
      · rw [ih m e' (by omega) (by omega)]

/-- The loop of `simplify`: the bound in `simplifyDepth` is never reached. -/
theorem simplifyDepth_eq (cv : Conv) (e : CtExpr) : simplifyDepth cv e =
    1 + max (implDepth cv e) (match simplifyImpl cv e with
      | some p => if p.1 = 0 then 0 else simplifyDepth cv p.2
      | none => 0) := by
  unfold simplifyDepth
  obtain ⟨k, hk⟩ : ∃ k, weight e = k + 1 := ⟨weight e - 1, by have := weight_pos e; omega⟩
  rw [hk]
  conv_lhs => unfold simplifyDepthN
  cases h : simplifyImpl cv e with
  | none => rfl
  | some p =>
    obtain ⟨n, e'⟩ := p
    have := simplifyImpl_weight h
    dsimp only
    split
    · rfl
    · rw [simplifyDepthN_fuel cv _ (weight e') _ (by omega) le_rfl]

/-- What the specialisations instantiate: those of `gcdPats` divide both arguments of `gcd` by the result, the others do not
depend on how numbers are converted. -/
theorem spec_gcd {cv : Conv} {s : Spz} {e : CtExpr} (hs : s ∈ specs) (hm : s.pat.fits e = true) :
    if s.pat ∈ gcdPats then
      ∀ e', s.type cv e = some e' → ∃ a b g, gcdArgs cv e = some (a, b) ∧ gcdC cv a b = some g ∧
        e' = ♯(a.tdiv g) /' ♯(b.tdiv g)
    else ∀ cv' : Conv, s.type cv' e = s.type cv e := by
  have key : ∀ {x y : CExp} {e' : CtExpr}, frac cv x y = some e' → ∀ {x' y' : CExp}, (∀ n, x = some n → x' = some n) →
      (∀ n, y = some n → y' = some n) → ∃ a b g, gcdArgs.both cv x' y' = some (a, b) ∧ gcdC cv a b = some g ∧
        e' = ♯(a.tdiv g) /' ♯(b.tdiv g) := by
    intro x y e' h x' y' hx hy
    obtain ⟨n, d, n₁, d₁, g, n', d', h1, h2, h3, h4, h5, h6, h7, rfl⟩ := frac_some.1 h
    obtain ⟨_, _, rfl⟩ := idiv_some.1 h6
    obtain ⟨_, _, rfl⟩ := idiv_some.1 h7
    exact ⟨n₁, d₁, g, by simp [gcdArgs.both, hx n h1, hy d h2, h3, h4], h5, rfl⟩
  simp only [specs, List.mem_append] at hs
  obtain ((hs | hs) | hs) | hs := hs
  all_goals revert hm; revert hs
  all_goals intro _ _
  all_goals per_rule
  all_goals first
    | (rw [if_neg (by decide)]; intro cv'; rfl)
    | rw [if_pos (by decide)]
  all_goals
    intro e' h
    dsimp only at h
  all_goals first
    | exact key h (fun _ => id) (fun _ => id)
    | (simp only [Option.bind_eq_some_iff, ldiv_some, Option.some.injEq] at h
       obtain ⟨g, hg, a', ⟨hg0, h1, rfl⟩, b', ⟨-, h2, rfl⟩, rfl⟩ := h
       exact ⟨_, _, g, rfl, hg, rfl⟩)
    | (rename_i v n d
       by_cases hv : v = 0
       · subst hv
         refine key (x' := some n) h ?_ (fun _ => id)
         intro m hm
         simp only [csub_eq, cmul_some] at hm
         simp_all
       · have : gcdArgs cv ((♯n /' ♯d) -' ♯v) =
             gcdArgs.both cv (csub (some n) (cmul (some v) (some d))) (some d) := by
           cases v with
           | ofNat k => cases k with
             | zero => exact absurd rfl hv
             | succ k => rfl
           | negSucc k => rfl
         rw [this]
         exact key h (fun _ => id) (fun _ => id))

theorem diff_nodes {i : Nat} : ∀ {e e' : CtExpr}, ctDiff i e = some e' → nodes e' ≤ 2 * nodes e ^ 2
  | .const _, _, h => by simp only [ctDiff, Option.some.injEq] at h; subst h; simp [nodes]
  | .var j, _, h => by
    simp only [ctDiff] at h
    split at h <;> cases h <;> simp [nodes]
  | .fsym _, _, h => by simp [ctDiff] at h
  | .bin l op r, e', h => by
    have hl : 1 ≤ nodes l := by cases l <;> simp [nodes]
    have hr : 1 ≤ nodes r := by cases r <;> simp [nodes]
    cases op <;> simp only [ctDiff, Option.bind_eq_some_iff, Option.some.injEq] at h <;>
      obtain ⟨l', h1, r', h2, rfl⟩ := h <;>
      have h1 := diff_nodes h1 <;> have h2 := diff_nodes h2 <;> simp only [nodes] <;>
      have h3 := Nat.mul_le_mul hl hr <;> ring_nf at * <;> omega

theorem diff_longs {i : Nat} : ∀ {e e' : CtExpr}, Longs e → ctDiff i e = some e' → Longs e'
  | .const _, _, _, h => by simp only [ctDiff, Option.some.injEq] at h; subst h; exact (by decide : InLong 0)
  | .var j, _, _, h => by
    simp only [ctDiff] at h
    split at h
    · cases h; exact (by decide : InLong 1)
    · cases h; exact (by decide : InLong 0)
  | .fsym _, _, _, h => by simp [ctDiff] at h
  | .bin l op r, e', he, h => by
    cases op <;> simp only [ctDiff, Option.bind_eq_some_iff, Option.some.injEq] at h <;>
      obtain ⟨l', h1, r', h2, rfl⟩ := h <;>
      have h1 := diff_longs he.1 h1 <;> have h2 := diff_longs he.2 h2 <;>
      simp only [Longs] at he ⊢ <;> tauto

theorem gcdDepth_fib : ∀ n : Nat, gcdDepth (Nat.fib (n + 3)) (Nat.fib (n + 2)) = n + 2
  | 0 => by rw [gcdDepth_eq, gcdDepth_eq]; rfl
  | n + 1 => by
    have h0 : (Nat.fib (n + 1 + 2) : Int) ≠ 0 := by
      have := Nat.fib_pos.2 (show 0 < n + 1 + 2 by omega)
      omega
    have h1 : ((Nat.fib (n + 1 + 3) : Nat) : Int).tmod (Nat.fib (n + 1 + 2)) = Nat.fib (n + 2) := by
      rw [← Int.ofNat_tmod]
      have h2 : Nat.fib (n + 1 + 3) = Nat.fib (n + 2) + Nat.fib (n + 1 + 2) := Nat.fib_add_two
      have h3 : Nat.fib (n + 2) < Nat.fib (n + 1 + 2) := Nat.fib_lt_fib_succ (by omega)
      rw [h2, Nat.add_mod_right, Nat.mod_eq_of_lt h3]
    rw [gcdDepth_eq, if_neg h0, h1]
    have := gcdDepth_fib n
    rw [show n + 1 + 2 = n + 3 by omega, this]
    omega

end VM.Ct
