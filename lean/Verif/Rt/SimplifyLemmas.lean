import Verif.Rt.Simplify
import Verif.Rt.EvalLemmas
set_option linter.unusedSectionVars false
/-
One pass of the simplifier as an inductive relation, termination of the loop, and an induction
principle for its results.
-/
namespace VM
open Spec
variable {K : Type} [Num K]

/-- Is a constant operand `c` on the left / right of `op` trivial (so that the node disappears)? -/
def trivL : BOp → K → Bool
  | .plus, c | .minus, c | .div, c => Num.eqb c (Num.lit 0)
  | .mult, c => Num.eqb c (Num.lit 0) || Num.eqb c (Num.lit 1)
  | .uid, _ => false
def trivR : BOp → K → Bool
  | .plus, c | .minus, c => Num.eqb c (Num.lit 0)
  | .mult, c => Num.eqb c (Num.lit 0) || Num.eqb c (Num.lit 1)
  | .div, c => Num.eqb c (Num.lit 1)
  | .uid, _ => false

/-- Product of two vectors. -/
def bothVec : BOp → Expr K → Expr K → Bool
  | .mult, .vec _, .vec _ => true
  | _, _, _ => false

/-- The possible results of one pass, with the circumstances of each. -/
inductive Pass : Expr K → Expr K → Prop
  | const (c) : Pass (.const c) (.const c)
  | var (i) : Pass (.var i) (.var i)
  | fsym (i t) : Pass (.fsym i t) (.fsym i t)
  | vec (es) : Pass (.vec es) (.vec es)
  | unFold {f e c} : isConst e = true → unwrap leftFirst e = .ok c →
      Pass (.un (.fn f) e) (.const (applyFn f c))
  | unConst {op e c} : isConst e = true → unwrap leftFirst e = .ok c → op.canSimplify = false →
      Pass (.un op e) (.un op (.const c))
  | un {op e e'} : isConst e = false → Pass e e' → Pass (.un op e) (.un op e')
  | integConst {lo hi x e c} : isConst e = true → unwrap leftFirst e = .ok c →
      Pass (.integ lo hi x e) (.integ lo hi x (.const c))
  | integ {lo hi x e e'} : isConst e = false → Pass e e' →
      Pass (.integ lo hi x e) (.integ lo hi x e')
  | fold {op l r c} : isConst l = true → isConst r = true → unwrap leftFirst (.bin op l r) = .ok c →
      Pass (.bin op l r) (.const c)
  | plusZeroL {l r r' c} : isConst l = true → isConst r = false → unwrap leftFirst l = .ok c →
      Num.eqb c (Num.lit 0) = true → Pass r r' → Pass (.bin .plus l r) r'
  | plusZeroR {l r l' c} : isConst l = false → isConst r = true → unwrap leftFirst r = .ok c →
      Num.eqb c (Num.lit 0) = true → Pass l l' → Pass (.bin .plus l r) l'
  | minusZeroL {l r r' c} : isConst l = true → isConst r = false → unwrap leftFirst l = .ok c →
      Num.eqb c (Num.lit 0) = true → Pass r r' →
      Pass (.bin .minus l r) (.bin .mult (.const (Num.lit (-1))) r')
  | minusZeroR {l r l' c} : isConst l = false → isConst r = true → unwrap leftFirst r = .ok c →
      Num.eqb c (Num.lit 0) = true → Pass l l' → Pass (.bin .minus l r) l'
  | multZeroL {l r c} : isConst l = true → isConst r = false → unwrap leftFirst l = .ok c →
      Num.eqb c (Num.lit 0) = true → Pass (.bin .mult l r) (.const (Num.lit 0))
  | multZeroR {l r c} : isConst l = false → isConst r = true → unwrap leftFirst r = .ok c →
      Num.eqb c (Num.lit 0) = true → Pass (.bin .mult l r) (.const (Num.lit 0))
  | multOneL {l r r' c} : isConst l = true → isConst r = false → unwrap leftFirst l = .ok c →
      Num.eqb c (Num.lit 1) = true → Pass r r' → Pass (.bin .mult l r) r'
  | multOneR {l r l' c} : isConst l = false → isConst r = true → unwrap leftFirst r = .ok c →
      Num.eqb c (Num.lit 1) = true → Pass l l' → Pass (.bin .mult l r) l'
  | divZeroL {l r c} : isConst l = true → isConst r = false → unwrap leftFirst l = .ok c →
      Num.eqb c (Num.lit 0) = true → Pass (.bin .div l r) (.const (Num.lit 0))
  | divOneR {l r l' c} : isConst l = false → isConst r = true → unwrap leftFirst r = .ok c →
      Num.eqb c (Num.lit 1) = true → Pass l l' → Pass (.bin .div l r) l'
  | constL {op l r r' c} : op ≠ .uid → isConst l = true → isConst r = false →
      unwrap leftFirst l = .ok c → trivL op c = false → Pass r r' →
      Pass (.bin op l r) (.bin op (.const c) r')
  | constR {op l r l' c} : op ≠ .uid → isConst l = false → isConst r = true →
      unwrap leftFirst r = .ok c → trivR op c = false → Pass l l' →
      Pass (.bin op l r) (.bin op l' (.const c))
  | dotp {ls rs e} : dot ls rs = .ok e → Pass (.bin .mult (.vec ls) (.vec rs)) e
  | cong {op l r l' r'} : op ≠ .uid → isConst l = false → isConst r = false →
      bothVec op l r = false → Pass l l' → Pass r r' → Pass (.bin op l r) (.bin op l' r')
  | uid {l r} : (isConst l && isConst r) = false → Pass (.bin .uid l r) (.bin .uid l r)

theorem Pass.of_simpBin {op : BOp} {l r e : Expr K} (hc : (isConst l && isConst r) = false)
    (hl : ∀ e, simplify l = .ok e → Pass l e) (hr : ∀ e, simplify r = .ok e → Pass r e)
    (h : simpBin op l r (simplify l) (simplify r) = .ok e) : Pass (.bin op l r) e := by
  cases hcl : isConst l with
  | true =>
    have hcr : isConst r = false := by simpa [hcl] using hc
    cases op <;> simp only [simpBin, hcl, if_true, Res.bind_eq_ok] at h
    case plus =>
      obtain ⟨val, hv, h⟩ := h
      split at h
      · exact .plusZeroL hcl hcr hv ‹_› (hr _ h)
      · obtain ⟨r', hr', rfl⟩ := Res.map_eq_ok.1 h
        exact .constL (by simp) hcl hcr hv (by simp_all [trivL]) (hr _ hr')
    case minus =>
      obtain ⟨val, hv, h⟩ := h
      split at h
      · obtain ⟨r', hr', rfl⟩ := Res.map_eq_ok.1 h
        exact .minusZeroL hcl hcr hv ‹_› (hr _ hr')
      · obtain ⟨r', hr', rfl⟩ := Res.map_eq_ok.1 h
        exact .constL (by simp) hcl hcr hv (by simp_all [trivL]) (hr _ hr')
    case mult =>
      obtain ⟨val, hv, h⟩ := h
      split at h
      · cases h; exact .multZeroL hcl hcr hv ‹_›
      · split at h
        · exact .multOneL hcl hcr hv ‹_› (hr _ h)
        · obtain ⟨r', hr', rfl⟩ := Res.map_eq_ok.1 h
          exact .constL (by simp) hcl hcr hv (by simp_all [trivL]) (hr _ hr')
    case div =>
      obtain ⟨val, hv, h⟩ := h
      split at h
      · cases h; exact .divZeroL hcl hcr hv ‹_›
      · obtain ⟨r', hr', rfl⟩ := Res.map_eq_ok.1 h
        exact .constL (by simp) hcl hcr hv (by simp_all [trivL]) (hr _ hr')
    case uid => cases h; exact .uid hc
  | false =>
    cases hcr : isConst r with
    | true =>
      cases op <;> simp only [simpBin, hcl, hcr, if_true, Bool.false_eq_true, if_false, Res.bind_eq_ok] at h
      case plus =>
        obtain ⟨val, hv, h⟩ := h
        split at h
        · exact .plusZeroR hcl hcr hv ‹_› (hl _ h)
        · obtain ⟨r', hr', rfl⟩ := Res.map_eq_ok.1 h
          exact .constR (by simp) hcl hcr hv (by simp_all [trivR]) (hl _ hr')
      case minus =>
        obtain ⟨val, hv, h⟩ := h
        split at h
        · exact .minusZeroR hcl hcr hv ‹_› (hl _ h)
        · obtain ⟨r', hr', rfl⟩ := Res.map_eq_ok.1 h
          exact .constR (by simp) hcl hcr hv (by simp_all [trivR]) (hl _ hr')
      case mult =>
        obtain ⟨val, hv, h⟩ := h
        split at h
        · cases h; exact .multZeroR hcl hcr hv ‹_›
        · split at h
          · exact .multOneR hcl hcr hv ‹_› (hl _ h)
          · obtain ⟨r', hr', rfl⟩ := Res.map_eq_ok.1 h
            exact .constR (by simp) hcl hcr hv (by simp_all [trivR]) (hl _ hr')
      case div =>
        obtain ⟨val, hv, h⟩ := h
        split at h
        · exact .divOneR hcl hcr hv ‹_› (hl _ h)
        · obtain ⟨r', hr', rfl⟩ := Res.map_eq_ok.1 h
          exact .constR (by simp) hcl hcr hv (by simp_all [trivR]) (hl _ hr')
      case uid => cases h; exact .uid hc
    | false =>
      have cong : ∀ {op : BOp}, op ≠ .uid → bothVec op l r = false →
          ((simplify l).bind fun l' => (simplify r).map fun r' => .bin op l' r') = .ok e →
          Pass (.bin op l r) e := by
        intro op h1 h2 h
        obtain ⟨l', hl', h⟩ := Res.bind_eq_ok.1 h
        obtain ⟨r', hr', rfl⟩ := Res.map_eq_ok.1 h
        exact .cong h1 hcl hcr h2 (hl _ hl') (hr _ hr')
      cases op <;> simp only [simpBin, hcl, hcr, Bool.false_eq_true, if_false] at h
      case plus => exact cong (by simp) (by simp [bothVec]) h
      case minus => exact cong (by simp) (by simp [bothVec]) h
      case div => exact cong (by simp) (by simp [bothVec]) h
      case mult =>
        split at h
        · exact .dotp h
        · next hnv =>
          refine cong (by simp) ?_ h
          unfold bothVec
          split
          · exact absurd rfl (hnv _ _ rfl)
          · rfl
      case uid => cases h; exact .uid hc

theorem Pass.of_simplify {e e' : Expr K} (h : simplify e = .ok e') : Pass e e' := by
  induction e using Expr.ind generalizing e' with
  | const c => cases h; exact .const c
  | var i => cases h; exact .var i
  | fsym i t => cases h; exact .fsym i t
  | vec es _ => simp only [simplify] at h; cases h; exact .vec es
  | un op e ih =>
    simp only [simplify] at h
    split at h
    · next hc =>
      obtain ⟨c, hv, h⟩ := Res.bind_eq_ok.1 h
      split at h
      · next ho =>
        cases op <;> simp [UOp.canSimplify] at ho
        cases h
        exact .unFold hc hv
      · cases h; exact .unConst hc hv (Bool.eq_false_iff.2 ‹_›)
    · obtain ⟨e'', h', rfl⟩ := Res.map_eq_ok.1 h
      exact .un (Bool.eq_false_iff.2 ‹_›) (ih h')
  | integ lo hi x e _ _ ih =>
    simp only [simplify] at h
    split at h
    · obtain ⟨c, hv, rfl⟩ := Res.map_eq_ok.1 h
      exact .integConst ‹_› hv
    · obtain ⟨c, hv, rfl⟩ := Res.map_eq_ok.1 h
      exact .integ (Bool.eq_false_iff.2 ‹_›) (ih hv)
  | bin op l r ihl ihr =>
    simp only [simplify] at h
    split at h
    · next hc =>
      obtain ⟨c, hv, rfl⟩ := Res.map_eq_ok.1 h
      simp only [Bool.and_eq_true] at hc
      exact .fold hc.1 hc.2 hv
    · exact .of_simpBin (Bool.eq_false_iff.2 ‹_›) (fun _ => ihl) (fun _ => ihr) h

/-! ### Weight -/

theorem weight_dotFrom (acc : Expr K) (ls rs : List (Expr K)) (h : ls.length = rs.length) :
    weight (dotFrom acc ls rs) = weight acc + weightL ls + weightL rs := by
  induction ls generalizing acc rs with
  | nil => cases rs with
    | nil => simp [dotFrom, weightL]
    | cons r rs => simp at h
  | cons l ls ih => cases rs with
    | nil => simp at h
    | cons r rs =>
      simp only [List.length_cons, Nat.add_right_cancel_iff] at h
      simp only [dotFrom, ih _ rs h, weight, weightL]; omega

theorem dot_eq_ok {ls rs : List (Expr K)} {e : Expr K} (h : dot ls rs = .ok e) :
    ∃ l ls' r rs', ls = l :: ls' ∧ rs = r :: rs' ∧ ls'.length = rs'.length ∧
      e = dotFrom (.bin .mult l r) ls' rs' := by
  cases ls with
  | nil => simp [dot] at h
  | cons l ls => cases rs with
    | nil => simp [dot] at h
    | cons r rs =>
      simp only [dot] at h
      split at h
      · next hl => cases h; exact ⟨l, ls, r, rs, rfl, rfl, hl, rfl⟩
      · cases h

theorem weight_dot {ls rs : List (Expr K)} {e : Expr K} (h : dot ls rs = .ok e) :
    weight e < weightL ls + weightL rs + 1 := by
  obtain ⟨l, ls', r, rs', rfl, rfl, hl, rfl⟩ := dot_eq_ok h
  rw [weight_dotFrom _ _ _ hl]; simp only [weight, weightL]; omega

theorem weight_bin_ge (op : BOp) (l r : Expr K) : weight l + weight r + 1 ≤ weight (.bin op l r) := by
  cases op <;> simp [weight]

theorem weight_bin_mono (op : BOp) {l r l' r' : Expr K} (h : weight l' + weight r' ≤ weight l + weight r) :
    weight (.bin op l' r') ≤ weight (.bin op l r) := by
  cases op <;> simp only [weight] <;> omega

theorem weight_bin_strict (op : BOp) {l r l' r' : Expr K}
    (h : weight l' + weight r' < weight l + weight r) :
    weight (.bin op l' r') < weight (.bin op l r) := by
  cases op <;> simp only [weight] <;> omega

theorem weight_const (c : K) : weight (.const c) = 0 := by simp [weight]

/-- A pass never makes the expression heavier. -/
theorem Pass.weight_le {e e' : Expr K} (h : Pass e e') : weight e' ≤ weight e := by
  induction h with
  | const | var | fsym | vec | uid => exact Nat.le_refl _
  | unFold | unConst | integConst => simp [weight]
  | un _ _ ih | integ _ _ ih => simp only [weight]; omega
  | @fold op l r => have := weight_bin_ge op l r; rw [weight_const]; omega
  | plusZeroL | plusZeroR | minusZeroL | minusZeroR | multZeroL | multZeroR | multOneL | multOneR
  | divZeroL | divOneR => simp only [weight]; omega
  | constL => exact weight_bin_mono _ (by rw [weight_const]; omega)
  | constR => exact weight_bin_mono _ (by rw [weight_const]; omega)
  | dotp h => have := weight_dot h; simp only [weight]; omega
  | cong => exact weight_bin_mono _ (by omega)

/-- What `canBin` answering true means. -/
theorem canSimplify_const_pos {e : Expr K} (hc : isConst e = true) (h : canSimplify e = .ok true) :
    0 < weight e := by
  cases e <;> simp [isConst, canSimplify] at hc h
  case bin op l r => have := weight_bin_ge op l r; omega

theorem constCheck_true {e : Expr K} {p : K → Bool} {rest : Res Bool}
    (h : constCheck e p rest = .ok true) :
    (isConst e = true ∧ ∃ c, unwrap leftFirst e = .ok c ∧ p c = true) ∨ rest = .ok true := by
  simp only [constCheck] at h
  split at h
  · obtain ⟨c, hc, h⟩ := Res.bind_eq_ok.1 h
    split at h
    · exact .inl ⟨‹_›, c, hc, ‹_›⟩
    · exact .inr h
  · exact .inr h

theorem either_true {a b : Res Bool} (h : (a.bind fun x => if x then .ok true else b) = .ok true) :
    a = .ok true ∨ b = .ok true := by
  obtain ⟨x, hx, h⟩ := Res.bind_eq_ok.1 h
  cases x
  · exact .inr (by simpa using h)
  · exact .inl hx

theorem canBin_true {op : BOp} {l r : Expr K} {cl cr : Res Bool}
    (h : canBin op l r cl cr = .ok true) :
    (isConst l = true ∧ ∃ c, unwrap leftFirst l = .ok c ∧ trivL op c = true) ∨
    (isConst r = true ∧ ∃ c, unwrap leftFirst r = .ok c ∧ trivR op c = true) ∨
    bothVec op l r = true ∨ cl = .ok true ∨ cr = .ok true := by
  cases op <;> simp only [canBin] at h
  case uid => simp at h
  case mult =>
    rcases constCheck_true h with h | h
    · exact .inl h
    rcases constCheck_true h with h | h
    · exact .inr (.inl h)
    split at h
    · exact .inr (.inr (.inl rfl))
    · exact .inr (.inr (.inr (either_true h)))
  all_goals
    rcases constCheck_true h with h | h
    · exact .inl h
    rcases constCheck_true h with h | h
    · exact .inr (.inl h)
    exact .inr (.inr (.inr (either_true h)))

/-- While the loop continues, a pass makes the expression strictly lighter. -/
theorem Pass.weight_lt {e e' : Expr K} (h : Pass e e') (hc : canSimplify e = .ok true) :
    weight e' < weight e := by
  induction h with
  | const | var | fsym | vec => simp [canSimplify] at hc
  | uid hb => simp [canSimplify, hb, canBin] at hc
  | unFold h1 h2 | unConst h1 h2 _ | integConst h1 h2 =>
    simp only [canSimplify] at hc
    have := canSimplify_const_pos h1 hc; simp only [weight]; omega
  | un _ _ ih | integ _ _ ih =>
    simp only [canSimplify] at hc
    have := ih hc; simp only [weight]; omega
  | @fold op l r => have := weight_bin_ge op l r; rw [weight_const]; omega
  | plusZeroL _ _ _ _ h | plusZeroR _ _ _ _ h | minusZeroL _ _ _ _ h | minusZeroR _ _ _ _ h
  | multOneL _ _ _ _ h | multOneR _ _ _ _ h | divOneR _ _ _ _ h =>
    have := h.weight_le; simp only [weight]; omega
  | multZeroL | multZeroR | divZeroL => simp only [weight]; omega
  | dotp h => have := weight_dot h; simp only [weight]; omega
  | @constL op l r r' c h1 h2 h3 h4 h5 h6 ih =>
    have hw := h6.weight_le
    simp only [canSimplify, h2, h3] at hc
    rcases canBin_true hc with ⟨_, c', hc', ht⟩ | ⟨h, _⟩ | h | h | h
    · rw [h4] at hc'; cases hc'; rw [h5] at ht; cases ht
    · rw [h3] at h; cases h
    · cases l <;> simp [isConst, bothVec] at h2 h
    · have := canSimplify_const_pos h2 h
      exact weight_bin_strict _ (by rw [weight_const]; omega)
    · have := ih h
      exact weight_bin_strict _ (by rw [weight_const]; omega)
  | @constR op l r l' c h1 h2 h3 h4 h5 h6 ih =>
    have hw := h6.weight_le
    simp only [canSimplify, h2, h3] at hc
    rcases canBin_true hc with ⟨h, _⟩ | ⟨_, c', hc', ht⟩ | h | h | h
    · rw [h2] at h; cases h
    · rw [h4] at hc'; cases hc'; rw [h5] at ht; cases ht
    · cases r <;> simp [isConst, bothVec] at h3 h
    · have := ih h
      exact weight_bin_strict _ (by rw [weight_const]; omega)
    · have := canSimplify_const_pos h3 h
      exact weight_bin_strict _ (by rw [weight_const]; omega)
  | @cong op l r l' r' h1 h2 h3 h4 h5 h6 ihl ihr =>
    have hl := h5.weight_le
    have hr := h6.weight_le
    simp only [canSimplify, h2, h3] at hc
    rcases canBin_true hc with ⟨h, _⟩ | ⟨h, _⟩ | h | h | h
    · rw [h2] at h; cases h
    · rw [h3] at h; cases h
    · rw [h4] at h; cases h
    · have := ihl h; exact weight_bin_strict _ (by omega)
    · have := ihr h; exact weight_bin_strict _ (by omega)

/-! ### The loop -/

/-- The loop ends within `weight e + 1` tests. -/
theorem simplifyLoop_some {n : Nat} {e : Expr K} (h : weight e < n) :
    ∃ r, simplifyLoop n e = some r := by
  induction n generalizing e with
  | zero => omega
  | succ n ih =>
    simp only [simplifyLoop]
    split
    · next hc =>
      split
      · next e' he => exact ih (by have := (Pass.of_simplify he).weight_lt hc; omega)
      · exact ⟨_, rfl⟩
      · exact ⟨_, rfl⟩
    · exact ⟨_, rfl⟩
    · exact ⟨_, rfl⟩
    · exact ⟨_, rfl⟩

theorem simplifyLoop_mono {n m : Nat} {e : Expr K} {r} (h : simplifyLoop n e = some r)
    (hnm : n ≤ m) : simplifyLoop m e = some r := by
  induction n generalizing m e with
  | zero => simp [simplifyLoop] at h
  | succ n ih =>
    obtain ⟨m, rfl⟩ : ∃ k, m = k + 1 := ⟨m - 1, by omega⟩
    simp only [simplifyLoop] at h ⊢
    split
    · next hc =>
      simp only [hc] at h
      split
      · next he => simp only [he] at h; exact ih h (by omega)
      · next he => simpa [he] using h
      · next he => simpa [he] using h
    · next hc => simpa [hc] using h
    · next hc => simpa [hc] using h
    · next hc => simpa [hc] using h

theorem Simplifies.unique {e : Expr K} {r r'} (h : Simplifies e r) (h' : Simplifies e r') : r = r' := by
  obtain ⟨n, hn⟩ := h
  obtain ⟨m, hm⟩ := h'
  have h1 := simplifyLoop_mono hn (Nat.le_max_left n m)
  have h2 := simplifyLoop_mono hm (Nat.le_max_right n m)
  rw [h1] at h2; exact Option.some.inj h2

theorem Simplifies_simplified (e : Expr K) : Simplifies e (simplified e) := by
  obtain ⟨r, hr⟩ := simplifyLoop_some (n := weight e + 1) (e := e) (Nat.lt_succ_self _)
  exact ⟨weight e + 1, by simp [simplified, hr]⟩

theorem Simplifies_iff {e : Expr K} {r} : Simplifies e r ↔ simplified e = r :=
  ⟨fun h => (Simplifies_simplified e).unique h, fun h => h ▸ Simplifies_simplified e⟩

/-- Unfolding equation of the loop. -/
theorem simplified_eq (e : Expr K) : simplified e =
    (canSimplify e).bind fun b => if b then (simplify e).bind simplified else .ok e := by
  rw [← Simplifies_iff]
  cases hc : canSimplify e with
  | throw x => exact ⟨1, by simp [simplifyLoop, hc]⟩
  | ub => exact ⟨1, by simp [simplifyLoop, hc]⟩
  | ok b =>
    cases b with
    | false => exact ⟨1, by simp [simplifyLoop, hc]⟩
    | true =>
      cases he : simplify e with
      | throw x => exact ⟨1, by simp [simplifyLoop, hc, he]⟩
      | ub => exact ⟨1, by simp [simplifyLoop, hc, he]⟩
      | ok e' =>
        obtain ⟨n, hn⟩ := Simplifies_simplified e'
        exact ⟨n + 1, by simp [simplifyLoop, hc, he, hn]⟩

/-- Whatever a pass preserves, the loop preserves. -/
theorem simplified_induct {P : Expr K → Prop} (hpass : ∀ e e', Pass e e' → P e → P e')
    {e e' : Expr K} (h : simplified e = .ok e') (he : P e) : P e' ∧ canSimplify e' = .ok false := by
  obtain ⟨n, hn⟩ := Simplifies_iff.2 h
  induction n generalizing e with
  | zero => simp [simplifyLoop] at hn
  | succ n ih =>
    simp only [simplifyLoop] at hn
    split at hn
    · split at hn
      · next he' =>
        exact ih (Simplifies_iff.1 ⟨n, hn⟩) (hpass _ _ (Pass.of_simplify he') he) hn
      · cases hn
      · cases hn
    · next hc => cases hn; exact ⟨he, hc⟩
    · cases hn
    · cases hn

end VM
