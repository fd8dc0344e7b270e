import Verif.Rt.SweepLemmas
import Verif.Rt.SubstIntegLemmas
import Verif.Rt.SubstLemmas
/-
Replacing variables and simplifying (C83).
-/
namespace VM
open Spec
variable {K : Type}

theorem putL_eq (ρ : Nat → Expr K) (es : List (Expr K)) : putL ρ es = es.map (put ρ) := by
  induction es with
  | nil => rfl
  | cons e es ih => simp [putL, ih]

theorem rp_eq_put (i : Nat) (r e : Expr K) : rp i r e = put (only i r) e := by
  induction e using Expr.ind with
  | const | fsym => rfl
  | var j => simp only [rp, put, only, eq_comm]
  | un op e ih => simp [rp, put, ih]
  | integ lo hi x e _ _ ih => simp [rp, put, ih]
  | bin op l r ihl ihr => simp [rp, put, ihl, ihr]
  | vec es ih => simp only [rp, put, rpL_eq_map, putL_eq, Expr.vec.injEq]; exact List.map_congr_left ih

theorem put_after (σ ρ : Nat → Expr K) (e : Expr K) : put σ (put ρ e) = put (fun k => put σ (ρ k)) e := by
  induction e using Expr.ind with
  | const | fsym | var => rfl
  | un op e ih => simp [put, ih]
  | integ lo hi x e _ _ ih => simp [put, ih]
  | bin op l r ihl ihr => simp [put, ihl, ihr]
  | vec es ih =>
    simp only [put, putL_eq, List.map_map, Expr.vec.injEq]; exact List.map_congr_left ih

theorem put_agree {ρ ρ' : Nat → Expr K} {e : Expr K} (h : ∀ k, Occurs k e → ρ k = ρ' k) : put ρ e = put ρ' e := by
  induction e using Expr.ind with
  | const | fsym => rfl
  | var i => exact h i .var
  | un op e ih => simp [put, ih fun k hk => h k (.un hk)]
  | integ lo hi x e _ _ ih => simp [put, ih fun k hk => h k (.integBody hk)]
  | bin op l r ihl ihr => simp [put, ihl fun k hk => h k (.binL hk), ihr fun k hk => h k (.binR hk)]
  | vec es ih =>
    simp only [put, putL_eq, Expr.vec.injEq]
    exact List.map_congr_left fun e he => ih e he fun k hk => h k (.vec he hk)

theorem put_vars (e : Expr K) : put .var e = e := by
  induction e using Expr.ind with
  | const | fsym | var => rfl
  | un op e ih => simp [put, ih]
  | integ lo hi x e _ _ ih => simp [put, ih]
  | bin op l r ihl ihr => simp [put, ihl, ihr]
  | vec es ih =>
    simp only [put, putL_eq, Expr.vec.injEq]
    rw [List.map_congr_left (g := id) ih, List.map_id]

theorem Spec.WellFormed.put {ρ : Nat → Expr K} (hρ : ∀ k, WellFormed (ρ k)) {e : Expr K} (h : WellFormed e) :
    WellFormed (put ρ e) := by
  induction h with
  | const c => exact .const c
  | var i => exact hρ i
  | fsym i t => exact .fsym i t
  | un op _ ih => exact .un op ih
  | integ x h1 h2 _ _ _ ih => exact .integ x h1 h2 ih
  | bin ho _ _ ihl ihr => exact .bin ho ihl ihr
  | vec _ ih =>
    refine .vec ?_
    rw [putL_eq]
    simpa using ih

theorem Spec.VecDim.put {n : Nat} {ρ : Nat → Expr K} (hρ : ∀ k, VecDim n (ρ k)) {e : Expr K} (h : VecDim n e) :
    VecDim n (put ρ e) := by
  induction h with
  | const c => exact .const c
  | var i => exact hρ i
  | fsym i t => exact .fsym i t
  | un op _ ih => exact .un op ih
  | integ x h1 h2 _ _ _ ih => exact .integ x h1 h2 ih
  | bin op _ _ ihl ihr => exact .bin op ihl ihr
  | vec hl _ ih =>
    refine .vec (by simpa [putL_eq] using hl) ?_
    rw [putL_eq]
    simpa using ih

theorem only_wellFormed (i : Nat) {r : Expr K} (hr : WellFormed r) (k : Nat) : WellFormed (only i r k) := by
  unfold only; split
  · exact hr
  · exact .var k

theorem only_vecDim {n : Nat} (i : Nat) {r : Expr K} (hr : VecDim n r) (k : Nat) : VecDim n (only i r k) := by
  unfold only; split
  · exact hr
  · exact .var k

theorem Spec.Sub.occursIn {t e : Expr K} (hs : Sub t e) {i : Nat} (h : Occurs i t) : Occurs i e := by
  induction hs with
  | refl => exact h
  | un _ ih => exact .un ih
  | integ _ ih => exact .integBody ih
  | binL _ ih => exact .binL ih
  | binR _ ih => exact .binR ih

theorem Occurs.of_put_only {i j : Nat} {s e : Expr K} (hi : ¬ Occurs i s) (h : Occurs i (put (only j s) e)) :
    Occurs i e := by
  induction e using Expr.ind with
  | const | fsym => exact h
  | var k =>
    simp only [put, only] at h
    split at h
    · exact absurd h hi
    · exact h
  | un op e ih => cases h with | un h => exact .un (ih h)
  | integ lo hi x e _ _ ih =>
    cases h with
    | integLo h => exact .integLo h
    | integHi h => exact .integHi h
    | integVar => exact .integVar
    | integBody h => exact .integBody (ih h)
  | bin op l r ihl ihr =>
    cases h with
    | binL h => exact .binL (ihl h)
    | binR h => exact .binR (ihr h)
  | vec es ih =>
    simp only [put, putL_eq] at h
    cases h with
    | vec hm h =>
      obtain ⟨e, he, rfl⟩ := List.mem_map.1 hm
      exact .vec he (ih e he h)

theorem Spec.NotInVectors.put {i j : Nat} {s e : Expr K} (hi : ¬ Occurs i s) (h : NotInVectors i e) :
    NotInVectors i (put (only j s) e) := by
  induction e using Expr.ind with
  | const | fsym => exact h
  | var k =>
    intro es hs ho
    simp only [Spec.put, only] at hs
    split at hs
    · exact hi (hs.occursIn ho)
    · cases hs
  | un op e ih => intro es hs; cases hs with | un hs => exact ih (fun es hs => h es (.un hs)) es hs
  | integ lo hi x e _ _ ih =>
    intro es hs; cases hs with | integ hs => exact ih (fun es hs => h es (.integ hs)) es hs
  | bin op l r ihl ihr =>
    intro es hs
    cases hs with
    | binL hs => exact ihl (fun es hs => h es (.binL hs)) es hs
    | binR hs => exact ihr (fun es hs => h es (.binR hs)) es hs
  | vec fs ih =>
    intro es hs ho
    simp only [Spec.put] at hs
    cases hs with
    | refl => exact h fs .refl (Occurs.of_put_only hi (j := j) (by simpa only [Spec.put] using ho))

variable [Num K]

theorem findRepl_pick (is : List Nat) (rs : List (Expr K)) (hl : is.length = rs.length) (e : Expr K) :
    ((∀ k, e ≠ .var k) → findRepl e (is.map .var) rs = .ok none) ∧
    ∀ k, e = .var k → (findRepl e (is.map .var) rs).map (fun o => o.getD e) = .ok (pick is rs k) := by
  induction is generalizing rs with
  | nil => simp [findRepl, pick]
  | cons i is ih =>
    cases rs with
    | nil => simp at hl
    | cons r rs =>
      obtain ⟨h1, h2⟩ := ih rs (by simpa using hl)
      rcases deepEq_var e i with ⟨h, he⟩ | ⟨h, he⟩ <;> simp only [List.map_cons, findRepl, h, Res.bind_ok]
      · subst he
        refine ⟨fun h => absurd rfl (h i), ?_⟩
        rintro k ⟨⟩
        simp [pick]
      · refine ⟨h1, ?_⟩
        rintro k rfl
        have : k ≠ i := fun hk => he (by rw [hk])
        simpa [pick, this] using h2 k rfl

theorem substM_pick (is : List Nat) (rs : List (Expr K)) (hl : is.length = rs.length) (e : Expr K) :
    substM (is.map .var) rs e = .ok (put (pick is rs) e) := by
  have hf := fun t => findRepl_pick is rs hl t
  induction e using Expr.ind with
  | const | fsym => simp [substM, put, (hf _).1]
  | var j => simpa [substM, put] using (hf (.var j)).2 j rfl
  | un op e ih => simp [substM, put, (hf _).1, ih]
  | integ lo hi x e _ _ ih => simp [substM, put, (hf _).1, ih]
  | bin op l r ihl ihr => simp [substM, put, (hf _).1, ihl, ihr]
  | vec es ih =>
    have : substML (is.map .var) rs es = .ok (putL (pick is rs) es) := by
      induction es with
      | nil => rfl
      | cons e es ih' => simp [substML, putL, ih e (by simp), ih' fun e he => ih e (by simp [he])]
    simp [substM, put, (hf _).1, this]

variable [SimpLaws K]

/-- An operation on finished operands, after replacing variables. -/
theorem sweeps_put_combine {ρ : Nat → Expr K} {op : BOp} {L R x : Expr K} (h : Sweeps (.bin op (put ρ L) (put ρ R)) x) :
    Sweeps (put ρ (combine op L R)) x := by
  have hkeep : Sweeps (put ρ (.bin op L R)) x := h
  obtain ⟨y, z, hl, hr, hj⟩ := h.joins
  generalize hX : combine op L R = X
  unfold combine at hX
  split at hX
  · subst hX; cases hl; cases hr; rw [hj.constL]; exact .const _
  · subst hX; cases hl; cases hr; rw [hj.constL]; exact .const _
  · subst hX; cases hl; cases hr; rw [hj.constL]; exact .const _
  · subst hX; cases hl; cases hr; rw [hj.constL]; exact .const _
  · split at hX <;> subst hX
    · next h => cases hl; rw [hj.constL, combine_plusZeroL h]; exact hr
    · exact hkeep
  · split at hX <;> subst hX
    · next h => cases hr; rw [hj.constR, combine_plusZeroR h]; exact hl
    · exact hkeep
  · split at hX
    · next h =>
      cases hl
      have h4 := hj.constL
      rw [combine_minusZeroL h] at h4
      split at hX
      · next h0 =>
        subst hX
        rw [h4, combine_multZeroL h0 _ fun b hb => hj.good b (h4.trans hb)]; exact .const _
      · next h0 =>
        split at hX <;> subst hX
        · next h1 => rw [h4, combine_multOneL (by simpa using h0) h1]; exact hr
        · exact (Joins.ofL h4 hj.good).sweeps (.const _) hr
    · subst hX; exact hkeep
  · split at hX <;> subst hX
    · next h => cases hr; rw [hj.constR, combine_minusZeroR h]; exact hl
    · exact hkeep
  · split at hX
    · next h =>
      subst hX; cases hl
      have h4 := hj.constL
      rw [h4, combine_multZeroL h _ fun b hb => hj.good b (h4.trans hb)]; exact .const _
    · next h =>
      split at hX <;> subst hX
      · next h1 => cases hl; rw [hj.constL, combine_multOneL (by simpa using h) h1]; exact hr
      · exact hkeep
  · split at hX
    · next h =>
      subst hX; cases hr
      have h4 := hj.constR
      rw [h4, combine_multZeroR h _ fun b hb => hj.good b (h4.trans hb)]; exact .const _
    · next h =>
      split at hX <;> subst hX
      · next h1 => cases hr; rw [hj.constR, combine_multOneR (by simpa using h) h1]; exact hl
      · exact hkeep
  · split at hX <;> subst hX
    · next h =>
      cases hl
      have h4 := hj.constL
      rw [h4, combine_divZeroL h _ fun b hb => hj.good b (h4.trans hb)]; exact .const _
    · exact hkeep
  · split at hX <;> subst hX
    · next h => cases hr; rw [hj.constR, combine_divOneR h]; exact hl
    · exact hkeep
  · subst hX; exact hkeep

omit [Num K] [SimpLaws K] in
theorem scalar_put (ρ : Nat → Expr K) {us vs : List (Expr K)} {d : Expr K} (h : scalar us vs = some d) :
    scalar (putL ρ us) (putL ρ vs) = some (put ρ d) := by
  have hf : ∀ (ps : List (Expr K × Expr K)) (a : Expr K),
      put ρ (ps.foldl (fun s p => .bin .plus s (.bin .mult p.1 p.2)) a) =
        (ps.map fun p => (put ρ p.1, put ρ p.2)).foldl (fun s p => .bin .plus s (.bin .mult p.1 p.2)) (put ρ a) := by
    intro ps
    induction ps with
    | nil => intro a; rfl
    | cons p ps ih => intro a; simp [ih, put]
  cases us <;> cases vs <;> simp only [scalar, reduceCtorEq] at h
  split at h <;> cases h
  next hl =>
  simp only [putL, scalar, putL_eq, List.length_map, hl, if_true, hf, put, List.zip_map]
  rfl

/-- Sweeping before replacing variables does not change the outcome of sweeping afterwards. -/
theorem sweeps_put {ρ : Nat → Expr K} {e y x : Expr K} (he : Sweeps e y) (h : Sweeps (put ρ e) x) :
    Sweeps (put ρ y) x := by
  induction he generalizing x with
  | const | fsym | var | vec => exact h
  | un _ _ ih => cases h with | un h hf => exact .un (ih h) hf
  | integ lo hi i _ ih => cases h with | integ _ _ _ h => exact .integ _ _ _ (ih h)
  | bin _ _ _ h2 _ ihl ihr =>
    subst h2
    obtain ⟨y, z, hl, hr, hj⟩ := Sweeps.joins (by simpa only [put] using h)
    exact sweeps_put_combine (hj.sweeps (ihl hl) (ihr hr))
  | dot _ _ hd _ ihl ihr ihd =>
    obtain ⟨y, z, hl, hr, hj⟩ := Sweeps.joins (by simpa only [put] using h)
    have h1 := ihl hl
    have h2 := ihr hr
    simp only [put] at h1 h2
    cases h1
    cases h2
    rcases hj with ⟨h3, -, -⟩ | ⟨-, us, vs, d, h4, h5, h6, h7⟩
    · exact absurd rfl (h3 _ _ rfl rfl)
    · cases h4
      cases h5
      rw [scalar_put ρ hd] at h6
      cases h6
      exact ihd h7

/-- What is tame after replacing variables was tame before. -/
theorem tame_of_put {ρ : Nat → Expr K} {e e' x : Expr K} (h : Sweeps e' x) (he : e' = put ρ e) : Tame e := by
  induction h generalizing e with
  | const | fsym | var | vec =>
    cases e <;> first | exact ⟨_, .const _⟩ | exact ⟨_, .var _⟩ | exact ⟨_, .fsym _ _⟩ | exact ⟨_, .vec _⟩ | cases he
  | un h hf ih =>
    cases e with
    | var i => exact ⟨_, .var i⟩
    | un op e =>
      cases he
      obtain ⟨y, hy⟩ := ih rfl
      refine ⟨_, .un hy ?_⟩
      rintro f c rfl rfl
      have := sweeps_put hy h
      cases this
      exact hf f c rfl rfl
    | _ => cases he
  | integ lo hi i h ih =>
    cases e with
    | var i => exact ⟨_, .var i⟩
    | integ lo hi j e =>
      cases he
      obtain ⟨y, hy⟩ := ih rfl
      exact ⟨_, .integ _ _ _ hy⟩
    | _ => cases he
  | @bin op l r y z x hl hr h1 h2 h3 ihl ihr =>
    cases e with
    | var i => exact ⟨_, .var i⟩
    | bin op l r =>
      cases he
      obtain ⟨y', hy⟩ := ihl rfl
      obtain ⟨z', hz⟩ := ihr rfl
      have hy' := sweeps_put hy hl
      have hz' := sweeps_put hz hr
      refine ⟨_, .bin hy hz ?_ rfl ?_⟩
      · rintro us vs rfl rfl rfl
        simp only [put] at hy' hz'
        cases hy'
        cases hz'
        exact h1 _ _ rfl rfl rfl
      · intro c hc
        have h4 := sweeps_put_combine (.bin hy' hz' h1 h2 h3)
        rw [hc] at h4
        cases h4
        exact h3 c rfl
    | _ => cases he
  | @dot l r us vs d x hl hr h1 h2 ihl ihr ihd =>
    cases e with
    | var i => exact ⟨_, .var i⟩
    | bin op l r =>
      cases he
      obtain ⟨y', hy⟩ := ihl rfl
      obtain ⟨z', hz⟩ := ihr rfl
      have hy' := sweeps_put hy hl
      have hz' := sweeps_put hz hr
      by_cases hv : ∃ us vs, y' = .vec us ∧ z' = .vec vs
      · obtain ⟨us', vs', rfl, rfl⟩ := hv
        simp only [put] at hy' hz'
        cases hy'
        cases hz'
        cases hd : scalar us' vs' with
        | none =>
          cases us' <;> cases vs' <;> simp only [scalar, putL, reduceCtorEq] at h1 hd
          split at hd <;> simp_all [putL_eq]
        | some d' =>
          rw [scalar_put ρ hd] at h1
          cases h1
          obtain ⟨y, h⟩ := ihd rfl
          exact ⟨y, .dot hy hz hd h⟩
      · refine ⟨_, .bin hy hz (fun us vs _ h1 h2 => hv ⟨us, vs, h1, h2⟩) rfl ?_⟩
        intro c hc
        have h4 := sweeps_put_combine (.dot hy' hz' h1 h2)
        rw [hc] at h4
        cases h4
        exact h2.good (scalar_bin h1) c rfl
    | _ => cases he

/-- Replacements with the same outcome, the same ones in vectors. -/
theorem sweeps_put_congr {ρ ρ' : Nat → Expr K} {e x : Expr K} (hρ : ∀ k x, Sweeps (ρ k) x → Sweeps (ρ' k) x)
    (hv : ∀ es, Sub (.vec es) e → put ρ' (.vec es) = put ρ (.vec es)) (h : Sweeps (put ρ e) x) :
    Sweeps (put ρ' e) x := by
  induction e using Expr.ind generalizing x with
  | const | fsym => exact h
  | var k => exact hρ k x h
  | vec es => rw [hv es .refl]; exact h
  | un op e ih => cases h with | un h hf => exact .un (ih (fun es hs => hv es (.un hs)) h) hf
  | integ lo hi i e _ _ ih =>
    cases h with | integ _ _ _ h => exact .integ _ _ _ (ih (fun es hs => hv es (.integ hs)) h)
  | bin op l r ihl ihr =>
    obtain ⟨y, z, hl, hr, hj⟩ := Sweeps.joins (by simpa only [put] using h)
    exact hj.sweeps (ihl (fun es hs => hv es (.binL hs)) hl) (ihr (fun es hs => hv es (.binR hs)) hr)

end VM
