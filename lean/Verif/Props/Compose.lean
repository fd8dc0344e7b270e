import Verif.Rt.ComposeLemmas
import Verif.Props.BottomUp
/-
C83: simplification before or between substitutions does not change the final result; substitutions compose.
-/
namespace VM.Props
open VM.Spec
variable {K : Type} [Num K] [SimpLaws K] [EqbPER K]

/-- `substitute` in terms of plain replacement. -/
theorem substitute_put (h01 : Num.eqb (Num.lit 0 : K) (Num.lit 1) = false) {n : Nat} (hn : 0 < n) {i : Nat}
    {r e x : Expr K} (hr : WellFormed r) (dr : VecDim n r) (he : WellFormed e) (de : VecDim n e)
    (hc : Sweeps (put (only i r) e) x) : substitute (.var i) r e = .ok x := by
  have h := C82_sweep h01 n hn _ x (he.put (only_wellFormed i hr)) (de.put (only_vecDim i dr)) hc
  rw [substitute, substE_var, rp_eq_put, Res.bind_ok]
  exact Simplifies_iff.1 h

theorem sweeps_sound (h01 : Num.eqb (Num.lit 0 : K) (Num.lit 1) = false) {n : Nat} (hn : 0 < n) {e x : Expr K}
    (hw : WellFormed e) (hd : VecDim n e) (hs : Sweeps e x) : WellFormed x ∧ VecDim n x ∧ Sweeps x x := by
  have h := C82_sweep h01 n hn e x hw hd hs
  have h' := Simplifies_iff.1 h
  exact ⟨(simplified_induct (P := WellFormed) (fun _ _ hp => hp.wellFormed) h' hw).1,
    (simplified_induct (P := VecDim n) (fun _ _ hp => hp.vecDim) h' hd).1, (sweeps_result h01 hw hs h).2⟩

theorem parts_put (h01 : Num.eqb (Num.lit 0 : K) (Num.lit 1) = false) {ρ : Nat → Expr K} {e e' : Expr K}
    (h : PartsSimplified (fun a b => Simplifies a (.ok b)) e e') :
    WellFormed e → WellFormed e' ∧ ∀ x, Sweeps (put ρ e) x → Sweeps (put ρ e') x := by
  induction h with
  | same e => intro hw; exact ⟨hw, fun _ h => h⟩
  | @here e e' h =>
    intro hw
    have hw' := (simplified_induct (P := WellFormed) (fun _ _ hp => hp.wellFormed) (Simplifies_iff.1 h) hw).1
    refine ⟨hw', fun x hs => ?_⟩
    obtain ⟨y, hy⟩ := tame_of_put hs rfl
    obtain ⟨rfl, -⟩ := sweeps_result h01 hw hy h
    exact sweeps_put hy hs
  | un op _ ih =>
    intro hw
    cases hw with | un _ hw =>
    obtain ⟨h1, h2⟩ := ih hw
    exact ⟨.un _ h1, fun x h => by cases h with | un h hf => exact .un (h2 _ h) hf⟩
  | integ lo hi i _ ih =>
    intro hw
    cases hw with | integ _ hlo hhi hw =>
    obtain ⟨h1, h2⟩ := ih hw
    exact ⟨.integ _ hlo hhi h1, fun x h => by cases h with | integ _ _ _ h => exact .integ _ _ _ (h2 _ h)⟩
  | bin op _ _ ihl ihr =>
    intro hw
    cases hw with | bin ho hwl hwr =>
    obtain ⟨h1, h2⟩ := ihl hwl
    obtain ⟨k1, k2⟩ := ihr hwr
    refine ⟨.bin ho h1 k1, fun x h => ?_⟩
    obtain ⟨y, z, hl, hr, hj⟩ := Sweeps.joins (by simpa only [put] using h)
    exact hj.sweeps (h2 _ hl) (k2 _ hr)
  | again _ _ ih1 ih2 =>
    intro hw
    obtain ⟨h1, h2⟩ := ih1 hw
    obtain ⟨k1, k2⟩ := ih2 h1
    exact ⟨k1, fun x h => k2 x (h2 x h)⟩

omit [Num K] [SimpLaws K] [EqbPER K] in
theorem only_vec_congr {i : Nat} {r r' e : Expr K} (h : NotInVectors i e) (es : List (Expr K)) (hs : Sub (.vec es) e) :
    put (only i r') (.vec es) = put (only i r) (.vec es) := by
  refine put_agree fun k hk => ?_
  have : k ≠ i := fun hki => h es hs (hki ▸ hk)
  simp [only, this]

omit [EqbPER K] in
theorem put_only_congr {i : Nat} {r r' e x : Expr K} (hb : ∀ x, Sweeps r x → Sweeps r' x)
    (hv : NotInVectors i e) (h : Sweeps (put (only i r) e) x) : Sweeps (put (only i r') e) x := by
  refine sweeps_put_congr (fun k x hk => ?_) (only_vec_congr hv) h
  unfold only at hk ⊢; split
  · next hki => exact hb x (by simpa [hki] using hk)
  · next hki => simpa [hki] using hk

/-- C83.  Simplifying any parts of the expression and of the replacement beforehand does not change the
result of a substitution. -/
theorem C83_simplify_first (h01 : Num.eqb (Num.lit 0 : K) (Num.lit 1) = false) (n : Nat) (hn : 0 < n) (i : Nat)
    (r r' e e' : Expr K) (hr : WellFormed r) (dr : VecDim n r) (he : WellFormed e) (de : VecDim n e)
    (ho : Tame (put (only i r) e)) (hv : NotInVectors i e)
    (hpr : PartsSimplified (fun a b => Simplifies a (.ok b)) r r')
    (hpe : PartsSimplified (fun a b => Simplifies a (.ok b)) e e') :
    ∃ t, substitute (.var i) r e = .ok t ∧ substitute (.var i) r' e' = .ok t := by
  obtain ⟨x, hx⟩ := ho
  obtain ⟨r1, r2, r3⟩ := parts_keep h01 hpr hr dr
  obtain ⟨-, e2, -⟩ := parts_keep h01 (n := n) hpe he de
  obtain ⟨e1, e3⟩ := parts_put h01 (ρ := only i r') hpe he
  exact ⟨x, substitute_put h01 hn hr dr he de hx,
    substitute_put h01 hn r1 r2 e1 e2 (e3 x (put_only_congr r3 hv hx))⟩

/-- C83.  The substitution lemma: substituting `r` for `x_i` and then `s` for `x_j` gives the same expression as
substituting `s` for `x_j` in `r` and in `e` first, and then the one for `x_i` in the other; `x_i` not in `s`. -/
theorem C83_compose (h01 : Num.eqb (Num.lit 0 : K) (Num.lit 1) = false) (n : Nat) (hn : 0 < n) (i j : Nat)
    (hij : i ≠ j) (r s e : Expr K) (hr : WellFormed r) (dr : VecDim n r) (hs : WellFormed s) (ds : VecDim n s)
    (he : WellFormed e) (de : VecDim n e) (his : ¬ Occurs i s) (hv : NotInVectors i e)
    (or : Tame (put (only j s) r)) (ho : Tame (put (only j s) (put (only i r) e))) :
    ∃ t u r' e', substitute (.var i) r e = .ok t ∧ substitute (.var j) s t = .ok u ∧
      substitute (.var j) s r = .ok r' ∧ substitute (.var j) s e = .ok e' ∧
      substitute (.var i) r' e' = .ok u := by
  have hsw : put (only j s) (put (only i r) e) = put (only i (put (only j s) r)) (put (only j s) e) := by
    rw [put_after, put_after]
    refine put_agree fun k _ => ?_
    by_cases hk : k = i
    · subst hk; simp [only, hij, put]
    · by_cases hkj : k = j
      · subst hkj
        have h1 : put (only i (put (only k s) r)) s = put .var s :=
          put_agree fun m hm => by
            have : m ≠ i := fun h => his (h ▸ hm)
            simp [only, this]
        simp [only, hk, put, h1, put_vars]
      · simp [only, hk, hkj, put]
  obtain ⟨u, hu⟩ := ho
  obtain ⟨r', hr'⟩ := or
  obtain ⟨t, ht⟩ := tame_of_put hu rfl
  have hu' := hu
  rw [hsw] at hu'
  obtain ⟨e', he'⟩ := tame_of_put hu' rfl
  obtain ⟨tw, td, -⟩ := sweeps_sound h01 hn (he.put (only_wellFormed i hr)) (de.put (only_vecDim i dr)) ht
  obtain ⟨ew, ed, -⟩ := sweeps_sound h01 hn (he.put (only_wellFormed j hs)) (de.put (only_vecDim j ds)) he'
  have w3 := hr.put (only_wellFormed j hs)
  obtain ⟨rw', rd, rs⟩ := sweeps_sound h01 hn w3 (dr.put (only_vecDim j ds)) hr'
  refine ⟨t, u, r', e', substitute_put h01 hn hr dr he de ht, substitute_put h01 hn hs ds tw td (sweeps_put ht hu),
    substitute_put h01 hn hs ds hr dr hr', substitute_put h01 hn hs ds he de he', ?_⟩
  refine substitute_put h01 hn rw' rd ew ed (sweeps_put he' (put_only_congr (fun x hx => ?_) (hv.put his) hu'))
  obtain ⟨rfl, -⟩ := sweeps_result h01 w3 hx (C82_sweep h01 n hn _ r' w3 (dr.put (only_vecDim j ds)) hr')
  exact rs

/-- C83.  Two substitutions in a row are one substitution of both variables at once. -/
theorem C83_at_once (h01 : Num.eqb (Num.lit 0 : K) (Num.lit 1) = false) (n : Nat) (hn : 0 < n) (i j : Nat)
    (r s e : Expr K) (hr : WellFormed r) (dr : VecDim n r) (hs : WellFormed s) (ds : VecDim n s)
    (he : WellFormed e) (de : VecDim n e) (hv : NotInVectors i e)
    (or : Tame (put (only j s) r)) (ho : Tame (put (only j s) (put (only i r) e))) :
    ∃ t u r', substitute (.var i) r e = .ok t ∧ substitute (.var j) s t = .ok u ∧
      substitute (.var j) s r = .ok r' ∧ substituteMany [.var i, .var j] [r', s] e = .ok u := by
  have hsw : put (only j s) (put (only i r) e) = put (pick [i, j] [put (only j s) r, s]) e := by
    rw [put_after]
    refine put_agree fun k _ => ?_
    by_cases hk : k = i
    · subst hk; simp [only, pick]
    · by_cases hkj : k = j
      · subst hkj; simp [only, pick, hk, put]
      · simp [only, pick, hk, hkj, put]
  obtain ⟨u, hu⟩ := ho
  obtain ⟨r', hr'⟩ := or
  obtain ⟨t, ht⟩ := tame_of_put hu rfl
  obtain ⟨tw, td, -⟩ := sweeps_sound h01 hn (he.put (only_wellFormed i hr)) (de.put (only_vecDim i dr)) ht
  have w3 := hr.put (only_wellFormed j hs)
  have d3 := dr.put (only_vecDim j ds)
  obtain ⟨rw', rd, rs⟩ := sweeps_sound h01 hn w3 d3 hr'
  have hu' : Sweeps (put (pick [i, j] [r', s]) e) u := by
    refine sweeps_put_congr (ρ := pick [i, j] [put (only j s) r, s]) (fun k x hk => ?_) (fun es hs' => ?_)
      (hsw ▸ hu)
    · simp only [pick] at hk ⊢
      split
      · next h =>
        rw [if_pos h] at hk
        obtain ⟨rfl, -⟩ := sweeps_result h01 w3 hk (C82_sweep h01 n hn _ r' w3 d3 hr')
        exact rs
      · next h => rwa [if_neg h] at hk
    · refine put_agree fun k hk => ?_
      have : k ≠ i := fun h => hv es hs' (h ▸ hk)
      simp [pick, this]
  refine ⟨t, u, r', substitute_put h01 hn hr dr he de ht, substitute_put h01 hn hs ds tw td (sweeps_put ht hu),
    substitute_put h01 hn hs ds hr dr hr', ?_⟩
  have hp : ∀ (P : Expr K → Prop), P r' → P s → (∀ k, P (.var k)) → ∀ k, P (pick [i, j] [r', s] k) := by
    intro P h1 h2 h3 k
    simp only [pick]
    split
    · exact h1
    · split
      · exact h2
      · exact h3 k
  have h := C82_sweep h01 n hn _ u (he.put (hp _ rw' hs .var)) (de.put (hp _ rd ds .var)) hu'
  have hm := substM_pick [i, j] [r', s] rfl e
  simp only [List.map_cons, List.map_nil] at hm
  simp only [substituteMany, List.length_cons, List.length_nil, if_true, hm, Res.bind_ok]
  exact Simplifies_iff.1 h

/-- `r = x1*1 + 0*x2`, `s = x2 - 0`, `e = (x0 + x1)/(1*x0)`: with `r` for `x0` and then `s` for `x1`. -/
example :
    let r : Expr XRat := .bin .plus (.bin .mult (.var 1) (.const (some 1))) (.bin .mult (.const (some 0)) (.var 2))
    let s : Expr XRat := .bin .minus (.var 2) (.const (some 0))
    let e : Expr XRat := .bin .div (.bin .plus (.var 0) (.var 1)) (.bin .mult (.const (some 1)) (.var 0))
    Arith r ∧ Arith s ∧ Arith e ∧ Tame (put (only 0 r) e) ∧ Tame (put (only 1 s) r) ∧
      Tame (put (only 1 s) (put (only 0 r) e)) ∧ ¬ Occurs 0 s ∧ NotInVectors 0 e ∧
      substitute (.var 0) r e = .ok (.bin .div (.bin .plus (.var 1) (.var 1)) (.var 1)) := by
  intro r s e
  refine ⟨.bin (.inl rfl) (.bin (.inr (.inr (.inl rfl))) (.var _) (.const _))
      (.bin (.inr (.inr (.inl rfl))) (.const _) (.var _)), .bin (.inr (.inl rfl)) (.var _) (.const _),
    .bin (.inr (.inr (.inr rfl))) (.bin (.inl rfl) (.var _) (.var _))
      (.bin (.inr (.inr (.inl rfl))) (.const _) (.var _)),
    ⟨_, sweeps_of_sweep (n := 9) (x := .bin .div (.bin .plus (.var 1) (.var 1)) (.var 1)) (by decide +kernel)⟩,
    ⟨_, sweeps_of_sweep (n := 9) (x := .var 2) (by decide +kernel)⟩,
    ⟨_, sweeps_of_sweep (n := 9) (x := .bin .div (.bin .plus (.var 2) (.var 2)) (.var 2)) (by decide +kernel)⟩,
    ?_, ?_, by decide +kernel⟩
  · intro h
    dsimp only [s] at h
    cases h with
    | binL h => cases h
    | binR h => cases h
  · intro es h
    dsimp only [e] at h
    cases h with
    | binL h => cases h with
      | binL h => cases h
      | binR h => cases h
    | binR h => cases h with
      | binL h => cases h
      | binR h => cases h

/-- `r = (x1, x2 + 0)`, `s = x2 - 0`, `e = x0 * (x1, 1)`: with `r` for `x0` this is a product of vectors. -/
example :
    let r : Expr XRat := .vec [.var 1, .bin .plus (.var 2) (.const (some 0))]
    let s : Expr XRat := .bin .minus (.var 2) (.const (some 0))
    let e : Expr XRat := .bin .mult (.var 0) (.vec [.var 1, .const (some 1)])
    Tame (put (only 0 r) e) ∧ Tame (put (only 1 s) r) ∧ Tame (put (only 1 s) (put (only 0 r) e)) ∧ NotInVectors 0 e ∧
      substitute (.var 0) r e = .ok (.bin .plus (.bin .mult (.var 1) (.var 1)) (.var 2)) := by
  intro r s e
  refine ⟨⟨_, sweeps_of_sweep (n := 9) (x := .bin .plus (.bin .mult (.var 1) (.var 1)) (.var 2)) (by decide +kernel)⟩,
    ⟨_, .vec _⟩,
    ⟨_, sweeps_of_sweep (n := 9) (x := .bin .plus (.bin .mult (.var 2) (.var 2)) (.var 2)) (by decide +kernel)⟩,
    ?_, by decide +kernel⟩
  intro es h ho
  dsimp only [e] at h
  cases h with
  | binL h => cases h
  | binR h => cases h with
    | refl => cases ho with | vec hm ho => simp at hm; rcases hm with rfl | rfl <;> cases ho

/-- Parts simplified beforehand, both in the expression and in the replacement. -/
example : PartsSimplified (fun a b => Simplifies a (.ok b))
    (.bin .div (.bin .plus (.var 0) (.var 1)) (.bin .mult (.const (some 1)) (.var 0)) : Expr XRat)
    (.bin .div (.bin .plus (.var 0) (.var 1)) (.var 0)) := .bin _ (.same _) (.here ⟨2, rfl⟩)

/-- C83 fails if a function gets a constant argument: in `sin(x0) + (x1 + 0)`, substituting `0` for `x0` gives `x1`;
after simplification it gives `sin(0) + x1`. -/
theorem C83_function_of_constants :
    let e : Expr XRat := .bin .plus (.un (.fn .sin) (.var 0)) (.bin .plus (.var 1) (.const (some 0)))
    let e' : Expr XRat := .bin .plus (.un (.fn .sin) (.var 0)) (.var 1)
    Simplifies e (.ok e') ∧ substitute (.var 0) (.const (some 0)) e = .ok (.var 1) ∧
      substitute (.var 0) (.const (some 0)) e' = .ok (.bin .plus (.un (.fn .sin) (.const (some 0))) (.var 1)) :=
  ⟨⟨2, rfl⟩, by decide +kernel, by decide +kernel⟩

/-- C83 fails where a value does not exist: in `0 * (1/x0)`, substituting `0` for `x0` gives an undefined constant;
after simplification to `0` it gives `0`. -/
theorem C83_undefined :
    let e : Expr XRat := .bin .mult (.const (some 0)) (.bin .div (.const (some 1)) (.var 0))
    Simplifies e (.ok (.const (some 0))) ∧ substitute (.var 0) (.const (some 0)) e = .ok (.const none) ∧
      substitute (.var 0) (.const (some 0)) (.const (some 0) : Expr XRat) = .ok (.const (some 0)) :=
  ⟨⟨2, rfl⟩, by decide +kernel, by decide +kernel⟩

/-- C83 fails in vectors, whose entries are not simplified: the replacement stays as it was given. -/
theorem C83_vectors :
    substitute (.var 0) (.bin .plus (.var 1) (.const (some 0))) (.vec [.var 0] : Expr XRat) =
      .ok (.vec [.bin .plus (.var 1) (.const (some 0))]) ∧
    Simplifies (.bin .plus (.var 1) (.const (some 0)) : Expr XRat) (.ok (.var 1)) ∧
    substitute (.var 0) (.var 1) (.vec [.var 0] : Expr XRat) = .ok (.vec [.var 1]) :=
  ⟨by decide +kernel, ⟨2, rfl⟩, by decide +kernel⟩

end VM.Props
