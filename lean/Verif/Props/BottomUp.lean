import Verif.Rt.SweepLemmas
import Verif.Props.Simplify
import Verif.NumRat
import Verif.Rt.Dec
/-
C82: the repeated passes of the simplifier amount to one sweep from the leaves up, so simplifying parts
of an expression first does not change the result.
-/
namespace VM.Props
open VM.Spec
variable {K : Type} [Num K] [SimpLaws K] [EqbPER K]

omit [SimpLaws K] [EqbPER K] in
/-- No product of vectors is left by simplification. -/
theorem no_dot {e : Expr K} (hw : WellFormed e) (h : canSimplify e = .ok false) (us vs : List (Expr K)) :
    ¬ Sub (.bin .mult (.vec us) (.vec vs)) e := by
  intro hs
  have := (canSimplify_false_sub hs hw h).1
  simp [canSimplify, canBin, constCheck, isConst] at this

theorem sweeps_result (h01 : Num.eqb (Num.lit 0 : K) (Num.lit 1) = false) {e e' x : Expr K} (hw : WellFormed e)
    (hs : Sweeps e x) (h : Simplifies e (.ok e')) : e' = x ∧ Sweeps x x := by
  obtain ⟨⟨h1, h2⟩, h3⟩ := simplified_induct (P := fun y => Sweeps y x ∧ WellFormed y)
    (fun a b hp ⟨h1, h2⟩ => ⟨hp.sweeps h01 h2 h1, hp.wellFormed h2⟩) (Simplifies_iff.1 h) ⟨hs, hw⟩
  obtain rfl := sweeps_of_not_trivial (C09_normal_form e e' hw h) (no_dot h2 h3) h1
  exact ⟨rfl, h1⟩

/-- C82.  Simplification ends with what one sweep from the leaves up ends with: every operation is computed, dropped or
kept according to its finished operands, and products of vectors are written out and swept. -/
theorem C82_sweep (h01 : Num.eqb (Num.lit 0 : K) (Num.lit 1) = false) (n : Nat) (hn : 0 < n) (e x : Expr K)
    (hw : WellFormed e) (hd : VecDim n e) (hs : Sweeps e x) : Simplifies e (.ok x) := by
  obtain ⟨e', h⟩ := simplified_ok hn hw hd
  have h := Simplifies_iff.2 h
  rwa [(sweeps_result h01 hw hs h).1] at h

/-- C82.  If no vectors are multiplied, the sweep is a function that looks at every operation once. -/
theorem C82_bottom_up (h01 : Num.eqb (Num.lit 0 : K) (Num.lit 1) = false) (n : Nat) (hn : 0 < n)
    (e : Expr K) (hw : WellFormed e) (hd : VecDim n e) (ho : Ordinary e) : Simplifies e (.ok (bottomUp e)) :=
  C82_sweep h01 n hn e _ hw hd ho.clean.sweeps

theorem parts_keep (h01 : Num.eqb (Num.lit 0 : K) (Num.lit 1) = false) {n : Nat} {e e' : Expr K}
    (h : PartsSimplified (fun a b => Simplifies a (.ok b)) e e') :
    WellFormed e → VecDim n e → WellFormed e' ∧ VecDim n e' ∧ ∀ x, Sweeps e x → Sweeps e' x := by
  induction h with
  | same e => intro hw hd; exact ⟨hw, hd, fun _ h => h⟩
  | @here e e' h =>
    intro hw hd
    have hw' := (simplified_induct (P := WellFormed) (fun _ _ hp => hp.wellFormed) (Simplifies_iff.1 h) hw).1
    have hd' := (simplified_induct (P := VecDim n) (fun _ _ hp => hp.vecDim) (Simplifies_iff.1 h) hd).1
    refine ⟨hw', hd', fun x hs => ?_⟩
    obtain ⟨rfl, h2⟩ := sweeps_result h01 hw hs h
    exact h2
  | un op _ ih =>
    intro hw hd
    cases hw with | un _ hw =>
    cases hd with | un _ hd =>
    obtain ⟨h1, h2, h3⟩ := ih hw hd
    exact ⟨.un _ h1, .un _ h2, fun x h => by cases h with | un h hf => exact .un (h3 _ h) hf⟩
  | integ lo hi i _ ih =>
    intro hw hd
    cases hw with | integ _ hlo hhi hw =>
    cases hd with | integ _ dlo dhi hd =>
    obtain ⟨h1, h2, h3⟩ := ih hw hd
    exact ⟨.integ _ hlo hhi h1, .integ _ dlo dhi h2, fun x h => by
      cases h with | integ _ _ _ h => exact .integ _ _ _ (h3 _ h)⟩
  | bin op _ _ ihl ihr =>
    intro hw hd
    cases hw with | bin ho hwl hwr =>
    cases hd with | bin _ hdl hdr =>
    obtain ⟨h1, h2, h3⟩ := ihl hwl hdl
    obtain ⟨k1, k2, k3⟩ := ihr hwr hdr
    refine ⟨.bin ho h1 k1, .bin _ h2 k2, fun x h => ?_⟩
    obtain ⟨y, z, hl, hr, hj⟩ := h.joins
    exact hj.sweeps (h3 _ hl) (k3 _ hr)
  | again _ _ ih1 ih2 =>
    intro hw hd
    obtain ⟨h1, h2, h3⟩ := ih1 hw hd
    obtain ⟨k1, k2, k3⟩ := ih2 h1 h2
    exact ⟨k1, k2, fun x h => k3 x (h3 x h)⟩

/-- C82.  Simplifying any parts first, in any order, any number of times, does not change the result of
simplifying the whole. -/
theorem C82_parts (h01 : Num.eqb (Num.lit 0 : K) (Num.lit 1) = false) (n : Nat) (hn : 0 < n)
    (e e' : Expr K) (hw : WellFormed e) (hd : VecDim n e) (ho : Tame e)
    (h : PartsSimplified (fun a b => Simplifies a (.ok b)) e e') :
    ∃ r, Simplifies e (.ok r) ∧ Simplifies e' (.ok r) := by
  obtain ⟨x, hx⟩ := ho
  obtain ⟨h1, h2, h3⟩ := parts_keep h01 h hw hd
  exact ⟨x, C82_sweep h01 n hn e x hw hd hx, C82_sweep h01 n hn e' x h1 h2 (h3 x hx)⟩

/-- The expression `exp(x0*1 + (2-2)) - (0 - x1)*((3*2)/6)`. -/
def exSweep : Expr XRat :=
  .bin .minus
    (.un (.fn .exp) (.bin .plus (.bin .mult (.var 0) (.const (some 1)))
      (.bin .minus (.const (some 2)) (.const (some 2)))))
    (.bin .mult (.bin .minus (.const (some 0)) (.var 1))
      (.bin .div (.bin .mult (.const (some 3)) (.const (some 2))) (.const (some 6))))

/-- `Ordinary` for rational numbers, as a test. -/
def ordinaryB : Expr XRat → Bool
  | .un (.fn _) e => ordinaryB e && (match bottomUp e with | .const _ => false | _ => true)
  | .un _ e => ordinaryB e
  | .integ _ _ _ e => ordinaryB e
  | .bin op l r => ordinaryB l && ordinaryB r &&
      (match combine op (bottomUp l) (bottomUp r) with | .const none => false | _ => true) &&
      (match op, bottomUp l, bottomUp r with | .mult, .vec _, .vec _ => false | _, _, _ => true)
  | _ => true

theorem ordinary_of_test {e : Expr XRat} (h : ordinaryB e = true) : Ordinary e := by
  apply Clean.ordinary
  induction e using Expr.ind with
  | const | var | fsym | vec => trivial
  | un op e ih =>
    cases op
    case fn =>
      simp only [ordinaryB, Bool.and_eq_true] at h
      refine ⟨ih h.1, fun c hc => ?_⟩
      simp [hc] at h
    all_goals exact ih h
  | integ lo hi x e _ _ ih => exact ih h
  | bin op l r ihl ihr =>
    simp only [ordinaryB, Bool.and_eq_true] at h
    refine ⟨ihl h.1.1.1, ihr h.1.1.2, fun c hc hb => ?_, ?_⟩
    · cases hb; simp [hc] at h
    · rintro rfl us vs hl hr
      simp [hl, hr] at h

example : WellFormed exSweep ∧ VecDim 1 exSweep ∧ Ordinary exSweep ∧
    bottomUp exSweep = .bin .minus (.un (.fn .exp) (.var 0)) (.bin .mult (.const (some (-1))) (.var 1)) := by
  have h : Arith exSweep :=
    .bin (.inr (.inl rfl))
      (.fn _ (.bin (.inl rfl) (.bin (.inr (.inr (.inl rfl))) (.var _) (.const _))
        (.bin (.inr (.inl rfl)) (.const _) (.const _))))
      (.bin (.inr (.inr (.inl rfl))) (.bin (.inr (.inl rfl)) (.const _) (.var _))
        (.bin (.inr (.inr (.inr rfl))) (.bin (.inr (.inr (.inl rfl))) (.const _) (.const _)) (.const _)))
  exact ⟨h.wellFormed, h.vecDim 1, ordinary_of_test (by decide +kernel), by decide +kernel⟩

/-- The sweep for rational numbers, as a function; `n` bounds the depth. -/
def sweep : Nat → Expr XRat → Option (Expr XRat)
  | 0, _ => none
  | n + 1, .un op e => (sweep n e).bind fun x => match op, x with
    | .fn _, .const _ => none
    | _, _ => some (.un op x)
  | n + 1, .integ lo hi i e => (sweep n e).map (.integ lo hi i)
  | n + 1, .bin op l r => (sweep n l).bind fun y => (sweep n r).bind fun z => match op, y, z with
    | .mult, .vec us, .vec vs => (scalar us vs).bind (sweep n)
    | op, y, z => match combine op y z with
      | .const none => none
      | x => some x
  | _ + 1, e => some e

theorem sweeps_of_sweep {n : Nat} {e x : Expr XRat} (h : sweep n e = some x) : Sweeps e x := by
  induction n generalizing e x with
  | zero => cases h
  | succ n ih =>
    cases e with
    | const | var | fsym | vec => cases h; constructor
    | un op e =>
      simp only [sweep, Option.bind_eq_some_iff] at h
      obtain ⟨y, hy, h⟩ := h
      split at h
      · cases h
      · next hn =>
        cases h
        refine .un (ih hy) ?_
        rintro f c rfl rfl
        exact hn _ _ rfl rfl
    | integ lo hi i e =>
      simp only [sweep, Option.map_eq_some_iff] at h
      obtain ⟨y, hy, rfl⟩ := h
      exact .integ _ _ _ (ih hy)
    | bin op l r =>
      simp only [sweep, Option.bind_eq_some_iff] at h
      obtain ⟨y, hy, z, hz, h⟩ := h
      split at h
      · obtain ⟨d, hd, h⟩ := Option.bind_eq_some_iff.1 h
        exact .dot (ih hy) (ih hz) hd (ih h)
      · next hn =>
        split at h
        · cases h
        · next hg =>
          cases h
          refine .bin (ih hy) (ih hz) ?_ rfl ?_
          · rintro us vs rfl rfl rfl
            exact hn _ _ rfl rfl rfl
          · intro c hc hb
            cases hb
            exact hg hc

/-- `(0 + (x0, x1 + 0)) * (1*x1, 2) + 0`, a product of two vectors. -/
def exDot : Expr XRat :=
  .bin .plus (.bin .mult
    (.bin .plus (.const (some 0)) (.vec [.var 0, .bin .plus (.var 1) (.const (some 0))]))
    (.vec [.bin .mult (.const (some 1)) (.var 1), .const (some 2)])) (.const (some 0))

example : WellFormed exDot ∧ VecDim 2 exDot ∧
    Sweeps exDot (.bin .plus (.bin .mult (.var 0) (.var 1)) (.bin .mult (.var 1) (.const (some 2)))) := by
  refine ⟨?_, ?_, sweeps_of_sweep (n := 9) (by decide +kernel)⟩
  · refine .bin (.inl rfl) (.bin (.inr (.inr (.inl rfl))) (.bin (.inl rfl) (.const _) (.vec ?_)) (.vec ?_)) (.const _)
    all_goals simp only [List.mem_cons, List.not_mem_nil, or_false]; rintro e (rfl | rfl)
    · exact .var _
    · exact .bin (.inl rfl) (.var _) (.const _)
    · exact .bin (.inr (.inr (.inl rfl))) (.const _) (.var _)
    · exact .const _
  · refine .bin _ (.bin _ (.bin _ (.const _) (.vec rfl ?_)) (.vec rfl ?_)) (.const _)
    all_goals simp only [List.mem_cons, List.not_mem_nil, or_false]; rintro e (rfl | rfl)
    · exact .var _
    · exact .bin _ (.var _) (.const _)
    · exact .bin _ (.const _) (.var _)
    · exact .const _

/-- Two parts simplified first: the argument of `exp`, and the last factor. -/
example : ∃ e', e' ≠ exSweep ∧ PartsSimplified (fun a b => Simplifies a (.ok b)) exSweep e' :=
  ⟨.bin .minus (.un (.fn .exp) (.var 0)) (.bin .mult (.bin .minus (.const (some 0)) (.var 1)) (.const (some 1))),
    by decide +kernel,
    .bin _ (.un _ (.here ⟨3, by decide +kernel⟩)) (.bin _ (.same _) (.here ⟨3, by decide +kernel⟩))⟩

/-- C82 fails for a function of constants: `sin(0) + (x0 + 0)` becomes `x0`, but after its second part
is simplified, `sin(0) + x0` stays as it is. -/
theorem C82_function_of_constants :
    Simplifies (.bin .plus (.un (.fn .sin) (.const (some 0))) (.bin .plus (.var 0) (.const (some 0))) : Expr XRat)
      (.ok (.var 0)) ∧
    Simplifies (.bin .plus (.var 0) (.const (some 0)) : Expr XRat) (.ok (.var 0)) ∧
    Simplifies (.bin .plus (.un (.fn .sin) (.const (some 0))) (.var 0) : Expr XRat)
      (.ok (.bin .plus (.un (.fn .sin) (.const (some 0))) (.var 0))) :=
  ⟨⟨3, rfl⟩, ⟨2, rfl⟩, ⟨1, rfl⟩⟩

/-- C82 fails for undefined parts: `0 * ((x0*0)/(x0*0))` becomes `0`, but its second factor simplifies to
the undefined constant `0/0`, and `0` times that is undefined. -/
theorem C82_undefined_part :
    let z : Expr XRat := .bin .mult (.var 0) (.const (some 0))
    Simplifies (.bin .mult (.const (some 0)) (.bin .div z z)) (.ok (.const (some 0))) ∧
    Simplifies (.bin .div z z) (.ok (.const none)) ∧
    Simplifies (.bin .mult (.const (some 0)) (.const none) : Expr XRat) (.ok (.const none)) :=
  ⟨⟨2, rfl⟩, ⟨3, by decide +kernel⟩, ⟨2, by decide +kernel⟩⟩

end VM.Props
