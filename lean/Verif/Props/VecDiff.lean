import Verif.Rt.VecDiffLemmas
import Verif.Props.Vector
import Verif.NumRat
import Verif.Rt.Dec
/-
Property C59 (vectors are differentiated and substituted entry by entry; the product rule for the dot product).
-/
namespace VM.Props
open Spec Filter Topology
section
variable {K : Type} [Num K]

/-- C59.  The derivative of a vector expression is a vector of the same size, whose entries are, up to
simplification, the derivatives of the entries. -/
theorem C59_diff (x : DVar) (es : List (Expr K)) (r : Expr K) (h : diff x (.vec es) = .ok r) :
    ∃ ds, r = .vec ds ∧ List.Forall₂ (fun e d => diff x e = simplified d) es ds := by
  rw [diff_vec, Res.map_eq_ok] at h
  obtain ⟨ds, h, rfl⟩ := h
  refine ⟨ds, rfl, (diffEL_ok.1 h).imp fun e d hd => by rw [diff, hd]; rfl⟩

/-- C59.  It fails only if differentiating an entry fails, and then with the exception of an entry. -/
theorem C59_diff_fails (x : DVar) (es : List (Expr K)) :
    (∀ y, diff x (.vec es) = .throw y → ∃ e ∈ es, diff x e = .throw y) ∧
    (diff x (.vec es) = .ub → ∃ e ∈ es, diff x e = .ub) := by
  rw [diff_vec]
  obtain ⟨h1, h2⟩ := diffEL_not_ok (x := x) (es := es)
  constructor
  · intro y hy
    cases h : diffEL x es with
    | ok ds => rw [h] at hy; simp at hy
    | throw z =>
      rw [h] at hy; cases hy
      obtain ⟨e, he, hd⟩ := h1 _ h
      exact ⟨e, he, by rw [diff, hd]; rfl⟩
    | ub => rw [h] at hy; simp at hy
  · intro hy
    cases h : diffEL x es with
    | ok ds => rw [h] at hy; simp at hy
    | throw z => rw [h] at hy; simp at hy
    | ub =>
      obtain ⟨e, he, hd⟩ := h2 h
      exact ⟨e, he, by rw [diff, hd]; rfl⟩

/-- C59.  Substituting for anything but a vector works entry by entry. -/
theorem C59_substitute (s t : Expr K) (hs : ∀ fs, s ≠ .vec fs) (es : List (Expr K)) (r : Expr K)
    (h : substitute s t (.vec es) = .ok r) :
    ∃ ds, r = .vec ds ∧ List.Forall₂ (fun e d => substitute s t e = simplified d) es ds := by
  rw [substitute_vec hs, Res.map_eq_ok] at h
  obtain ⟨ds, h, rfl⟩ := h
  refine ⟨ds, rfl, (substEL_ok.1 h).imp fun e d hd => by rw [substitute, hd]; rfl⟩

/-- C59.  It fails only if substituting in an entry fails. -/
theorem C59_substitute_fails (s t : Expr K) (hs : ∀ fs, s ≠ .vec fs) (es : List (Expr K)) :
    (∀ y, substitute s t (.vec es) = .throw y → ∃ e ∈ es, substitute s t e = .throw y) ∧
    (substitute s t (.vec es) = .ub → ∃ e ∈ es, substitute s t e = .ub) := by
  rw [substitute_vec hs]
  obtain ⟨h1, h2⟩ := substEL_not_ok (s := s) (r := t) (es := es)
  constructor
  · intro y hy
    cases h : substEL s t es with
    | ok ds => rw [h] at hy; simp at hy
    | throw z =>
      rw [h] at hy; cases hy
      obtain ⟨e, he, hd⟩ := h1 _ h
      exact ⟨e, he, by rw [substitute, hd]; rfl⟩
    | ub => rw [h] at hy; simp at hy
  · intro hy
    cases h : substEL s t es with
    | ok ds => rw [h] at hy; simp at hy
    | throw z => rw [h] at hy; simp at hy
    | ub =>
      obtain ⟨e, he, hd⟩ := h2 h
      exact ⟨e, he, by rw [substitute, hd]; rfl⟩

end

/-- C59.  Real arithmetic: entry `k` of the derivative of a vector of smooth expressions evaluates to the
derivative of entry `k`. -/
theorem C59_derivative (i : Nat) (es : List (Expr XReal)) (hs : ∀ e ∈ es, Smooth e) :
    ∃ ds, diff (.var i) (.vec es) = .ok (.vec ds) ∧ ds.length = es.length ∧
      ∀ (k : Nat) (e d : Expr XReal), es[k]? = some e → ds[k]? = some d →
        ∀ (o : Order XReal) (v : List XReal) (x₀ a : ℝ), v[i]? = some (some x₀) →
          eval o v e = .ok (some a) →
          (∀ s, Sub (.un (.fn .sqrt) s) e → eval o v s ≠ .ok (some 0)) →
          ∃ (f : ℝ → ℝ) (f' : ℝ),
            (∀ᶠ t in 𝓝 x₀, eval o (v.set i (some t)) e = .ok (some (f t))) ∧
            HasDerivAt f f' x₀ ∧ eval o v d = .ok (some f') := by
  obtain ⟨ds, hds⟩ := forall₂_raw i es hs
  refine ⟨ds, by rw [diff_vec, diffEL_ok.2 hds]; rfl, hds.length_eq.symm, ?_⟩
  intro k e d hk hd
  have he : e ∈ es := List.mem_of_getElem? hk
  have hed : diffE (.var i) e = .ok d := forall₂_get hds hk hd
  obtain ⟨d', hd', -, H⟩ := raw_derivative i (hs e he)
  obtain rfl : d = d' := by simpa [hed] using hd'
  exact H

/-- C59.  The product rule: differentiating the dot product `a * b` of two vectors of smooth expressions gives
an expression whose value is the derivative of the sum of the products of the entries. -/
theorem C59_dot (i : Nat) (a b : List (Expr XReal)) (hs : ∀ e ∈ a ++ b, Smooth e) (hl : a.length = b.length)
    (hne : a ≠ []) :
    ∃ e', diff (.var i) (.bin .mult (.vec a) (.vec b)) = .ok e' ∧
      ∀ (o : Order XReal) (v : List XReal) (x₀ : ℝ), v[i]? = some (some x₀) →
        (∀ e ∈ a ++ b, ∃ c : ℝ, eval o v e = .ok (some c)) →
        (∀ e ∈ a ++ b, ∀ s, Sub (.un (.fn .sqrt) s) e → eval o v s ≠ .ok (some 0)) →
        ∃ (f : ℝ → ℝ) (f' : ℝ),
          (∀ᶠ t in 𝓝 x₀, ∃ xs ys : List ℝ,
            a.map (eval o (v.set i (some t))) = xs.map (fun x => .ok (some x)) ∧
            b.map (eval o (v.set i (some t))) = ys.map (fun y => .ok (some y)) ∧
            f t = (List.zipWith (· * ·) xs ys).sum) ∧
          HasDerivAt f f' x₀ ∧ eval o v e' = .ok (some f') := by
  cases a with
  | nil => exact absurd rfl hne
  | cons p a => cases b with
    | nil => simp at hl
    | cons q b =>
    have hl' : a.length = b.length := by simpa using hl
    obtain ⟨da, hda⟩ := forall₂_raw i (p :: a) fun e he => hs e (List.mem_append_left _ he)
    obtain ⟨db, hdb⟩ := forall₂_raw i (q :: b) fun e he => hs e (List.mem_append_right _ he)
    obtain ⟨dp, da, rfl⟩ : ∃ x xs, da = x :: xs := by cases hda; exact ⟨_, _, rfl⟩
    obtain ⟨dq, db, rfl⟩ : ∃ x xs, db = x :: xs := by cases hdb; exact ⟨_, _, rfl⟩
    have la := hda.length_eq
    have lb := hdb.length_eq
    simp only [List.length_cons, Nat.add_right_cancel_iff] at la lb
    obtain ⟨hp, hda'⟩ := List.forall₂_cons.1 hda
    obtain ⟨hq, hdb'⟩ := List.forall₂_cons.1 hdb
    have e1 : dot (dp :: da) (q :: b) = .ok (dotFrom (.bin .mult dp q) da b) := by rw [dot, if_pos (by omega)]
    have e2 : dot (p :: a) (dq :: db) = .ok (dotFrom (.bin .mult p dq) a db) := by rw [dot, if_pos (by omega)]
    have e3 : dot (p :: a) (q :: b) = .ok (dotFrom (.bin .mult p q) a b) := by rw [dot, if_pos (by omega)]
    have hmem : ∀ e ∈ a ++ b, e ∈ p :: a ++ q :: b := by intro e he; simp at he ⊢; tauto
    have hS : Smooth (dotFrom (.bin .mult p q) a b) :=
      .dotFrom (.bin (.inr (.inr (.inl rfl))) (hs p (by simp)) (hs q (by simp))) fun e he => hs e (hmem e he)
    have had : ∀ d ∈ dp :: da ++ dq :: db, ∃ e ∈ p :: a ++ q :: b, diffE (.var i) e = .ok d := by
      intro d hd
      rcases List.mem_append.1 hd with hd | hd
      · obtain ⟨e, he, h⟩ := forall₂_mem hda hd; exact ⟨e, List.mem_append_left _ he, h⟩
      · obtain ⟨e, he, h⟩ := forall₂_mem hdb hd; exact ⟨e, List.mem_append_right _ he, h⟩
    have harith : ∀ e ∈ (p :: a ++ q :: b) ++ (dp :: da ++ dq :: db), Arith e := by
      intro e he
      rcases List.mem_append.1 he with he | he
      · exact (hs e he).arith
      · obtain ⟨f, hf, h⟩ := had e he
        exact diffE_arith (hs f hf).arith h
    have hA : Arith (.bin .plus (dotFrom (.bin .mult dp q) da b) (dotFrom (.bin .mult p dq) a db)) := by
      refine .bin (.inl rfl) (.dotFrom (.bin (.inr (.inr (.inl rfl))) (harith _ (by simp)) (harith _ (by simp))) ?_)
        (.dotFrom (.bin (.inr (.inr (.inl rfl))) (harith _ (by simp)) (harith _ (by simp))) ?_)
      all_goals
        intro e he
        refine harith e ?_
        simp only [List.mem_append, List.mem_cons] at he ⊢; tauto
    obtain ⟨e', he'⟩ := simplified_ok_arith hA
    refine ⟨e', ?_, ?_⟩
    · rw [← he', ← simplified_two_dots e1 e2]
      simp [diff, diffE, diffBin, diffEL_ok.2 hda, diffEL_ok.2 hdb]
    · intro o v x₀ hi hv hr
      obtain ⟨d, hd, -, H⟩ := raw_derivative i hS
      have hvd : ∀ d ∈ dp :: da ++ dq :: db, ∃ c : ℝ, eval o v d = .ok (some c) := by
        intro d hd
        obtain ⟨e, he, h⟩ := had d hd
        obtain ⟨d', hd', -, H⟩ := raw_derivative i (hs e he)
        obtain rfl : d = d' := by simpa [h] using hd'
        obtain ⟨c, hc⟩ := hv e he
        obtain ⟨f, f', -, -, h3⟩ := H o v x₀ c hi hc (hr e he)
        exact ⟨f', h3⟩
      obtain ⟨ev, hev⟩ : ∃ c : ℝ, eval o v (dotFrom (.bin .mult p q) a b) = .ok (some c) := by
        obtain ⟨xs, hx⟩ := values_of (o := o) (v := v) (p :: a) fun e he => hv e (List.mem_append_left _ he)
        obtain ⟨ys, hy⟩ := values_of (o := o) (v := v) (q :: b) fun e he => hv e (List.mem_append_right _ he)
        obtain ⟨e, h1, h2⟩ := C31_dot_real o v (p :: a) (q :: b) xs ys hx hy hl (by simp)
        rw [e3] at h1; cases h1
        exact ⟨_, h2⟩
      obtain ⟨f, f', h1, h2, h3⟩ := H o v x₀ ev hi hev (by
        intro s hsub
        rcases hsub.of_dotFrom with hsub | ⟨e, he, hsub⟩
        · cases hsub with
          | binL h => exact hr p (by simp) s h
          | binR h => exact hr q (by simp) s h
        · exact hr e (hmem e he) s hsub)
      refine ⟨f, f', ?_, h2, ?_⟩
      · have hev : ∀ e ∈ p :: a ++ q :: b, ∃ f : ℝ → ℝ,
            ∀ᶠ t in 𝓝 x₀, eval o (v.set i (some t)) e = .ok (some (f t)) := by
          intro e he
          obtain ⟨_, -, -, H⟩ := raw_derivative i (hs e he)
          obtain ⟨c, hc⟩ := hv e he
          obtain ⟨f, -, h, -⟩ := H o v x₀ c hi hc (hr e he)
          exact ⟨f, h⟩
        filter_upwards [h1, eventually_values (p :: a) fun e he => hev e (List.mem_append_left _ he),
          eventually_values (q :: b) fun e he => hev e (List.mem_append_right _ he)] with t ht hx hy
        obtain ⟨xs, hx⟩ := hx
        obtain ⟨ys, hy⟩ := hy
        obtain ⟨e, g1, g2⟩ := C31_dot_real o _ (p :: a) (q :: b) xs ys hx hy hl (by simp)
        rw [e3] at g1; cases g1
        rw [ht] at g2
        exact ⟨xs, ys, hx, hy, by simpa using g2⟩
      · obtain ⟨cp, hcp⟩ := hv p (by simp)
        obtain ⟨cq, hcq⟩ := hv q (by simp)
        obtain ⟨cp', hcp'⟩ := hvd dp (by simp)
        obtain ⟨cq', hcq'⟩ := hvd dq (by simp)
        refine simplified_value he' o v ?_ (by simp [SimpLaws.bad])
        refine dotFrom_split hda' hdb' hl' ?_ (acc := .bin .mult p q)
          (dacc := .bin .plus (.bin .mult dp q) (.bin .mult p dq)) (p1 := cp' * cq) (p2 := cp * cq') ?_ ?_ ?_ ?_ hd h3
        · intro e he
          simp only [List.append_assoc] at he
          rcases List.mem_append.1 he with he | he
          · exact hv e (by simp [he])
          rcases List.mem_append.1 he with he | he
          · exact hv e (by simp [he])
          · refine hvd e ?_
            simp only [List.mem_append, List.mem_cons] at he ⊢; tauto
        · simp [diffE, diffBin, hp, hq]
        · exact eval_plus (eval_mult hcp' hcq) (eval_mult hcp hcq')
        · exact eval_mult hcp' hcq
        · exact eval_mult hcp hcq'
/-! ### The hypotheses can be met -/

/-- `(x*y, x)` by `x` is a vector; the entries are the derivatives before simplification. -/
example : diff (.var 0) (.vec [.bin .mult (.var 0) (.var 1), .var 0] : Expr XRat) =
    .ok (.vec [.bin .plus (.bin .mult (.const (some 1)) (.var 1)) (.bin .mult (.var 0) (.const (some 0))),
      .const (some 1)]) := by
  rw [diff_vec]; decide +kernel

/-- `(x, |x|)` by `x` throws, `(x, y)` with `x` replaced by 2 does not. -/
example : diff (.var 0) (.vec [.var 0, .un (.fn .fabs) (.var 0)] : Expr XRat) = .throw .notDifferentiable := by
  rw [diff_vec]; decide +kernel

example : substitute (.var 0) (.const (some 2)) (.vec [.var 0, .var 1] : Expr XRat) =
    .ok (.vec [.const (some 2), .var 1]) := by
  rw [substitute_vec (by intro _ h; cases h)]; decide +kernel

/-- The dot product of `(x, 2)` and `(x*y, y)` at `(3, 4)`. -/
example :
    let a : List (Expr XReal) := [.var 0, .const (some 2)]
    let b : List (Expr XReal) := [.bin .mult (.var 0) (.var 1), .var 1]
    (∀ e ∈ a ++ b, Smooth e) ∧ a.length = b.length ∧ a ≠ [] ∧
    (∀ e ∈ a ++ b, ∃ c : ℝ, eval leftFirst [some 3, some 4] e = .ok (some c)) ∧
    ∀ e ∈ a ++ b, ∀ s, Sub (.un (.fn .sqrt) s) e → eval leftFirst [some 3, some 4] s ≠ .ok (some 0) := by
  refine ⟨?_, rfl, by simp, ?_, ?_⟩
  · intro e he
    simp only [List.cons_append, List.nil_append, List.mem_cons, List.not_mem_nil, or_false] at he
    rcases he with rfl | rfl | rfl | rfl
    · exact .var 0
    · exact .const _
    · exact .bin (.inr (.inr (.inl rfl))) (.var 0) (.var 1)
    · exact .var 1
  · intro e he
    simp only [List.cons_append, List.nil_append, List.mem_cons, List.not_mem_nil, or_false] at he
    rcases he with rfl | rfl | rfl | rfl
    · exact ⟨3, rfl⟩
    · exact ⟨2, rfl⟩
    · exact ⟨3 * 4, rfl⟩
    · exact ⟨4, rfl⟩
  · intro e he s hs
    simp only [List.cons_append, List.nil_append, List.mem_cons, List.not_mem_nil, or_false] at he
    rcases he with rfl | rfl | rfl | rfl
    · cases hs
    · cases hs
    · cases hs with
      | binL h => cases h
      | binR h => cases h
    · cases hs

end VM.Props
