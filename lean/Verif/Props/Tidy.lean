import Verif.Spec.Tidy
import Verif.Rt.Coords
import Verif.Rt.Traverse
import Verif.Rt.SubstLemmas
import Verif.Rt.DiffLemmas
import Verif.Props.Simplify
import Verif.Rt.Dec
import Verif.NumRat
/-
Property C109: results of diff, substitute and apply_coordinate_system are already simplified.
-/
namespace VM
open Spec
variable {K : Type} [Num K]

omit [Num K] in
theorem Spec.Replaced.wellFormed {hit : Expr K → Expr K → Prop} {miss : Expr K → Prop} {e e' : Expr K}
    (hh : ∀ t r, hit t r → WellFormed r) (h : Replaced hit miss e e') (hw : WellFormed e) :
    WellFormed e' := by
  induction h with
  | hit h => exact hh _ _ h
  | const _ => exact hw
  | var _ => exact hw
  | fsym _ => exact hw
  | un _ _ ih => cases hw with | un _ h => exact .un _ (ih h)
  | integ _ _ ih => cases hw with | integ _ h1 h2 h => exact .integ _ h1 h2 (ih h)
  | bin _ _ _ ih1 ih2 => cases hw with | bin ho h1 h2 => exact .bin ho (ih1 h1) (ih2 h2)
  | @vec es es' _ hl _ ih =>
    cases hw with
    | vec h =>
      refine .vec fun a' ha' => ?_
      obtain ⟨k, hk⟩ := List.getElem?_of_mem ha'
      obtain ⟨hlt, _⟩ := List.getElem?_eq_some_iff.1 hk
      have hke : es[k]? = some (es[k]'(by omega)) := List.getElem?_eq_getElem _
      exact ih k _ _ hke hk (h _ (List.mem_of_getElem? hke))

theorem substM_wellFormed {ss rs : List (Expr K)} {e t : Expr K} (hr : ∀ r ∈ rs, WellFormed r)
    (hw : WellFormed e) (h : substM ss rs e = .ok t) : WellFormed t :=
  (substM_replaced h).wellFormed (fun _ _ ⟨_, _, _, hk, _⟩ => hr _ (List.mem_of_getElem? hk)) hw

theorem simplified_tidy {e e' : Expr K} (hw : WellFormed e) (h : simplified e = .ok e') :
    WellFormed e' ∧ Simplest e' := by
  obtain ⟨hw', hc⟩ := simplified_induct (P := WellFormed) (fun _ _ hp => hp.wellFormed) h hw
  exact ⟨hw', hc, ⟨1, by simp [simplifyLoop, hc]⟩,
    fun s hs => Props.C09_normal_form e e' hw (Simplifies_iff.2 h) s hs⟩

omit [Num K] in
theorem diffSymbol_wellFormed (i t j : Nat) : WellFormed (diffSymbol i t j : Expr K) := by
  unfold diffSymbol
  exact .un _ (.fsym _ _)

end VM

namespace VM.Props
open Spec
variable {K : Type} [Num K]

/-- C109.  What `diff` returns needs no simplification. -/
theorem C109_diff (x : DVar) (e d : Expr K) (hw : WellFormed e) (h : diff x e = .ok d) :
    WellFormed d ∧ Simplest d := by
  obtain ⟨d', h1, h2⟩ := Res.bind_eq_ok.1 h
  exact simplified_tidy (diffE_wellFormed hw h1) h2

/-- C109.  What `substitute` returns needs no simplification, be the searched expression what it may. -/
theorem C109_substitute (s r e t : Expr K) (hr : WellFormed r) (hw : WellFormed e)
    (h : substitute s r e = .ok t) : WellFormed t ∧ Simplest t := by
  obtain ⟨d', h1, h2⟩ := Res.bind_eq_ok.1 h
  rw [substE_eq_substM] at h1
  exact simplified_tidy (substM_wellFormed (by simpa using hr) hw h1) h2

/-- C109.  Nor does what the list version returns. -/
theorem C109_substituteMany (ss rs : List (Expr K)) (e t : Expr K) (hr : ∀ r ∈ rs, WellFormed r)
    (hw : WellFormed e) (h : substituteMany ss rs e = .ok t) : WellFormed t ∧ Simplest t := by
  unfold substituteMany at h
  split at h
  · obtain ⟨d', h1, h2⟩ := Res.bind_eq_ok.1 h
    exact simplified_tidy (substM_wellFormed hr hw h1) h2
  · cases h

/-- C109.  Nor does the result of `apply_coordinate_system`. -/
theorem C109_coords (n : Dim) (e t : Expr K) (hw : WellFormed e) (h : coords n e = .ok t) :
    WellFormed t ∧ Simplest t := by
  have main : ∀ gu gv du dv : Expr K, WellFormed gu → WellFormed gv → WellFormed du → WellFormed dv →
      coordsWith gu gv du dv e = .ok t → WellFormed t ∧ Simplest t := by
    intro gu gv du dv h1 h2 h3 h4 h
    obtain ⟨e1, he1, h⟩ := Res.bind_eq_ok.1 h
    obtain ⟨e2, he2, h⟩ := Res.bind_eq_ok.1 h
    obtain ⟨e3, he3, h⟩ := Res.bind_eq_ok.1 h
    have w1 := (C109_substitute _ _ _ _ h1 hw he1).1
    have w2 := (C109_substitute _ _ _ _ h2 w1 he2).1
    have w3 := (C109_substitute _ _ _ _ h3 w2 he3).1
    exact C109_substitute _ _ _ _ h4 w3 h
  have p : IsArithOp .plus := .inl rfl
  have ds := diffSymbol_wellFormed (K := K)
  cases n with
  | one => exact main _ _ _ _ (ds ..) (ds ..) (ds ..) (ds ..) h
  | two =>
    exact main _ _ _ _ (.vec (by simp [ds])) (.vec (by simp [ds]))
      (.bin p (ds ..) (ds ..)) (.bin p (ds ..) (ds ..)) h
  | three =>
    exact main _ _ _ _ (.vec (by simp [ds])) (.vec (by simp [ds]))
      (.bin p (.bin p (ds ..) (ds ..)) (ds ..)) (.bin p (.bin p (ds ..) (ds ..)) (ds ..)) h

/-- C109.  Numbers put in for all variables of sums, differences, products and quotients: the result is
one constant, namely the value of the expression where the variables have these values. -/
theorem C109_numbers (is : List Nat) (cs : List K) (hlen : is.length = cs.length) (e : Expr K)
    (he : Fractional e) (hall : ∀ i, Occurs i e → i ∈ is) :
    ∃ c, substituteMany (is.map .var) (cs.map .const) e = .ok (.const c) ∧
      ∀ o w, (∀ i a, Assigned is cs i a → w[i]? = some a) → eval o w e = .ok c := by
  have key : ∃ t, substM (is.map .var) (cs.map .const) e = .ok t ∧ ConstArith t ∧
      ∀ o v w, (∀ i a, Assigned is cs i a → w[i]? = some a) → eval o w e = eval o v t := by
    have miss : ∀ t : Expr K, (∀ i, t ≠ .var i) →
        findRepl t (is.map .var) (cs.map .const) = .ok none := by
      intro t ht
      obtain ⟨x, hx⟩ := findRepl_vars is (cs.map .const) (by simpa using hlen) t
      cases x with
      | none => exact hx
      | some r =>
        obtain ⟨k, s, hs, -, hm, -⟩ := findRepl_some hx
        simp only [List.getElem?_map, Option.map_eq_some_iff] at hs
        obtain ⟨i, -, rfl⟩ := hs
        rcases deepEq_var t i with ⟨_, h⟩ | ⟨h, _⟩
        · exact absurd h (ht i)
        · rw [hm] at h; cases h
    induction he with
    | const c =>
      exact ⟨.const c, by simp [substM, miss], .const c, fun o v w _ => by simp [eval]⟩
    | var i =>
      obtain ⟨x, hx⟩ := findRepl_vars is (cs.map .const) (by simpa using hlen) (.var i)
      cases x with
      | none =>
        have := findRepl_none hx (.var i) (List.mem_map.2 ⟨i, hall i .var, rfl⟩)
        simp [deepEq] at this
      | some r =>
        obtain ⟨k, s, hs, hr, hm, hlt⟩ := findRepl_some hx
        simp only [List.getElem?_map, Option.map_eq_some_iff] at hs hr hlt
        obtain ⟨j, hj, rfl⟩ := hs
        obtain ⟨c, hc, rfl⟩ := hr
        have hij : (Expr.var i : Expr K) = .var j := by
          rcases deepEq_var (.var i : Expr K) j with ⟨_, h⟩ | ⟨h, _⟩
          · exact h
          · rw [hm] at h; cases h
        cases hij
        refine ⟨.const c, by simp [substM, hx], .const c, fun o v w h => ?_⟩
        have := h i c ⟨k, hj, fun k' hk' h' => (by
          have := hlt k' hk' _ ⟨i, h', rfl⟩
          rw [hm] at this; cases this), hc⟩
        simp [eval, this]
    | bin ho _ _ ih1 ih2 =>
      obtain ⟨t, ht, ct, vt⟩ := ih1 fun i hi => hall i (.binL hi)
      obtain ⟨u, hu, cu, vu⟩ := ih2 fun i hi => hall i (.binR hi)
      refine ⟨.bin _ t u, by simp [substM, miss, ht, hu], .bin ho ct cu, fun o v w h => ?_⟩
      obtain ⟨a, -, ha⟩ := C10_constant_folding _ ct
      obtain ⟨b, -, hb⟩ := C10_constant_folding _ cu
      simp only [eval, vt o v w h, vu o v w h, ha, hb, Res.both]
      split <;> split <;> rfl
  obtain ⟨t, ht, ct, vt⟩ := key
  obtain ⟨c, hc, hv⟩ := C10_constant_folding t ct
  refine ⟨c, ?_, fun o w h => by rw [vt o [] w h, hv]⟩
  simp [substituteMany, hlen, ht, Simplifies_iff.1 hc]

/-- C109, where it ends: filling in a symbolic interval simplifies nothing, neither what was there
before nor what arises. -/
theorem C109_interval_untidy : ∃ (e t : Expr XRat), WellFormed e ∧
    substituteInterval 0 (.const (some 0)) (.const (some 1)) 0 e = .ok t ∧ ¬ Simplest t := by
  refine ⟨.bin .plus (.un (.symInt 0) (.var 0)) (.const (some 0)),
    .bin .plus (.integ (.const (some 0)) (.const (some 1)) 0 (.var 0)) (.const (some 0)),
    .bin (.inl rfl) (.un _ (.var _)) (.const _), rfl, fun h => ?_⟩
  exact h.none _ .refl (.plusR (by decide +kernel))

/-- C109, where it ends: entries of vectors are not reached. -/
theorem C109_vector_untidy : ∃ (e t : Expr XRat), WellFormed e ∧
    substitute (.var 1) (.const (some 0)) e = .ok t ∧ ∃ s, SubV s t ∧ Trivial s := by
  refine ⟨.vec [.bin .plus (.var 0) (.var 1), .var 0],
    .vec [.bin .plus (.var 0) (.const (some 0)), .var 0],
    .vec (by simp; exact ⟨.bin (.inl rfl) (.var _) (.var _), .var _⟩), by decide +kernel,
    .bin .plus (.var 0) (.const (some 0)), .vec (by simp) .refl, .plusR (by decide +kernel)⟩

/-- The derivative of `x0*x0 + 3*x1` for `x1`; numbers for both variables. -/
example : diff (.var 1) (.bin .plus (.bin .mult (.var 0) (.var 0)) (.bin .mult (.const (some 3)) (.var 1))
      : Expr XRat) = .ok (.const (some 3)) ∧
    substituteMany [.var 0, .var 1] [.const (some 2), .const (some 5)]
      (.bin .plus (.bin .mult (.var 0) (.var 0)) (.bin .mult (.const (some 3)) (.var 1)) : Expr XRat) =
      .ok (.const (some 19)) ∧
    Fractional (.bin .plus (.var 0) (.const (some 3)) : Expr XRat) ∧
    coords .one (.bin .mult (.const (some 1)) (.un .grad symU) : Expr XRat) =
      .ok (diffSymbol 0 0 0) := by
  refine ⟨by decide +kernel, by decide +kernel, .bin (.inl rfl) (.var _) (.const _), by decide +kernel⟩

end VM.Props
