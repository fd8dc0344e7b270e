import Verif.Ct.EvalFnLemmas
import Verif.NumRat
/-
C47: the overloads of `eval(e, v)` give the same number.
-/
namespace VM.Props
open VM.Ct VM.Spec
variable {K : Type} [Num K]

/-- The numbers of a compile-time vector. -/
def numbers (v : List (Entry K)) : List K := v.map fun x => match x with | .int n => Num.lit n | .num x => x

private theorem numbers_eq (v : List (Entry K)) : numbers v = v.map Entry.toNum := by
  unfold numbers; congr

/-- C47, a compile-time expression at a compile-time vector of which at least one entry is a number: what it
returns (if it compiles) is what the same expression returns at a `std::vector` with these numbers, and what the
run-time expression made from it returns.  Any arithmetic, rounded or not. -/
theorem C47_numbers {cv cv' : Conv} {o o' : CtOrder} {o'' : Order K} {e : CtExpr} {v : List (Entry K)} {res : Res K}
    (hv : ∃ x, Entry.num x ∈ v) (h : evalFn cv o e (.ct v) = some res) :
    ∃ x, res = .ok x ∧ evalFn cv' o' e (.std (numbers v)) = some (.ok x) ∧
      ∃ r : Expr K, toRt e = some r ∧ evalRt o'' r (.ct v) = .ok x ∧ evalRt o'' r (.std (numbers v)) = .ok x := by
  have hc : ∃ x, res = .ok x ∧ callCt v e = some x := by
    cases e with
    | const n => simp only [evalFn, Option.some.injEq] at h; exact ⟨_, h.symm, rfl⟩
    | var i =>
      simp only [evalFn, Option.map_eq_some_iff] at h
      obtain ⟨a, ha, rfl⟩ := h
      exact ⟨_, rfl, by simp [callCt, ha]⟩
    | fsym t => simp [evalFn] at h
    | bin l op r =>
      simp only [evalFn] at h
      cases hn : ctEntries v with
      | some ns =>
        obtain ⟨x, hx⟩ := hv
        rw [ctEntries_some hn] at hx
        simp at hx
      | none =>
        rw [hn] at h
        simp only [Option.map_eq_some_iff] at h
        obtain ⟨x, hx, rfl⟩ := h
        exact ⟨x, rfl, hx⟩
  obtain ⟨x, rfl, hx⟩ := hc
  obtain ⟨hs, hcall⟩ := callCt_call hx o'
  have hr : toRt (K := K) e = some (image e) := by rw [toRt_eq, if_pos (callable_iff.2 hs)]
  have he : eval o'' (v.map Entry.toNum) (image e) = .ok x := (callAux_ok hs).1 hcall
  refine ⟨x, rfl, ?_, image e, hr, he, by rw [numbers_eq]; exact he⟩
  rw [numbers_eq]
  cases e with
  | const n => simpa [callAux, evalFn] using hcall
  | var i =>
    simp only [callCt, Option.map_eq_some_iff] at hx
    obtain ⟨a, ha, rfl⟩ := hx
    simp [evalFn, evalCtVariable, ha]
  | fsym t => exact hs.elim
  | bin l op r =>
    simp only [evalFn, ctCall, callable_iff.2 hs, if_true]
    rw [hcall]

/-- C47, a compile-time vector of constants, in exact real arithmetic, and if no number leaves the range of `int`
at compile time (the claim has no such restriction): the same. -/
theorem C47_constants_partial {cv' : Conv} {o o' : CtOrder} {o'' : Order XReal} {e : CtExpr} {ns : List Int} {res : Res XReal}
    (h : evalFn strict o e (.ct (ns.map .int)) = some res) :
    ∃ x : ℝ, res = .ok (some x) ∧ CVal (point ℝ ns) (fun _ => 0) e x ∧
      evalFn cv' o' e (.std (ns.map fun n : Int => some (n : ℝ))) = some (.ok (some x)) ∧
      ∃ r : Expr XReal, toRt e = some r ∧ evalRt o'' r (.ct (ns.map .int)) = .ok (some x) ∧
        evalRt o'' r (.std (ns.map fun n : Int => some (n : ℝ))) = .ok (some x) := by
  have hmap : (ns.map Entry.int).map Entry.toNum = ns.map fun n : Int => (some (n : ℝ) : XReal) := by
    simp [Entry.toNum, Num.lit, Function.comp_def]
  have hent : ctEntries (K := XReal) (ns.map .int) = some ns := by
    clear h hmap
    induction ns with
    | nil => rfl
    | cons n ns ih => simp [ctEntries, ih]
  have key : NoSym e ∧ (∀ i, Has i e → i < ns.length) ∧ ∃ x : ℝ, res = .ok (some x) ∧
      CVal (point ℝ ns) (fun _ => 0) e x := by
    cases e with
    | const n =>
      simp only [evalFn, Option.some.injEq] at h
      exact ⟨trivial, fun i hi => hi.elim, n, h.symm, trivial, rfl⟩
    | var i =>
      simp only [evalFn, Option.map_eq_some_iff] at h
      obtain ⟨a, ha, rfl⟩ := h
      simp only [List.getElem?_map, Option.map_eq_some_iff] at ha
      obtain ⟨n, hn, rfl⟩ := ha
      refine ⟨trivial, fun j hj => ?_, n, rfl, trivial, ?_⟩
      · simp only [Has] at hj
        subst hj
        exact (List.getElem?_eq_some_iff.1 hn).1
      · simp [cval, point, hn]
    | fsym t => simp [evalFn] at h
    | bin l op r =>
      simp only [evalFn, hent] at h
      split at h
      · simp only [Option.map_eq_some_iff, Option.bind_eq_some_iff] at h
        obtain ⟨x, ⟨e', he', hx⟩, rfl⟩ := h
        obtain ⟨hs, hi⟩ := ctEval_scope he'
        obtain ⟨q, h1, h2⟩ := ctEval_val (F := ℝ) (fun _ => 0) he'
        obtain ⟨hs', hx'⟩ := callZero_numAt hx (fun i => some (point ℝ ns i))
        rw [numAt_real hs' h2.1, h2.2] at hx'
        exact ⟨hs, hi, q, by rw [← hx'], h1⟩
      · rename_i hne
        simp only [Option.map_eq_some_iff] at h
        obtain ⟨x, hx, rfl⟩ := h
        have hs := (callCt_call hx o).1
        have : ∀ e, NoSym e → ctEvaluable e = true := by
          intro e
          induction e with
          | bin l op r ihl ihr => exact fun h => by simp [ctEvaluable, ihl h.1, ihr h.2]
          | fsym t => exact fun h => h.elim
          | _ => exact fun _ => rfl
        exact absurd (this _ hs) hne
  obtain ⟨hs, hi, x, rfl, hval⟩ := key
  have hnum : numAt (fun i => (ns.map fun n : Int => (some (n : ℝ) : XReal)).getD i none) e = some x := by
    rw [← hval.2, ← numAt_real hs hval.1]
    refine numAt_congr fun i h => ?_
    have := hi i h
    simp [List.getD, point, this]
  have hcall := callAux_num o' (ns.map fun n : Int => (some (n : ℝ) : XReal)) none hs (by simpa using hi)
  rw [hnum] at hcall
  have hr : toRt (K := XReal) e = some (image e) := by rw [toRt_eq, if_pos (callable_iff.2 hs)]
  have he : eval o'' (ns.map fun n : Int => (some (n : ℝ) : XReal)) (image e) = .ok (some x) := (callAux_ok hs).1 hcall
  refine ⟨x, rfl, hval, ?_, image e, hr, by simpa only [evalRt, hmap] using he, he⟩
  cases e with
  | const n => simpa [callAux, evalFn] using hcall
  | var i =>
    have hl : i < ns.length := hi i rfl
    have := hval.2
    simp only [cval, point, List.getElem?_eq_getElem hl, Option.getD_some] at this
    simp [evalFn, evalCtVariable, List.getElem?_map, List.getElem?_eq_getElem hl, this]
  | fsym t => exact hs.elim
  | bin l op r =>
    simp only [evalFn, ctCall, callable_iff.2 hs, if_true]
    rw [hcall]

/-- C47, why the restriction is there: (x/3)*(x/5) at 65536 is 0 at compile time and 286331153.07 at run time. -/
theorem C47_truncation (o : CtOrder) :
    evalFn (K := XRat) narrow o ((.var 0 /' ♯3) *' (.var 0 /' ♯5)) (.ct [.int 65536]) = some (.ok (some 0)) ∧
    evalFn (K := XRat) narrow (fun _ _ => true) ((.var 0 /' ♯3) *' (.var 0 /' ♯5)) (.std [some 65536]) =
      some (.ok (some (4294967296 / 15))) := by
  constructor
  · have : ctEval narrow [65536] ((.var 0 /' ♯3) *' (.var 0 /' ♯5)) = some ♯0 := by decide +kernel
    simp only [evalFn, ctEntries, Option.map_some, ctEvaluable, Bool.and_self, if_true, this]
    rfl
  · decide +kernel

/-- C47: evaluating a lone compile-time variable at a `std::vector` that is too short is undefined behaviour,
where the same variable as a run-time expression, or inside a compile-time sum, throws. -/
theorem C47_variable_unchecked (cv : Conv) (o : CtOrder) (o' : Order K) (i : Nat) (v : List K) (h : v.length ≤ i) :
    evalFn cv o (.var i) (.std v) = some .ub ∧
    evalRt o' (.var i) (.std v) = .throw (.indexOutOfBounds i v.length) ∧
    evalFn cv o (.var i +' ♯0) (.std v) = some (.throw (.indexOutOfBounds i v.length)) := by
  have hv : v[i]? = none := by simp [h]
  refine ⟨by simp [evalFn, evalCtVariable, hv], by simp [evalRt, eval, hv], ?_⟩
  simp only [evalFn, ctCall, callable, Bool.and_self, if_true, callAux, h]
  cases o (.var i) ♯0 <;> rfl

/-- C47, what compiles: at a `std::vector` every expression without function symbols; at a compile-time vector
with a number among its entries those whose variables all have an entry. -/
theorem C47_compiles (cv : Conv) (o : CtOrder) (e : CtExpr) (v : List K) (w : List (Entry K))
    (hw : ∃ x, Entry.num x ∈ w) :
    (evalFn cv o e (.std v) ≠ none ↔ NoSym e) ∧
    (evalFn cv o e (.ct w) ≠ none ↔ NoSym e ∧ ∀ i, Has i e → i < w.length) := by
  have hc : ∀ e, callCt w e ≠ none ↔ NoSym e ∧ ∀ i, Has i e → i < w.length := by
    intro e
    induction e with
    | const n => simp [callCt, NoSym, Has]
    | var i => simp [callCt, NoSym, Has]
    | fsym t => simp [callCt, NoSym]
    | bin l op r ihl ihr =>
      have : callCt w (.bin l op r) ≠ none ↔ callCt w l ≠ none ∧ callCt w r ≠ none := by
        cases h1 : callCt w l <;> cases h2 : callCt w r <;> simp [callCt, h1, h2]
      rw [this, ihl, ihr]
      simp only [NoSym, Has]
      constructor
      · exact fun ⟨⟨h1, h2⟩, h3, h4⟩ => ⟨⟨h1, h3⟩, fun i h => h.elim (h2 i) (h4 i)⟩
      · exact fun ⟨⟨h1, h2⟩, h3⟩ => ⟨⟨h1, fun i h => h3 i (.inl h)⟩, h2, fun i h => h3 i (.inr h)⟩
  have he : ctEntries w = none := by
    cases hn : ctEntries w with
    | none => rfl
    | some ns =>
      obtain ⟨x, hx⟩ := hw
      rw [ctEntries_some hn] at hx
      simp at hx
  constructor
  · cases e with
    | const n => simp [evalFn, NoSym]
    | var i => simp [evalFn, NoSym]
    | fsym t => simp [evalFn, NoSym]
    | bin l op r =>
      rw [evalFn, ctCall, ← callable_iff]
      split <;> simp_all
  · rw [← hc]
    cases e with
    | const n => simp [evalFn, callCt]
    | var i => simp [evalFn, callCt]
    | fsym t => simp [evalFn, callCt]
    | bin l op r => simp [evalFn, he]

/-- (x + 1/3) * y at (2, 3) as constants and at (2.0, 3) with a number. -/
example (o : CtOrder) :
    evalFn (K := XReal) strict o ((.var 0 +' ♯1 /' ♯3) *' .var 1) (.ct [.int 2, .int 3]) = some (.ok (some ((7 : Int) : ℝ))) ∧
    evalFn (K := XRat) strict o ((.var 0 +' ♯1 /' ♯3) *' .var 1) (.ct [.num (some 2), .int 3]) = some (.ok (some 7)) := by
  constructor
  · have : ctEval strict [2, 3] ((.var 0 +' ♯1 /' ♯3) *' .var 1) = some ♯7 := by decide +kernel
    simp only [evalFn, ctEntries, Option.map_some, ctEvaluable, Bool.and_self, if_true, this]
    rfl
  · simp only [evalFn, ctEntries]
    decide +kernel

end VM.Props
