import Verif.Rt.ThrowLemmas
import Verif.Rt.Dec
import Verif.NumRat
/-
C58: what a handler sees of a failure.

The full claim: every failure of evaluation, `unwrap` and `diff` can be caught as `std::exception`, and `what()` is
a text that names something in the expression.  It holds for `diff`; evaluation breaks it in two ways, proved
below.  The theorems are about the member functions and `eval`; `o` is the order in which operands are visited.
-/
namespace VM.Props
open VM.Spec
variable {K : Type} [Num K]

/-! ### Evaluation -/

/-- **C58 (evaluation)**: `evalSite` is where `eval` throws. -/
theorem C58_eval_site (o : Order K) (v : List K) (e : Expr K) (x : Exc) :
    eval o v e = .throw x ↔ ∃ s, evalSite o v e = some s ∧ s.exc = x := by
  have h := evalSite_spec o v e
  cases hs : evalSite o v e with
  | none => rw [hs] at h; obtain ⟨a, ha⟩ := h; simp [ha]
  | some s => rw [hs] at h; rw [show eval o v e = _ from h]; simp

omit [Num K] in
/-- **C58 (evaluation)**: unless a variable is out of range or the culprit is a formal derivative, the text can be
read through `std::exception` and is true. -/
theorem C58_eval_partial (o : Order K) (v : List K) (e : Expr K) (s : Site) (h : evalSite o v e = some s)
    (hi : ∀ i n, s.exc ≠ .indexOutOfBounds i n) (hf : s.exc ≠ .formalOp) :
    ∃ t, s.offer.seen .std = .text t ∧ TrueOf t e := by
  have hb := evalSite_blames o v e s h
  cases s <;> simp [Site.exc] at hi hf <;> exact ⟨_, rfl, hb⟩

example : ∃ s, evalSite leftFirst [some 1] (.bin .plus (.var 0) (.fsym 0 0) : Expr XRat) = some s ∧
    s.offer.seen .std = .text "Cannot evaluate rt_function_symbol!" := ⟨.evalSymbol, by decide, rfl⟩

omit [Num K] in
/-- **C58 (formal derivatives)**: a gradient, divergence or formal partial derivative throws a character string,
which no handler for `std::exception` catches; as a string it names what is there. -/
theorem C58_eval_formal (o : Order K) (v : List K) (e : Expr K) (s : Site) (h : evalSite o v e = some s) :
    (s.offer.seen .std = .uncaught ↔ s.exc = .formalOp) ∧
    (s.exc = .formalOp → ∃ t, s.offer.seen .own = .text t ∧ TrueOf t e) := by
  have hb := evalSite_blames o v e s h
  refine ⟨by cases s <;> simp [Site.exc, Site.offer, Offer.seen], fun hx => ?_⟩
  cases s <;> simp [Site.exc] at hx <;> exact ⟨_, rfl, hb⟩

example : evalSite leftFirst [some 1] (.un (.pd 0) (.var 0) : Expr XRat) = some .evalPartial := by decide

/-- **C58 (variable out of range)**: reading the text is undefined behaviour, and a handler for the class itself
does not compile. -/
theorem C58_eval_index (s : Site) :
    (s.offer.seen .std = .undefined ↔ ∃ i n, s.exc = .indexOutOfBounds i n) ∧
    ((∃ i n, s.exc = .indexOutOfBounds i n) → s.offer.seen .own = .illFormed) := by
  cases s <;> simp [Site.exc, Site.offer, Offer.seen]

/-- **C58 (arithmetic expressions)**: evaluating an expression of constants, variables, functions and `+ - * /`
throws exactly if a variable is out of range, and then there is no way to read the text. -/
theorem C58_eval_arith (o : Order K) (v : List K) {e : Expr K} (ha : Arith e) (x : Exc) (h : eval o v e = .throw x) :
    ∃ s, evalSite o v e = some s ∧ s.exc = x ∧ s.offer.seen .std = .undefined ∧ s.offer.seen .own = .illFormed ∧
      ∃ i, Occurs i e ∧ v.length ≤ i := by
  obtain ⟨s, hs, rfl⟩ := (C58_eval_site o v e x).1 h
  have key : ∃ i, s.exc = .indexOutOfBounds i v.length ∧ Occurs i e ∧ v.length ≤ i := by
    clear h
    induction ha with
    | const c => cases hs
    | var i =>
      rw [evalSite] at hs
      split at hs
      · cases hs
      · cases hs; exact ⟨i, rfl, .var, by omega⟩
    | fn f _ ih =>
      rcases or_cases hs with hs | hs
      · obtain ⟨i, hi, ho, hl⟩ := ih hs; exact ⟨i, hi, .un ho, hl⟩
      · cases hs
    | bin ho _ _ ihl ihr =>
      have hn : ∀ {op : BOp}, IsArithOp op → op.site = none := by
        rintro op (rfl | rfl | rfl | rfl) <;> rfl
      rw [evalSite, hn ho, Option.or_none, Option.or_none] at hs
      split at hs <;> rcases or_cases hs with hs | hs
      · obtain ⟨i, hi, ho, hl⟩ := ihl hs; exact ⟨i, hi, .binL ho, hl⟩
      · obtain ⟨i, hi, ho, hl⟩ := ihr hs; exact ⟨i, hi, .binR ho, hl⟩
      · obtain ⟨i, hi, ho, hl⟩ := ihr hs; exact ⟨i, hi, .binR ho, hl⟩
      · obtain ⟨i, hi, ho, hl⟩ := ihl hs; exact ⟨i, hi, .binL ho, hl⟩
  obtain ⟨i, hi, ho, hl⟩ := key
  have := C58_eval_index s
  exact ⟨s, hs, rfl, this.1.2 ⟨_, _, hi⟩, this.2 ⟨_, _, hi⟩, i, ho, hl⟩

example : eval leftFirst [some 1] (.bin .plus (.var 0) (.var 1) : Expr XRat) = .throw (.indexOutOfBounds 1 1) := by
  decide

/-! ### `unwrap` -/

/-- **C58 (unwrap)**: `unwrapSite` is where `unwrap` throws; the text is true, and it can be read through
`std::exception` unless the culprit is a formal derivative. -/
theorem C58_unwrap_partial (o : Order K) (e : Expr K) (x : Exc) :
    (unwrap o e = .throw x ↔ ∃ s, unwrapSite o e = some s ∧ s.exc = x) ∧
    ∀ s, unwrapSite o e = some s →
      ∃ t, TrueOf t e ∧ s.offer.seen (if s.exc = .formalOp then .own else .std) = .text t := by
  constructor
  · have h := unwrapSite_spec o e
    cases hs : unwrapSite o e with
    | none => rw [hs] at h; obtain ⟨a, ha⟩ := h; simp [ha]
    | some s => rw [hs] at h; rw [show unwrap o e = _ from h]; simp
  · intro s h
    have hb := unwrapSite_blames o e s h
    have hd := unwrapSite_ne_index o e s h
    cases s <;> first | exact absurd rfl hd | exact ⟨_, hb, rfl⟩

example : unwrapSite leftFirst (.bin .mult (.const (some 2)) (.un (.fn .sin) (.var 3)) : Expr XRat) =
    some .unwrapVariable := by decide

/-! ### Differentiation -/

/-- **C58 (diff)**: for a well-formed expression, the call `diff(e, x)` throws exactly if `diffSite` finds a reason,
whatever the order of the operands. -/
theorem C58_diff_site (o : Order K) (x : DVar) {e : Expr K} (hw : WellFormed e) :
    (∃ y, diff x e = .throw y) ↔ ∃ s, diffSite o x e = some s := by
  have h := diffSite_spec o x e
  cases hs : diffSite o x e with
  | none =>
    rw [hs] at h
    obtain ⟨d, hd⟩ := h
    have := Quiet.simplified (diffE_wellFormed hw hd)
    rw [diff, hd, Res.bind_ok]
    simp [this _]
  | some s =>
    rw [hs] at h
    obtain ⟨y, hy⟩ := h
    rw [diff, hy]
    exact ⟨fun _ => ⟨s, rfl⟩, fun _ => ⟨y, rfl⟩⟩

omit [Num K] in
/-- **C58 (diff)**: whatever the expression, the text can be read through `std::exception` and is true. -/
theorem C58_diff (o : Order K) (x : DVar) (e : Expr K) (s : Site) (h : diffSite o x e = some s) :
    ∃ t, s.offer.seen .std = .text t ∧ TrueOf t e := by
  obtain ⟨hb, t, ht⟩ := diffSite_blames o x e s h
  rw [Site.Blames] at hb
  rcases ht with ht | ht <;> rw [ht] at hb ⊢ <;> exact ⟨t, rfl, hb⟩

omit [Num K] in
/-- **C58 (diff, handler for the class itself)**: for a well-formed expression it does not compile. -/
theorem C58_diff_own (o : Order K) (x : DVar) {e : Expr K} (hw : WellFormed e) (s : Site)
    (h : diffSite o x e = some s) : s.offer.seen .own = .illFormed := by
  obtain ⟨t, ht⟩ := diffSite_class o x hw s h
  rw [ht]; rfl

example : diffSite leftFirst (.var 0) (.bin .mult (.un (.fn .fabs) (.var 0)) (.un .grad (.fsym 0 0)) : Expr XRat) =
      some .diffModulus ∧
    diffSite (fun _ _ => false) (.var 0) (.bin .mult (.un (.fn .fabs) (.var 0)) (.un .grad (.fsym 0 0)) : Expr XRat) =
      some .diffGrad := by decide

end VM.Props
