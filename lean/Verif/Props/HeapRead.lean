import Verif.Rt.HeapReadLemmas
import Verif.Props.Memory
/-
C76: numerical integration and LaTeX output leave memory as it was.
-/
namespace VM.Props
open Spec
variable {K : Type} [Num K] {o f oh : Nat → Bool} {β : Type}

/-- At any point of any program that uses its objects as they may be used, whichever requests for memory have failed
so far: numerical integration of an expression by the one-point rule gives the value, or throws the exception, that
the sums of integrals in it determine, and leaves exactly the memory that was allocated before, unless one of its own
requests for memory fails, which gives `std::bad_alloc` and changes nothing that was there.  The vectors in the
expression, if there are any, have the same number of entries. -/
theorem C76_integral {p q : Client K} {s : State K} {r : Src} {e : Expr K} {o' : Order K} {n : Nat} (h : Safe .empty p)
    (hs : Reaches o p (.begin f) q s) (he : s.view r = .ok e) (hw : WellFormed e) (hn : 0 < n) (hd : VecDim n e) :
    OnlyReads s (quadOf o' (gaussQuad1 o') e) (readCall (quadRef o' (gaussA o' oh)) r s) :=
  (onlyReads_of h hs he fun H => quadRef_gives gaussA_rule H).1 fun hn' => hn' (integrals_insertable hn e hw hd)

/-- For any expression: a value is the right one, and it leaves memory exactly as it was. -/
theorem C76_integral_value {p q : Client K} {s s' : State K} {r : Src} {e : Expr K} {o' : Order K} {v : K}
    (h : Safe .empty p) (hs : Reaches o p (.begin f) q s) (he : s.view r = .ok e)
    (hv : readCall (quadRef o' (gaussA o' oh)) r s = .ok v s') :
    quadOf o' (gaussQuad1 o') e = .ok v ∧ SameMemory s.heap s'.heap ∧ s'.ptr = s.ptr ∧ s'.objs = s.objs :=
  (onlyReads_of h hs he fun H => quadRef_gives gaussA_rule H).2.1 v s' hv

/-- For any expression, and whatever the outcome: every object shows what it showed. -/
theorem C76_integral_unchanged {p q : Client K} {s s' : State K} {r : Src} {e : Expr K} {o' : Order K}
    (h : Safe .empty p) (hs : Reaches o p (.begin f) q s) (he : s.view r = .ok e)
    (hv : (∃ v, readCall (quadRef o' (gaussA o' oh)) r s = .ok v s') ∨
      ∃ x, readCall (quadRef o' (gaussA o' oh)) r s = .throw x s') (r' : Src) : s'.view r' = s.view r' :=
  (onlyReads_of h hs he fun H => quadRef_gives gaussA_rule H).2.2.1 s' hv r'

/-- Printing an expression always gives its text, and leaves exactly the memory that was allocated before, unless one
of its own requests for memory fails, which gives `std::bad_alloc` and changes nothing that was there. -/
theorem C76_latex {p q : Client K} {s : State K} {r : Src} {e : Expr K} {fmt : K → Txt} {t : Translator} {flag : Bool}
    (h : Safe .empty p) (hs : Reaches o p (.begin f) q s) (he : s.view r = .ok e) :
    OnlyReads s (.ok (latex fmt t flag e)) (readCall (latexRef fmt t flag) r s) :=
  (onlyReads_of (Lt := False) h hs he fun H => latexRef_gives fmt t flag H).1 id

/-- With enough memory printing cannot fail. -/
theorem C76_latex_ends {p q : Client K} {s : State K} {r : Src} {e : Expr K} {fmt : K → Txt} {t : Translator}
    {flag : Bool} (h : Safe .empty p) (hs : Reaches o p (.begin fun _ => false) q s) (he : s.view r = .ok e) :
    ∃ s', readCall (latexRef fmt t flag) r s = .ok (latex fmt t flag e) s' ∧ SameMemory s.heap s'.heap := by
  have hf : ∀ a, s.heap.fails a = false := fun a => by
    obtain ⟨σ, L, ⟨⟨fp, H⟩, hk⟩, -⟩ := reaches_sim hs start_rep h
    rw [H.fails]
  have := C76_latex (fmt := fmt) (t := t) (flag := flag) h hs he
  revert this
  cases readCall (latexRef fmt t flag) r s with
  | ok v s' =>
    rintro ⟨⟨⟩, h2, -⟩
    exact ⟨s', rfl, h2⟩
  | throw x s' =>
    rintro ⟨⟨⟨⟩, -⟩ | ⟨-, ⟨a, -, -, ha⟩, -⟩, -⟩
    rw [hf] at ha
    cases ha
  | ub => rintro ⟨⟩

theorem safe_init {σ : Store XRat} {i : Nat} {rhs : Rhs XRat} {e : Expr XRat} {p : Client XRat} (hi : σ i = none)
    (he : RhsVal σ rhs (.ok e)) (hu : ∀ v, RhsVal σ rhs v → v = .ok e)
    (hc : ∀ r, rhs ≠ .copy r) (hp : Safe (σ.set i (some (.expr (some e)))) p) :
    Safe σ (.step (.init i rhs) p .done) := by
  refine ⟨⟨_, .init hi he⟩, fun τ => ⟨fun h => ?_, fun _ => trivial⟩⟩
  cases h with
  | normal h _ =>
    cases h with
    | init _ h => cases hu _ h; exact hp
    | initThrow _ h => cases hu _ h
    | initUnset => exact absurd rfl (hc _)

/-- `expr a = 0; expr b = 2; expr x = variable(0); expr c = integral(interval(a, b), x, variable(0));
expr d = c + c;` -/
def sums : Client XRat :=
  .step (.init 0 (.leaf (.const (some 0)))) (.step (.init 1 (.leaf (.const (some 2)))) (.step (.init 2 (.leaf (.var 0)))
    (.step (.init 3 (.integ ⟨0, []⟩ ⟨1, []⟩ 0 ⟨2, []⟩)) (.step (.init 4 (.bin .plus ⟨3, []⟩ ⟨3, []⟩)) .done .done) .done)
      .done) .done) .done

/-- The integral in it. -/
def oneInt : Expr XRat := .integ (.const (some 0)) (.const (some 2)) 0 (.var 0)

theorem sums_safe : Safe .empty sums := by
  refine safe_init rfl (.const _) (fun v h => by cases h; rfl) (by simp) ?_
  refine safe_init rfl (.const _) (fun v h => by cases h; rfl) (by simp) ?_
  refine safe_init rfl (.var _) (fun v h => by cases h; rfl) (by simp) ?_
  refine safe_init (e := oneInt) rfl (.integ rfl rfl rfl) (fun v h => ?_) (by simp) ?_
  · cases h with | integ h1 h2 h3 => cases h1; cases h2; cases h3; rfl
  refine safe_init (e := .bin .plus oneInt oneInt) rfl (.bin rfl rfl) (fun v h => ?_) (by simp) trivial
  cases h with | bin h1 h2 => cases h1; cases h2; rfl

/-- The state at the end of a program in which nothing throws. -/
def final : Client XRat → State XRat → State XRat
  | .done, s => s
  | .step c p _, s => final p (next s (exec (fun _ => true) c s))

/-- The value of a call and the number of nodes allocated afterwards. -/
def outcome {β : Type} : Out (State XRat) β → Option (Res β × Nat)
  | .ok v s => some (.ok v, allocated s)
  | .throw x s => some (.throw x, allocated s)
  | .ub => none

/-- The hypotheses hold for `c + c` at the end of this program, where 16 nodes are allocated: the integral is `4`. -/
example : ∃ s : State XRat, Safe .empty sums ∧ Reaches (fun _ => true) sums (.begin fun _ => false) .done s ∧
    s.view ⟨4, []⟩ = .ok (.bin .plus oneInt oneInt) ∧ WellFormed (.bin .plus oneInt oneInt) ∧
    VecDim 1 (.bin .plus oneInt oneInt) ∧ allocated s = 16 ∧
    outcome (readCall (quadRef leftFirst (gaussA leftFirst fun _ => true)) ⟨4, []⟩ s) = some (.ok (some 4), 16) := by
  let s1 : State XRat := next (.begin fun _ => false) (exec (fun _ => true) (.init 0 (.leaf (.const (some 0))))
    (.begin fun _ => false))
  let s2 : State XRat := next s1 (exec (fun _ => true) (.init 1 (.leaf (.const (some 2)))) s1)
  let s3 : State XRat := next s2 (exec (fun _ => true) (.init 2 (.leaf (.var 0))) s2)
  let s4 : State XRat := next s3 (exec (fun _ => true) (.init 3 (.integ ⟨0, []⟩ ⟨1, []⟩ 0 ⟨2, []⟩)) s3)
  let s5 : State XRat := next s4 (exec (fun _ => true) (.init 4 (.bin .plus ⟨3, []⟩ ⟨3, []⟩)) s4)
  have hi : WellFormed oneInt := .integ _ (.const _) (.const _) (.var _)
  have hd : VecDim 1 oneInt := .integ _ (.const _) (.const _) (.var _)
  refine ⟨s5, sums_safe, .ok (next_ok ?_) (.ok (next_ok ?_) (.ok (next_ok ?_) (.ok (next_ok ?_) (.ok (s' := s5)
    (next_ok ?_) .refl)))), ?_, .bin (.inl rfl) hi hi, .bin _ hd hd, ?_, ?_⟩
  all_goals decide +kernel

/-- If a request of the integration fails it throws; depending on the request, copies of operands may be lost. -/
example : outcome (readCall (quadRef leftFirst (gaussA leftFirst fun _ => true)) ⟨4, []⟩
      (final sums (.begin fun a => a == 24))) = some (.throw .badAlloc, 16) ∧
    outcome (readCall (quadRef leftFirst (gaussA leftFirst fun _ => true)) ⟨4, []⟩
      (final sums (.begin fun a => a == 25))) = some (.throw .badAlloc, 17) := by decide +kernel

/-- There is no integral in the third object: an exception, and nothing is lost. -/
example : outcome (readCall (quadRef leftFirst (gaussA leftFirst fun _ => true)) ⟨2, []⟩
    (final sums (.begin fun _ => false))) = some (.throw .noIntegral, 16) := by decide +kernel

/-- The text of the sum. -/
example : outcome (readCall (latexRef (fun _ => ['c']) .new false) ⟨4, []⟩ (final sums (.begin fun _ => false))) =
    some (.ok (latex (fun _ => ['c']) .new false (.bin .plus oneInt oneInt)), 16) := by
  decide +kernel

end VM.Props
