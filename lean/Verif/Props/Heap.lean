import Verif.Rt.HeapSim
import Verif.Rt.Eval
import Verif.NumRat
import Verif.Rt.Dec
/-
C23, C24, C48: expression objects in memory.
-/
namespace VM.Props
open Spec
variable {K : Type} [Num K] {o : Nat → Bool}

/-! ### C23 -/

/-- Value semantics.  Every program of any length that uses its objects as they may be used (`ExecAll`:
nothing is read that holds no expression yet, an `rt_binary_expr` is not assigned a part of its own left
operand, library functions are called on arguments for which they are defined) runs without undefined
behaviour, in particular without reading or freeing freed memory, in whatever order the compiler evaluates
the arguments of a constructor, and afterwards every object and every part of an object shows exactly the
expression it has if each object holds a value of its own.  This covers the memory that `simplify`, `diff`,
`substitute` use while they compute, and calls that throw.
Missing: objects that hold nothing may not be assigned from (see `C23_unset_undefined`). -/
theorem C23_values_partial {prog : List (Stmt K)} {τ : Store K} (h : ExecAll Any .empty prog τ) :
    ∃ s, run o .start prog = .ok s ∧ (∀ i, s.objs i = none ↔ τ i = none) ∧
      ∀ r, s.view r = shown (look τ r) := by
  obtain ⟨s, L, h1, h2, -⟩ := run_sim (o := o) (fun _ => rfl) start_rep' h
  refine ⟨s, h1, fun i => ?_, h2.view⟩
  rw [h2.2 i]; simp

/-- A statement changes no object but its own, whether it ends normally or throws. -/
theorem C23_others_unchanged_partial {prog : List (Stmt K)} {c : Stmt K} {σ τ : Store K} {s s' : State K}
    (h : ExecAll Any .empty prog σ) (hc : Exec σ c τ) (hs : run o .start prog = .ok s)
    (hs' : exec o c s = .ok () s' ∨ ∃ x, exec o c s = .throw x s')
    {r : Src} (hr : r.obj ≠ subject c) : s'.view r = s.view r := by
  obtain ⟨s0, L, h1, h2, -⟩ := run_sim (o := o) (fun _ => rfl) start_rep' h
  rw [hs] at h1
  cases h1
  obtain ⟨G', h4⟩ : ∃ G', Rep (fun _ => false) s' τ G' := by
    have h3 := exec_sim (o := o) h2 hc
    rcases hs' with hs' | ⟨x, hs'⟩ <;> rw [hs'] at h3
    · cases h3 with
      | ok h4 => exact ⟨_, h4⟩
    · cases h3 with
      | threw h4 => exact ⟨_, h4⟩
      | noMemory _ _ h => obtain ⟨_, -, -, h⟩ := h; cases h
  rw [h4.view, h2.view]
  have : τ r.obj = σ r.obj := by cases hc <;> simp_all [Store.set, subject]
  simp [look, this]

/-- At every moment every allocated node is a part of an object that is alive: nothing is lost.  This holds for
programs in which no call throws and no expression with gradients is differentiated with respect to a function
symbol (`Tidy`; see `C48_exception_leaks`, `C48_gradient_leaks`). -/
theorem C23_no_garbage_partial {prog : List (Stmt K)} {τ : Store K} {s : State K} (h : ExecAll Tidy .empty prog τ)
    (hs : run o .start prog = .ok s) {a : Nat} (ha : s.heap.cells a ≠ none) :
    ∃ r, s.target r = .ok (.node a) := by
  obtain ⟨s0, L, h1, h2, h3⟩ := run_sim (o := o) (fun _ => rfl) start_rep' h
  rw [hs] at h1
  cases h1
  rw [h3 fun _ _ h => h] at h2
  rcases h2.reach ha with h | h
  · cases h
  · exact h

/-- When all objects have been destroyed, nothing is allocated any more. -/
theorem C23_all_freed_partial {prog : List (Stmt K)} {τ : Store K} {s : State K} (h : ExecAll Tidy .empty prog τ)
    (hs : run o .start prog = .ok s) (hd : ∀ i, τ i = none) (a : Nat) : s.heap.cells a = none := by
  obtain ⟨s0, L, h1, h2, h3⟩ := run_sim (o := o) (fun _ => rfl) start_rep' h
  rw [hs] at h1
  cases h1
  rw [h3 fun _ _ h => h] at h2
  cases ha : s.heap.cells a with
  | none => rfl
  | some c =>
    rcases h2.reach (a := a) (by simp [ha]) with h | ⟨r, hr⟩
    · cases h
    · rw [State.target, h2.2 r.obj, hd r.obj] at hr
      cases hr

/-- The precondition of the documentation is needed: assigning from an object that holds no expression
yet is undefined. -/
theorem C23_unset_undefined {prog : List (Stmt K)} {σ : Store K} {s : State K} (h : ExecAll Any .empty prog σ)
    (hs : run o .start prog = .ok s) {i : Nat} {v : Option (Expr K)} {r : Src}
    (hi : σ i = some (.expr v)) (hu : Unset σ r) : exec o (.assign i (.copy r)) s = .ub := by
  obtain ⟨s0, L, h1, h2, -⟩ := run_sim (o := o) (fun _ => rfl) start_rep' h
  rw [hs] at h1
  cases h1
  exact exec_unset h2 hi hu

/-- A right hand side without calls is tidy. -/
theorem tidy_copy {σ : Store K} {r : Src} : TidyRhs σ (.copy r) :=
  ⟨(fun _ h => by cases h), fun _ _ _ _ h => by cases h⟩
theorem tidy_leaf {σ : Store K} {e : Expr K} : TidyRhs σ (.leaf e) :=
  ⟨(fun _ h => by cases h), fun _ _ _ _ h => by cases h⟩
theorem tidy_conv {σ : Store K} {l r : Ct.CtExpr} {op : Ct.COp} : TidyRhs σ (.conv l op r) :=
  ⟨(fun _ h => by cases h), fun _ _ _ _ h => by cases h⟩
theorem tidy_bin {σ : Store K} {op : BOp} {l r : Src} : TidyRhs σ (.bin op l r) :=
  ⟨(fun _ h => by cases h), fun _ _ _ _ h => by cases h⟩
theorem tidy_simplify {σ : Store K} {r : Src} : TidyRhs σ (.simplify r) :=
  ⟨(fun _ h => by cases h), fun _ _ _ _ h => by cases h⟩
theorem tidy_subst {σ : Store K} {s t r : Src} : TidyRhs σ (.subst s t r) :=
  ⟨(fun _ h => by cases h), fun _ _ _ _ h => by cases h⟩
theorem tidy_diff {σ : Store K} {i : Nat} {r : Src} {e d : Expr K} (h : look σ r = some e)
    (hd : diffE (.var i) e = .ok d) : TidyRhs σ (.diff (.var i) r) := by
  refine ⟨fun x hx => ?_, fun _ _ _ _ h => by cases h⟩
  generalize hv : (Res.throw x : Res (Expr K)) = v at hx
  cases hx with
  | diff => cases hv
  | diffThrow h1 h2 => rw [h] at h1; cases h1; rw [hd] at h2; cases h2

/-- `expr e = x; expr f; f = e * e; f = diff(f, x); f = simplify(f); f = substitute(e, f, f); inplace_simplify(f);
e = f.rhs(); f = f; f = f.lhs();` and the end of both objects. -/
example : ∃ τ, ExecAll (K := XRat) Tidy .empty
    [.init 0 (.leaf (.var 0)), .decl 1, .assign 1 (.bin .mult ⟨0, []⟩ ⟨0, []⟩), .assign 1 (.diff (.var 0) ⟨1, []⟩),
     .assign 1 (.simplify ⟨1, []⟩), .assign 1 (.subst ⟨0, []⟩ ⟨1, []⟩ ⟨1, []⟩), .inplace 1,
     .assign 0 (.copy ⟨1, [1]⟩), .assign 1 (.copy ⟨1, []⟩), .assign 1 (.copy ⟨1, [0]⟩),
     .destroy 0, .destroy 1] τ ∧ ∀ i, τ i = none := by
  have hd : VM.diff (K := XRat) (.var 0) (.bin .mult (.var 0) (.var 0)) = .ok (.bin .plus (.var 0) (.var 0)) := by
    decide +kernel
  have hd' : diffE (K := XRat) (.var 0) (.bin .mult (.var 0) (.var 0)) =
      .ok (.bin .plus (.bin .mult (.const (some 1)) (.var 0)) (.bin .mult (.var 0) (.const (some 1)))) := by
    decide +kernel
  have hs : simplified (K := XRat) (.bin .plus (.var 0) (.var 0)) = .ok (.bin .plus (.var 0) (.var 0)) := by
    decide +kernel
  have hq : substitute (K := XRat) (.var 0) (.bin .plus (.var 0) (.var 0)) (.bin .plus (.var 0) (.var 0)) =
      .ok (.bin .plus (.bin .plus (.var 0) (.var 0)) (.bin .plus (.var 0) (.var 0))) := by decide +kernel
  have hs' : simplified (K := XRat) (.bin .plus (.bin .plus (.var 0) (.var 0)) (.bin .plus (.var 0) (.var 0))) =
      .ok (.bin .plus (.bin .plus (.var 0) (.var 0)) (.bin .plus (.var 0) (.var 0))) := by decide +kernel
  refine ⟨_, .cons (.init rfl (.var 0)) tidy_leaf (.cons (.decl rfl) trivial (.cons (.assign rfl (.bin rfl rfl)) tidy_bin
    (.cons (.assign rfl (.diff rfl hd)) (tidy_diff rfl hd') (.cons (.assign rfl (.simplify rfl hs)) tidy_simplify
    (.cons (.assign rfl (.subst rfl rfl rfl hq)) tidy_subst (.cons (.inplace rfl hs') trivial
    (.cons (.assign rfl (.copy rfl)) tidy_copy (.cons (.assign rfl (.copy rfl)) tidy_copy
    (.cons (.assign rfl (.copy rfl)) tidy_copy
    (.cons (.destroy rfl) trivial (.cons (.destroy rfl) trivial .nil))))))))))), ?_⟩
  intro i
  by_cases h0 : i = 0
  · subst h0; rfl
  · by_cases h1 : i = 1
    · subst h1; rfl
    · simp [Store.set, h0, h1, Store.empty]

/-- A part of that program on the model of memory. -/
example : (run (K := XRat) (fun _ => true) .start
    [.init 0 (.leaf (.var 0)), .decl 1, .assign 1 (.bin .mult ⟨0, []⟩ ⟨0, []⟩), .assign 1 (.diff (.var 0) ⟨1, []⟩),
     .assign 0 (.copy ⟨1, [1]⟩), .assign 1 (.copy ⟨1, []⟩)]).bind
    (fun s => s.view ⟨1, []⟩) = .ok (.bin .plus (.var 0) (.var 0)) := by decide +kernel

/-- `expr e = x * y; e = substitute({x, y}, {y, x}, e);`, a program with objects 0 (`x`), 1 (`y`) and 2 (`e`). -/
example : ∃ τ, ExecAll (K := XRat) Tidy .empty
    [.init 0 (.leaf (.var 0)), .init 1 (.leaf (.var 1)), .init 2 (.bin .mult ⟨0, []⟩ ⟨1, []⟩),
     .assign 2 (.substMany [⟨0, []⟩, ⟨1, []⟩] [⟨1, []⟩, ⟨0, []⟩] ⟨2, []⟩), .destroy 1] τ ∧
    τ 2 = some (.expr (some (.bin .mult (.var 1) (.var 0)))) := by
  have hq : substituteMany (K := XRat) [.var 0, .var 1] [.var 1, .var 0] (.bin .mult (.var 0) (.var 1)) =
      .ok (.bin .mult (.var 1) (.var 0)) := by decide +kernel
  exact ⟨_, .cons (.init rfl (.var 0)) tidy_leaf (.cons (.init rfl (.var 1)) tidy_leaf
    (.cons (.init rfl (.bin rfl rfl)) tidy_bin
    (.cons (.assign rfl (.substMany rfl rfl rfl (.inl ⟨_, rfl⟩) hq)) ⟨(fun _ h => by cases h), fun _ _ _ _ h => by cases h⟩
    (.cons (.destroy rfl) trivial .nil)))), rfl⟩

/-- The same program on the model of memory. -/
example : (run (K := XRat) (fun _ => true) .start
    [.init 0 (.leaf (.var 0)), .init 1 (.leaf (.var 1)), .init 2 (.bin .mult ⟨0, []⟩ ⟨1, []⟩),
     .assign 2 (.substMany [⟨0, []⟩, ⟨1, []⟩] [⟨1, []⟩, ⟨0, []⟩] ⟨2, []⟩), .destroy 1]).bind
    (fun s => s.view ⟨2, []⟩) = .ok (.bin .mult (.var 1) (.var 0)) := by decide +kernel

/-- `expr a; expr b; a = b;`. -/
example : ∃ σ, ExecAll (K := XRat) Any .empty [.decl 0, .decl 1] σ ∧ (∃ o, σ 0 = some (.expr o)) ∧ Unset σ ⟨1, []⟩ :=
  ⟨_, .cons (.decl rfl) trivial (.cons (.decl rfl) trivial .nil), ⟨_, rfl⟩, rfl, rfl⟩

/-- `expr a = x; expr b = a; a = a + b;` changes `a` and leaves `b`. -/
example : (∃ σ τ, ExecAll (K := XRat) Any .empty [.init 0 (.leaf (.var 0)), .init 1 (.copy ⟨0, []⟩)] σ ∧
    Exec σ (.assign 0 (.bin .plus ⟨0, []⟩ ⟨1, []⟩)) τ) ∧
    (run (K := XRat) (fun _ => true) .start [.init 0 (.leaf (.var 0)), .init 1 (.copy ⟨0, []⟩),
      .assign 0 (.bin .plus ⟨0, []⟩ ⟨1, []⟩)]).map (fun s => (s.view ⟨0, []⟩, s.view ⟨1, []⟩)) =
      .ok (.ok (.bin .plus (.var 0) (.var 0)), .ok (.var 0)) :=
  ⟨⟨_, _, .cons (.init rfl (.var 0)) trivial (.cons (.init rfl (.copy rfl)) trivial .nil),
    .assign rfl (.bin rfl rfl)⟩, by decide +kernel⟩

/-- `expr a = x; expr b = u; expr c = a + b; a = diff(c, x);` throws and changes nothing. -/
example : (∃ σ, ExecAll (K := XRat) Any .empty
      [.init 0 (.leaf (.var 0)), .init 1 (.leaf (.fsym 0 0)), .init 2 (.bin .plus ⟨0, []⟩ ⟨1, []⟩)] σ ∧
    Exec σ (.assign 0 (.diff (.var 0) ⟨2, []⟩)) σ) ∧
    (run (K := XRat) (fun _ => true) .start
      [.init 0 (.leaf (.var 0)), .init 1 (.leaf (.fsym 0 0)), .init 2 (.bin .plus ⟨0, []⟩ ⟨1, []⟩),
       .assign 0 (.diff (.var 0) ⟨2, []⟩)]).map (fun s => (s.view ⟨0, []⟩, s.view ⟨2, []⟩)) =
      .ok (.ok (.var 0), .ok (.bin .plus (.var 0) (.fsym 0 0))) :=
  ⟨⟨_, .cons (.init rfl (.var 0)) trivial (.cons (.init rfl (.fsym 0 0)) trivial
      (.cons (.init rfl (.bin rfl rfl)) trivial .nil)),
    .assignThrow rfl (.diffThrow (x := .bin .plus (.var 0) (.fsym 0 0)) (z := .notDifferentiable) rfl (by decide +kernel))⟩,
    by decide +kernel⟩

/-! ### C24 -/

/-- After `b = other`, where `other` is any binary expression that does not lie in the left operand of
`b` (it may be `b` itself or lie in the right operand), `b` is that expression; evaluation gives its
value. -/
theorem C24_assign_partial {prog : List (Stmt K)} {σ : Store K} {s : State K} (h : ExecAll Any .empty prog σ)
    (hs : run o .start prog = .ok s) {i : Nat} {p l u} {r : Src} {op : BOp} {x y : Expr K}
    (hi : σ i = some (.bin p l u)) (hr : s.view r = .ok (.bin op x y)) (hn : ∀ ks, r ≠ ⟨i, 0 :: ks⟩) :
    ∃ s', exec o (.assignBin i r) s = .ok () s' ∧ s'.view ⟨i, []⟩ = .ok (.bin op x y) ∧
      ∀ (w : Order K) (v : List K), (s'.view ⟨i, []⟩).bind (eval w v) = (s.view r).bind (eval w v) := by
  obtain ⟨s0, L, h1, h2, -⟩ := run_sim (o := o) (fun _ => rfl) start_rep' h
  rw [hs] at h1
  cases h1
  have hl : look σ r = some (.bin op x y) := by
    rw [h2.view] at hr
    cases hlo : look σ r with
    | none => rw [hlo] at hr; cases hr
    | some e => rw [hlo] at hr; cases hr; rfl
  obtain ⟨s', h3, L', h4⟩ := exec_enough (o := o) (fun _ => rfl) h2 (.assignBin hi hl hn) (not_throwing (by simp))
  have hv : s'.view ⟨i, []⟩ = .ok (.bin op x y) := by
    rw [h4.view]; simp [look, Store.set, Obj.part, shown]
  exact ⟨s', h3, hv, fun w v => by rw [hv, hr]⟩

/-- `b = x + x; c = x * b; c = c.rhs()`. -/
example : (∃ σ, ExecAll (K := XRat) Any .empty
      [.init 0 (.leaf (.var 0)), .initBin 1 .plus ⟨0, []⟩ ⟨0, []⟩, .initBin 2 .mult ⟨0, []⟩ ⟨1, []⟩] σ ∧
    (∃ p l u, σ 2 = some (.bin p l u)) ∧ ∀ ks, (⟨2, [1]⟩ : Src) ≠ ⟨2, 0 :: ks⟩) ∧
    (run (K := XRat) (fun _ => true) .start
      [.init 0 (.leaf (.var 0)), .initBin 1 .plus ⟨0, []⟩ ⟨0, []⟩, .initBin 2 .mult ⟨0, []⟩ ⟨1, []⟩]).bind
      (fun s => s.view ⟨2, [1]⟩) = .ok (.bin .plus (.var 0) (.var 0)) :=
  ⟨⟨_, .cons (.init rfl (.var 0)) trivial (.cons (.initBin rfl rfl rfl) trivial
    (.cons (.initBin rfl rfl rfl) trivial .nil)), ⟨_, _, _, rfl⟩, by simp⟩, by decide +kernel⟩

/-- The claim is false in the remaining case: assigning a binary expression object a part of its own
left operand is always undefined behaviour; the left operand is replaced, and with it the source is freed
before its operator and its right operand are read. -/
theorem C24_own_left_undefined {prog : List (Stmt K)} {σ : Store K} {s : State K} (h : ExecAll Any .empty prog σ)
    (hs : run o .start prog = .ok s) {i : Nat} {p l u} {ks : List Nat} {op : BOp} {x y : Expr K}
    (hi : σ i = some (.bin p l u)) (hr : s.view ⟨i, 0 :: ks⟩ = .ok (.bin op x y)) :
    exec o (.assignBin i ⟨i, 0 :: ks⟩) s = .ub := by
  obtain ⟨s0, L, h1, h2, -⟩ := run_sim (o := o) (fun _ => rfl) start_rep' h
  rw [hs] at h1
  cases h1
  have hl : look σ ⟨i, 0 :: ks⟩ = some (.bin op x y) := by
    rw [h2.view] at hr
    cases hlo : look σ ⟨i, 0 :: ks⟩ with
    | none => rw [hlo] at hr; cases hr
    | some e => rw [hlo] at hr; cases hr; rfl
  exact exec_own_left (fun _ => rfl) h2 hi hl

/-- `b = (x + x) * x; b = b.lhs();`. -/
example : (run (K := XRat) (fun _ => true) .start
      [.init 0 (.leaf (.var 0)), .initBin 1 .plus ⟨0, []⟩ ⟨0, []⟩, .initBin 2 .mult ⟨1, []⟩ ⟨0, []⟩,
       .assignBin 2 ⟨2, [0]⟩]).map (fun _ => ()) = .ub := by decide +kernel

/-- The claim is false for numbers and constants: after `b = c`, evaluating `b` always throws. -/
theorem C24_number_throws {prog : List (Stmt K)} {σ : Store K} {s : State K} (h : ExecAll Any .empty prog σ)
    (hs : run o .start prog = .ok s) {i : Nat} {p l u} (hi : σ i = some (.bin p l u)) (c : K) :
    ∃ s', exec o (.assignNum i c) s = .ok () s' ∧
      ∀ (w : Order K) (v : List K), (s'.view ⟨i, []⟩).bind (eval w v) = .throw .rhsForUnary := by
  obtain ⟨s0, L, h1, h2, -⟩ := run_sim (o := o) (fun _ => rfl) start_rep' h
  rw [hs] at h1
  cases h1
  obtain ⟨s', h3, L', h4⟩ := exec_enough (o := o) (fun _ => rfl) h2 (.assignNum (c := c) hi) (not_throwing (by simp))
  refine ⟨s', h3, fun w v => ?_⟩
  rw [h4.view]
  simp [look, Store.set, Obj.part, shown, eval, applyB]

/-- `b = x + x; b = 3; b(...)`. -/
example : (run (K := XRat) (fun _ => true) .start
      [.init 0 (.leaf (.var 0)), .initBin 1 .plus ⟨0, []⟩ ⟨0, []⟩, .assignNum 1 (some 3)]).bind
      (fun s => (s.view ⟨1, []⟩).bind (eval (fun _ _ => true) [some 0])) = .throw .rhsForUnary := by decide +kernel

/-! ### C73 -/

omit [Num K] in
/-- What a view shows is what the object holds. -/
theorem look_of_view {s : State K} {σ : Store K} {G} {f : Nat → Bool} (h : Rep f s σ G) {r : Src} {e : Expr K}
    (hr : s.view r = .ok e) : look σ r = some e := by
  rw [h.view] at hr
  cases hlo : look σ r with
  | none => rw [hlo] at hr; cases hr
  | some e => rw [hlo] at hr; cases hr; rfl

/-- After `u = c`, where `u` is any unary expression object, default constructed ones included, and `c` a number or a
constant, evaluating `u` gives `c` at every point. -/
theorem C73_number {prog : List (Stmt K)} {σ : Store K} {s : State K} (h : ExecAll Any .empty prog σ)
    (hs : run o .start prog = .ok s) {i : Nat} {p e} (hi : σ i = some (.un p e)) (c : K) :
    ∃ s', exec o (.numUn i c) s = .ok () s' ∧
      ∀ (w : Order K) (v : List K), (s'.view ⟨i, []⟩).bind (eval w v) = .ok c := by
  obtain ⟨s0, L, h1, h2, -⟩ := run_sim (o := o) (fun _ => rfl) start_rep' h
  rw [hs] at h1
  cases h1
  obtain ⟨s', h3, L', h4⟩ := exec_enough (o := o) (fun _ => rfl) h2 (.numUn (c := c) hi) (not_throwing (by simp))
  refine ⟨s', h3, fun w v => ?_⟩
  rw [h4.view]
  simp [look, Store.set, Obj.part, shown, eval, applyU, applyFn]

/-- A unary expression object made from any expression alone evaluates as that expression, to the same number or with
the same exception. -/
theorem C73_wrap {prog : List (Stmt K)} {σ : Store K} {s : State K} (h : ExecAll Any .empty prog σ)
    (hs : run o .start prog = .ok s) {i : Nat} (hi : σ i = none) {r : Src} {e : Expr K} (hr : s.view r = .ok e) :
    ∃ s', exec o (.wrapUn i r) s = .ok () s' ∧
      ∀ (w : Order K) (v : List K), (s'.view ⟨i, []⟩).bind (eval w v) = (s.view r).bind (eval w v) := by
  obtain ⟨s0, L, h1, h2, -⟩ := run_sim (o := o) (fun _ => rfl) start_rep' h
  rw [hs] at h1
  cases h1
  obtain ⟨s', h3, L', h4⟩ :=
    exec_enough (o := o) (fun _ => rfl) h2 (.wrapUn hi (look_of_view h2 hr)) (not_throwing (by simp))
  refine ⟨s', h3, fun w v => ?_⟩
  rw [h4.view, hr]
  cases hv : eval w v e <;> simp [look, Store.set, Obj.part, shown, eval, applyU, applyFn, hv]

/-- A copy of a unary expression shows what the source shows, and the source still shows it; after any number of
further statements the copy still shows it if none of them works on the copy, whatever happens to the source. -/
theorem C73_copy {prog more : List (Stmt K)} {σ τ : Store K} {s : State K} (h : ExecAll Any .empty prog σ)
    (hs : run o .start prog = .ok s) {i : Nat} (hi : σ i = none) {r : Src} {op : UOp} {e : Expr K}
    (hr : s.view r = .ok (.un op e)) (hm : ExecAll Any (σ.set i (some (.un (some op) (some e)))) more τ)
    (hn : ∀ c ∈ more, subject c ≠ i) :
    ∃ s' s'', exec o (.copyUn i r) s = .ok () s' ∧ s'.view ⟨i, []⟩ = .ok (.un op e) ∧ s'.view r = .ok (.un op e) ∧
      run o s' more = .ok s'' ∧ s''.view ⟨i, []⟩ = .ok (.un op e) := by
  obtain ⟨s0, L, h1, h2, -⟩ := run_sim (o := o) (fun _ => rfl) start_rep' h
  rw [hs] at h1
  cases h1
  have hl := look_of_view h2 hr
  obtain ⟨s', h3, L', h4⟩ := exec_enough (o := o) (fun _ => rfl) h2 (.copyUn hi hl) (not_throwing (by simp))
  obtain ⟨s'', L'', h5, h6, -⟩ := run_sim (o := o) (fun _ => rfl) h4 hm
  refine ⟨s', s'', h3, ?_, ?_, h5, ?_⟩
  · rw [h4.view]; simp [look, Store.set, Obj.part, shown]
  · have : r.obj ≠ i := by rintro rfl; simp [look, hi] at hl
    rw [h4.view]
    simp only [look, Store.set, this, if_false] at hl ⊢
    rw [hl]
    rfl
  · have : τ i = some (.un (some op) (some e)) := by
      clear h5 h6
      revert hm
      generalize hρ : σ.set i (some (.un (some op) (some e))) = ρ
      have hρi : ρ i = some (.un (some op) (some e)) := by rw [← hρ]; simp [Store.set]
      clear hρ h4
      intro hm
      induction hm with
      | nil => exact hρi
      | @cons ρ c ρ' cs _ hc _ _ ih =>
        have hci := hn c (by simp)
        refine ih (fun c hc => hn c (by simp [hc])) ?_
        rw [← hρi]
        cases hc <;> simp_all [Store.set, subject, eq_comm]
    rw [h6.view]; simp [look, this, Obj.part, shown]

/-- `rt_unary_expr u; u = 3;` and `rt_unary_expr u(x, sin); u = 3;`. -/
example : (∃ σ, ExecAll (K := XRat) Any .empty
      [.init 0 (.leaf (.var 0)), .declUn 1, .initUn 2 (.fn .sin) ⟨0, []⟩] σ ∧
    σ 1 = some (.un none none) ∧ σ 2 = some (.un (some (.fn .sin)) (some (.var 0))) ∧ σ 3 = none) ∧
    (run (K := XRat) (fun _ => true) .start
      [.init 0 (.leaf (.var 0)), .declUn 1, .initUn 2 (.fn .sin) ⟨0, []⟩, .numUn 1 (some 3), .numUn 2 (some 3)]).map
      (fun s => (s.view ⟨1, []⟩, s.view ⟨2, []⟩)) =
      .ok (.ok (.un (.fn .id) (.const (some 3))), .ok (.un (.fn .id) (.const (some 3)))) :=
  ⟨⟨_, .cons (.init rfl (.var 0)) trivial (.cons (.declUn rfl) trivial (.cons (.initUn rfl rfl) trivial .nil)),
    rfl, rfl, rfl⟩, by decide +kernel⟩

/-- `expr y = x; rt_unary_expr u(y, sqrt); rt_unary_expr v(u); rt_unary_expr w(v.clone()); u = 3;` and the end of
`y`. -/
example : (∃ σ τ, ExecAll (K := XRat) Any .empty [.init 0 (.leaf (.var 0)), .initUn 1 (.fn .sqrt) ⟨0, []⟩] σ ∧
      σ 2 = none ∧ ExecAll (K := XRat) Any (σ.set 2 (some (.un (some (.fn .sqrt)) (some (.var 0)))))
        [.wrapUn 3 ⟨2, []⟩, .numUn 1 (some 3), .destroy 0] τ) ∧
    (run (K := XRat) (fun _ => true) .start
      [.init 0 (.leaf (.var 0)), .initUn 1 (.fn .sqrt) ⟨0, []⟩, .copyUn 2 ⟨1, []⟩, .wrapUn 3 ⟨2, []⟩,
       .numUn 1 (some 3), .destroy 0]).map (fun s => (s.view ⟨1, []⟩, s.view ⟨2, []⟩, s.view ⟨3, []⟩)) =
      .ok (.ok (.un (.fn .id) (.const (some 3))), .ok (.un (.fn .sqrt) (.var 0)),
        .ok (.un (.fn .id) (.un (.fn .sqrt) (.var 0)))) := by
  refine ⟨⟨_, _, .cons (.init rfl (.var 0)) trivial (.cons (.initUn rfl rfl) trivial .nil), rfl,
    .cons (.wrapUn rfl rfl) trivial (.cons (.numUn rfl) trivial (.cons (.destroy rfl) trivial .nil))⟩, ?_⟩
  decide +kernel

/-- A default constructed unary expression object must not be copied. -/
example : (run (K := XRat) (fun _ => true) .start [.declUn 0, .copyUn 1 ⟨0, []⟩]).map (fun _ => ()) = .ub := by
  decide +kernel

/-! ### C48 -/

/-- A call of the library (`simplify`, `diff`, `substitute`, an operator, a function, a constructor) on any
expressions of any program leaves everything in memory as it was and allocates the nodes of its result, all of them
new, and nothing else; all memory it used in between has been released.
Missing: calls that throw and derivatives of gradients with respect to function symbols, for which it is false. -/
theorem C48_clean_partial {prog : List (Stmt K)} {σ : Store K} {s : State K} (h : ExecAll Any .empty prog σ)
    (hs : run o .start prog = .ok s) {rhs : Rhs K} {e : Expr K} (hr : RhsVal σ rhs (.ok e)) (ht : TidyRhs σ rhs) :
    ∃ a h', create o rhs s = .ok a ⟨h', s.ptr, s.objs⟩ ∧ Clean s.heap h' a e := by
  obtain ⟨s0, L, h1, ⟨⟨fp, H⟩, hk⟩, -⟩ := run_sim (o := o) (fun _ => rfl) start_rep' h
  rw [hs] at h1
  cases h1
  obtain ⟨a, h', F, L, h1, h2, h3, h4⟩ := (create_ok (o := o) H hk hr).resolve_right fun ⟨_, _, _, _, h⟩ => by
    obtain ⟨_, -, -, h⟩ := H.scarce h
    cases h
  have hL := h4.resolve_left (TidyRhs.not_leaky ht)
  subst hL
  rw [List.append_nil] at h3
  refine ⟨a, h', h1, fun b hb => h3.keep hb, load_own h2, fun ks b hb => ?_, fun b hb => ?_⟩
  · have hb' : b ∈ F := follow_mem ks h2 hb
    have := h3.fresh b hb'
    cases hc : s.heap.cells b with
    | none => rfl
    | some c => exact absurd (h3.wf.lt (b := b) (by simp [hc])) (by omega)
  · by_cases hn : s.heap.next ≤ b
    · exact .inr (reach e h2 ((h3.mem b hn).1 hb))
    · rw [h3.old b (by omega)] at hb
      exact .inl hb

/-- A call that throws leaves everything in memory as it was. -/
theorem C48_throw_partial {prog : List (Stmt K)} {σ : Store K} {s : State K} (h : ExecAll Any .empty prog σ)
    (hs : run o .start prog = .ok s) {rhs : Rhs K} {x : Exc} (hr : RhsVal σ rhs (.throw x)) :
    ∃ y h', create o rhs s = .throw y ⟨h', s.ptr, s.objs⟩ ∧
      ∀ b, s.heap.cells b ≠ none → h'.cells b = s.heap.cells b := by
  obtain ⟨s0, L, h1, ⟨⟨fp, H⟩, hk⟩, -⟩ := run_sim (o := o) (fun _ => rfl) start_rep' h
  rw [hs] at h1
  cases h1
  obtain ⟨y, h', L, h1, h2⟩ := create_throw (o := o) H hk hr
  exact ⟨y, h', h1, fun b hb => h2.keep hb⟩

/-- `expr a = x; expr b = a * a; diff(b, x)` gives `x + x`. -/
example : ∃ σ, ExecAll (K := XRat) Any .empty [.init 0 (.leaf (.var 0)), .init 1 (.bin .mult ⟨0, []⟩ ⟨0, []⟩)] σ ∧
    RhsVal σ (.diff (.var 0) ⟨1, []⟩) (.ok (.bin .plus (.var 0) (.var 0))) ∧ TidyRhs σ (.diff (.var 0) ⟨1, []⟩) :=
  ⟨_, .cons (.init rfl (.var 0)) trivial (.cons (.init rfl (.bin rfl rfl)) trivial .nil),
    .diff (x := .bin .mult (.var 0) (.var 0)) rfl (by decide +kernel),
    tidy_diff (e := .bin .mult (.var 0) (.var 0))
      (d := .bin .plus (.bin .mult (.const (some 1)) (.var 0)) (.bin .mult (.var 0) (.const (some 1))))
      rfl (by decide +kernel)⟩

/-- The number of nodes below an address that are allocated. -/
def allocated (s : State K) : Nat := ((List.range s.heap.next).filter fun a => (s.heap.cells a).isSome).length

/-- `expr a = x + (2 - y) / x;` for compile-time `x`, `y` and `2`, `expr b = 2 * y; b = a; a = x * x;` and the end of
`a` and `b`: the objects hold the run-time counterparts, and in memory no node is left over. -/
example : (∃ σ, ExecAll (K := XRat) Tidy .empty
      [.init 0 (.conv (.var 0) .plus (.bin (.bin (.const 2) .minus (.var 1)) .div (.var 0))),
       .init 1 (.conv (.const 2) .mult (.var 1)), .assign 1 (.copy ⟨0, []⟩), .assign 0 (.conv (.var 0) .mult (.var 0))] σ ∧
      look σ ⟨0, []⟩ = some (.bin .mult (.var 0) (.var 0)) ∧
      look σ ⟨1, []⟩ = some (.bin .plus (.var 0) (.bin .div (.bin .minus (.const (some 2)) (.var 1)) (.var 0)))) ∧
    ∀ b, (run (K := XRat) (fun _ => b) .start
      [.init 0 (.conv (.var 0) .plus (.bin (.bin (.const 2) .minus (.var 1)) .div (.var 0))),
       .init 1 (.conv (.const 2) .mult (.var 1)), .assign 1 (.copy ⟨0, []⟩), .assign 0 (.conv (.var 0) .mult (.var 0)),
       .destroy 0, .destroy 1]).map (fun s => (allocated s, s.objs 0, s.objs 1)) = .ok (0, none, none) := by
  refine ⟨⟨_, .cons (.init rfl (.conv rfl)) tidy_conv (.cons (.init rfl (.conv rfl)) tidy_conv
    (.cons (.assign rfl (.copy rfl)) tidy_copy (.cons (.assign rfl (.conv rfl)) tidy_conv .nil))), rfl, ?_⟩,
    by decide +kernel⟩
  decide +kernel

/-- `expr a = u; diff(a, x)` throws. -/
example : ∃ σ, ExecAll (K := XRat) Any .empty [.init 0 (.leaf (.fsym 0 0))] σ ∧
    RhsVal σ (.diff (.var 0) ⟨0, []⟩) (.throw .notDifferentiable) :=
  ⟨_, .cons (.init rfl (.fsym 0 0)) trivial .nil, .diffThrow (x := .fsym 0 0) rfl rfl⟩

/-- The claim is false for gradients: after `expr f = grad(u); expr g = diff(f, u);` and the end of all objects a
node is still allocated, whether the compiler evaluates arguments from left to right or from right to left; `diff` of
a gradient computes the derivative of its operand twice and never deletes the first one (unary_operations.hpp
641-664). -/
theorem C48_gradient_leaks : ∀ b, (run (K := XRat) (fun _ => b) .start
    [.init 0 (.leaf (.fsym 0 0)), .init 1 (.un .grad ⟨0, []⟩), .init 2 (.diff (.fsym 0 0) ⟨1, []⟩),
     .destroy 0, .destroy 1, .destroy 2]).map (fun s => (allocated s, s.objs 0, s.objs 1, s.objs 2)) =
    .ok (1, none, none, none) := by decide +kernel

/-- The claim is false for calls that throw: after `diff(x + (u + x), x)`, which throws, the derivative of an `x` is
still allocated when all objects have been destroyed. -/
theorem C48_exception_leaks : ∀ b, (run (K := XRat) (fun _ => b) .start
    [.init 0 (.leaf (.var 0)), .init 1 (.leaf (.fsym 0 0)), .init 2 (.bin .plus ⟨1, []⟩ ⟨0, []⟩),
     .init 3 (.bin .plus ⟨0, []⟩ ⟨2, []⟩), .assign 0 (.diff (.var 0) ⟨3, []⟩),
     .destroy 0, .destroy 1, .destroy 2, .destroy 3]).map
      (fun s => (allocated s, s.objs 0, s.objs 1, s.objs 2, s.objs 3)) =
    .ok (1, none, none, none, none) := by decide +kernel

end VM.Props
