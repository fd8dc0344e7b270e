import Verif.Rt.PairLemmas
import Verif.Props.Memory
import Verif.NumRat
import Verif.Rt.Dec
/-
C78: equations and intervals are values: each owns its two expressions.
-/
namespace VM.Props
open Spec Run
variable {K : Type} [Num K] {o f : Nat → Bool}

/-- A program with equations and intervals that uses its objects as they may be used (`PSafe`) runs without undefined
behaviour, whichever requests for memory fail; afterwards every expression, every side of an equation, and every bound
of an interval shows a value of its own, one that the statements may have given it (`PRan`).
Missing: assignment of intervals, for which this is false (`C78_interval_assign`), and equations whose sides have not
been given (`C78_unset`). -/
theorem C78_safe_partial {p : PClient K} (h : PSafe .empty p) :
    ∃ s τ, p.run o (.begin f) = .ok s ∧ PRan .empty p τ ∧ s.pairs = τ.pairs ∧
      (∀ i, s.st.objs i = none ↔ τ.objs i = none) ∧ ∀ r, s.st.view r = shown (look τ.objs r) := by
  obtain ⟨s, L, τ, h1, h2, h3⟩ := pclient_sim (o := o) (fl := f) pstart_rep h
  exact ⟨s, τ, h1, h2, h3.2, fun i => by rw [h3.1.2 i]; simp, h3.1.view⟩

/-- At any point of any such program: a statement changes nothing but the object it works on; in particular no
expression, equation or interval from which another one was made, and none that was made from it. -/
theorem C78_others {p q₁ q₂ : PClient K} {c : PStmt K} {s s' : PState K} (h : PSafe .empty p)
    (hs : PReaches o p (.begin f) (.step c q₁ q₂) s) (hs' : c.exec o s = .ok () s' ∨ ∃ x, c.exec o s = .throw x s')
    {r : Src} (hr : ¬ Subject r.obj c) : s'.st.view r = s.st.view r := by
  obtain ⟨σ, τ, G, h2, hx, h3⟩ := pclient_step h hs
  rcases hs' with hs' | ⟨x, hs'⟩ <;> rw [hs'] at h3
  · cases h3 with
    | ok h4 => rw [h4.1.view, h2.1.view, pexec_look hx hr]
  · cases h3 with
    | threw h4 => rw [h4.1.view, h2.1.view, pexec_look hx hr]
    | noMemory h4 h5 => rw [h4.1.view, h2.1.view, poutOf_look h5 hr]

omit [Num K] in
theorem look_put_first {σ : PStore K} {k : PairKind} {p : Nat} {x y : Option (Expr K)} {ks : List Nat} :
    look (σ.put k p x y).objs ⟨first p, ks⟩ = x.bind (part · ks) := by
  simp only [Spec.look, PStore.put]
  rw [set_other first_ne, set_self]
  rfl

omit [Num K] in
theorem look_put_second {σ : PStore K} {k : PairKind} {p : Nat} {x y : Option (Expr K)} {ks : List Nat} :
    look (σ.put k p x y).objs ⟨second p, ks⟩ = y.bind (part · ks) := by
  simp only [Spec.look, PStore.put]
  rw [set_self]
  rfl

omit [Num K] in
theorem look_has {σ : PStore K} {k : PairKind} {p : Nat} {x y : Option (Expr K)} {ks : List Nat} (h : σ.Has k p x y) :
    look σ.objs ⟨first p, ks⟩ = x.bind (part · ks) ∧ look σ.objs ⟨second p, ks⟩ = y.bind (part · ks) := by
  simp [Spec.look, h.2.1, h.2.2, Obj.part]

/-- An equation or an interval made from two expressions has these as its sides, in this order. -/
theorem C78_made {p q₁ q₂ : PClient K} {k : PairKind} {i : Nat} {l r : Src} {s s' : PState K} (h : PSafe .empty p)
    (hs : PReaches o p (.begin f) (.step (.make k i l r) q₁ q₂) s) (hs' : PStmt.exec o (.make k i l r) s = .ok () s') :
    s'.st.view ⟨first i, []⟩ = s.st.view l ∧ s'.st.view ⟨second i, []⟩ = s.st.view r := by
  obtain ⟨σ, τ, G, h2, hx, h3⟩ := pclient_step h hs
  rw [hs'] at h3
  cases h3 with
  | ok h4 =>
    cases hx with
    | make hF hl hr =>
      rw [h4.1.view, h4.1.view, h2.1.view, h2.1.view, look_put_first, look_put_second, hl, hr]
      exact ⟨rfl, rfl⟩

/-- A copy of an equation or of an interval, and an equation to which another one is assigned, shows on each side what
the other one shows there.  -/
theorem C78_copied {p q₁ q₂ : PClient K} {k : PairKind} {i j : Nat} {c : PStmt K} {s s' : PState K}
    (h : PSafe .empty p) (hc : c = .copy k i j ∨ c = .assign k i j)
    (hs : PReaches o p (.begin f) (.step c q₁ q₂) s) (hs' : c.exec o s = .ok () s') (ks : List Nat) :
    s'.st.view ⟨first i, ks⟩ = s.st.view ⟨first j, ks⟩ ∧ s'.st.view ⟨second i, ks⟩ = s.st.view ⟨second j, ks⟩ := by
  obtain ⟨σ, τ, G, h2, hx, h3⟩ := pclient_step h hs
  rw [hs'] at h3
  cases h3 with
  | ok h4 =>
    rw [h4.1.view, h4.1.view, h2.1.view, h2.1.view]
    rcases hc with rfl | rfl <;> cases hx
    · rename_i h5 h6; rw [look_put_first, look_put_second, (look_has h6).1, (look_has h6).2]; exact ⟨rfl, rfl⟩
    · rename_i h5 h6; rw [look_put_first, look_put_second, (look_has h6).1, (look_has h6).2]; exact ⟨rfl, rfl⟩
    · rename_i h5 h6; rw [look_put_first, look_put_second, (look_has h6).1, (look_has h6).2]; exact ⟨rfl, rfl⟩

/-- The statement is no assignment of equations. -/
def Constructs : PStmt K → Prop
  | .decl _ _ | .make _ _ _ _ | .copy _ _ _ => True
  | _ => False

/-- Construction of an equation or an interval that throws has no effect, neither the pair nor one half of it exists
afterwards, and it throws only if there is not enough memory. -/
theorem C78_unchanged {p q₁ q₂ : PClient K} {c : PStmt K} {s s' : PState K} {x : Exc}
    (h : PSafe .empty p) (hs : PReaches o p (.begin f) (.step c q₁ q₂) s) (hc : Constructs c)
    (hs' : c.exec o s = .throw x s') :
    (∀ r, s'.st.view r = s.st.view r) ∧ (∀ i, s'.st.objs i = s.st.objs i) ∧ s'.pairs = s.pairs ∧
      x = .badAlloc ∧ ∃ a, f a = true := by
  obtain ⟨σ, τ, G, h2, hx, h3⟩ := pclient_step h hs
  rw [hs'] at h3
  cases h3 with
  | threw h4 h5 =>
    cases c with
    | single c => exact absurd hc id
    | _ => exact absurd h5 id
  | @noMemory _ L υ h4 h5 h6 =>
    obtain rfl : υ = σ := by
      cases h5 <;> first | rfl | exact absurd hc id
    exact ⟨fun r => by rw [h4.1.view, h2.1.view], fun i => by rw [h4.1.2 i, h2.1.2 i], by rw [h4.2, h2.2], rfl, h6⟩

/-- With enough memory, when all expressions, equations and intervals have been destroyed, nothing is allocated any
more (for programs in which no call throws and no expression with gradients is differentiated with respect to a
function symbol, as in C23). -/
theorem C78_all_freed {prog : List (PStmt K)} {τ : PStore K} (h : PExecAll .empty prog τ)
    (hd : ∀ i, τ.objs i = none) :
    ∃ s, PStmt.runAll o (.begin fun _ => false) prog = .ok s ∧ ∀ a, s.st.heap.cells a = none := by
  obtain ⟨s, h1, ⟨⟨fp, H⟩, hk⟩, -⟩ := pall_sim (o := o) (fl := fun _ => false) (fun _ => rfl) pstart_rep h
  refine ⟨s, h1, fun a => ?_⟩
  cases ha : s.st.heap.cells a with
  | none => rfl
  | some c =>
    rcases Rep.reach ⟨⟨fp, H⟩, hk⟩ (a := a) (by simp [ha]) with h | ⟨r, hr⟩
    · cases h
    · rw [State.target, hk r.obj, hd r.obj] at hr
      cases hr

/-- The claim is false for intervals: no assignment of one interval to another ever returns; the function ends
without a `return` (interval.hpp 55-59). -/
theorem C78_interval_assign (i j : Nat) (s s' : PState K) :
    PStmt.exec o (.assign .interval i j) s ≠ .ok () s' := by
  rw [PStmt.exec]
  split
  · rw [members]
    cases h : exec o (.assign (first i) (.copy ⟨first j, []⟩)) s.st with
    | ok a t =>
      rw [bind_ok h]
      cases h' : exec o (.assign (second i) (.copy ⟨second j, []⟩)) t with
      | ok b u => rw [bind_ok h']; simp [Run.look]
      | throw x u => rw [bind_throw h']; simp
      | ub => rw [bind_ub h']; simp
    | throw x u => rw [bind_throw h]; simp
    | ub => rw [bind_ub h]; simp
  · simp

/-- On a machine with enough memory every assignment of intervals, at any point of any program that has used its
objects properly so far, has undefined behaviour. -/
theorem C78_interval_assign_undefined {p q : PClient K} {s : PState K} (h : PSafe .empty p)
    (hs : PReaches o p (.begin fun _ => false) q s) {i j : Nat} (hi : s.pairs i = some .interval)
    (hj : s.pairs j = some .interval) : PStmt.exec o (.assign .interval i j) s = .ub := by
  obtain ⟨σ, L, h1, h2⟩ := preaches_complete hs pstart_rep h (fun _ h => by cases h)
  rw [h1.2] at hi hj
  obtain ⟨x, y, h3⟩ := h2 i hi
  obtain ⟨u, v, h4⟩ := h2 j hj
  rw [PStmt.exec, if_pos (by simp [PState.admits, h1.2, hi, hj]), members]
  have h5 := assign_ends (o := o) h1.1 h3.2.1 h4.2.1
  revert h5
  generalize hr : exec o (.assign (first i) (.copy ⟨first j, []⟩)) s.st = r
  rintro (h5 | ⟨-, -, ⟨a, ha⟩⟩)
  · have h6 := assign_ends (o := o) h5 (i := second i) (d := some y) (j := second j) (e := v)
      (by rw [set_other first_ne.symm, h3.2.2]) (by rw [set_other first_ne.symm, h4.2.2])
    rw [bind_ok hr]
    revert h6
    rename_i s₁
    generalize hr' : exec o (.assign (second i) (.copy ⟨second j, []⟩)) s₁ = r'
    rintro (h6 | ⟨-, -, ⟨a, ha⟩⟩)
    · rw [bind_ok hr']; rfl
    · cases ha
  · cases ha

/-- Nor does it hold for equations whose sides have not been given (`rt_equation e;`): assigning such an equation, and
making an equation or an interval from an expression that holds nothing, has undefined behaviour in every state; only
copying is taken care of. -/
theorem C78_unset {s : PState K} {i j : Nat} {k : PairKind} {r l : Src} :
    (s.st.target ⟨first j, []⟩ = .ok .null → PStmt.exec o (.assign .equation i j) s = .ub) ∧
    (s.st.target l = .ok .null → PStmt.exec o (.make k i l r) s = .ub) := by
  refine ⟨fun h => ?_, fun h => ?_⟩
  · rw [PStmt.exec]
    split
    · rw [members, bind_ub]
      rw [exec, look_bind (f := fun s : State K => s.objs (first i))]
      have hn : (create o (.copy ⟨first j, []⟩) : Prog K Nat) s.st = .ub := by
        rw [create, bind_ub]
        simp [Run.look, Rhs.args, State.refs, State.ref, h, Res.bind]
      cases s.st.objs (first i) with
      | none => rfl
      | some k =>
        cases k with
        | expr => exact bind_ub hn
        | _ => rfl
    · rfl
  · rw [PStmt.exec]
    split
    · rw [members, bind_ub]
      rw [hold, bind_ub]
      rw [create, bind_ub]
      simp [Run.look, Rhs.args, State.refs, State.ref, h, Res.bind]
    · rfl

/-- Assignment of equations is not all or nothing: with `e` the equation `x = x` and `f` the equation `y = y`, the
assignment `e = f` can throw and leave `e` as `y = x`. -/
theorem C78_half_assigned : ∀ b, ∃ f : Nat → Bool,
    ((PClient.step (K := XRat) (.single (.init 10 (.leaf (.var 0)))) (.step (.single (.init 11 (.leaf (.var 1))))
      (.step (.make .equation 0 ⟨10, []⟩ ⟨10, []⟩) (.step (.make .equation 1 ⟨11, []⟩ ⟨11, []⟩)
      (.step (.assign .equation 0 1) .done .done) .done) .done) .done) .done).run (fun _ => b) (.begin f)).bind
      (fun s => (s.st.view ⟨first 0, []⟩).bind fun x => (s.st.view ⟨second 0, []⟩).map fun y => (x, y)) =
    .ok (.var 1, .var 0) := by
  intro b
  refine ⟨fun a => a == 7, ?_⟩
  revert b
  decide +kernel

/-! ### Examples -/

/-- Statements one after the other; the program ends when one throws. -/
def inRow : List (PStmt K) → PClient K
  | [] => .done
  | c :: cs => .step c (inRow cs) .done

theorem inRow_safe {σ τ : PStore K} {c : PStmt K} {cs : List (PStmt K)} (hc : ∀ d, c ≠ .single d) (h : PExec σ c τ)
    (hs : PSafe τ (inRow cs)) : PSafe σ (inRow (c :: cs)) := by
  refine ⟨⟨τ, h⟩, fun υ => ⟨fun hu => ?_, fun _ => trivial⟩⟩
  cases hu with
  | normal hu _ => rw [pexec_det hc h hu]; exact hs

theorem inRow_var {σ : PStore K} {i v : Nat} {cs : List (PStmt K)} (hi : σ.objs i = none) (hp : σ.pairs (i / 2) = none)
    (hs : PSafe ⟨σ.objs.set i (some (.expr (some (.var v)))), σ.pairs⟩ (inRow cs)) :
    PSafe σ (inRow (.single (.init i (.leaf (.var v))) :: cs)) := by
  refine ⟨⟨_, .single (.init hi (.var v)) hp⟩, fun υ => ⟨fun hu => ?_, fun _ => trivial⟩⟩
  cases hu with
  | normal hu _ =>
    cases hu with
    | single hu _ =>
      cases hu with
      | init _ h => cases h; exact hs
      | initThrow _ h => cases h

/-- `variable x; interval i; equation e(x, i.upper()); equation f; f = e; equation g(f); interval j(e.lhs(), x);
interval k(j);` and the end of `e`. -/
def sides : List (PStmt XRat) :=
  [.single (.init 20 (.leaf (.var 0))), .decl .interval 0, .make .equation 1 ⟨20, []⟩ ⟨second 0, []⟩,
   .decl .equation 2, .assign .equation 2 1, .copy .equation 3 2, .make .interval 4 ⟨first 1, []⟩ ⟨20, []⟩,
   .copy .interval 5 4, .destroy 1]

theorem sides_safe : PSafe .empty (inRow sides) := by
  refine inRow_var rfl rfl ?_
  refine inRow_safe (by simp) (.declInt ⟨rfl, rfl, rfl⟩) ?_
  refine inRow_safe (by simp) (.make ⟨rfl, rfl, rfl⟩ rfl rfl) ?_
  refine inRow_safe (by simp) (.declEq ⟨rfl, rfl, rfl⟩) ?_
  refine inRow_safe (by simp) (.assign ⟨rfl, rfl, rfl⟩ ⟨rfl, rfl, rfl⟩) ?_
  refine inRow_safe (by simp) (.copyEq ⟨rfl, rfl, rfl⟩ ⟨rfl, rfl, rfl⟩) ?_
  refine inRow_safe (by simp) (.make ⟨rfl, rfl, rfl⟩ rfl rfl) ?_
  refine inRow_safe (by simp) (.copyInt ⟨rfl, rfl, rfl⟩ ⟨rfl, rfl, rfl⟩) ?_
  refine inRow_safe (by simp) (.destroy ⟨rfl, rfl, rfl⟩) ?_
  trivial

/-- The sides afterwards. -/
example : (((inRow sides).run (fun _ => true) (.begin fun _ => false)).bind fun s => s.st.view ⟨first 3, []⟩) =
      .ok (.var 0) ∧
    (((inRow sides).run (fun _ => true) (.begin fun _ => false)).bind fun s => s.st.view ⟨second 3, []⟩) =
      .ok (.const (some 1)) ∧
    (((inRow sides).run (fun _ => true) (.begin fun _ => false)).bind fun s => s.st.view ⟨first 5, []⟩) =
      .ok (.var 0) ∧ PSafe .empty (inRow sides) :=
  ⟨by decide +kernel, by decide +kernel, by decide +kernel, sides_safe⟩

/-- The state after some statements. -/
def stateAfter (f : Nat → Bool) (cs : List (PStmt XRat)) : PState XRat :=
  match PStmt.runAll (fun _ => true) (.begin f) cs with
  | .ok s => s
  | _ => .begin f

theorem reaches_row {cs ds : List (PStmt K)} {c : PStmt K} : ∀ {s t : PState K}, PStmt.runAll o s cs = .ok t →
    PReaches o (inRow (cs ++ c :: ds)) s (.step c (inRow ds) .done) t := by
  induction cs with
  | nil => intro s t h; cases h; exact .refl
  | cons d cs ih =>
    intro s t h
    rw [PStmt.runAll] at h
    cases hr : d.exec o s with
    | ok u s' => rw [hr] at h; exact .ok hr (ih h)
    | throw x s' => rw [hr] at h; cases h
    | ub => rw [hr] at h; cases h

/-- No statement of the row throws. -/
def goesWell (f : Nat → Bool) (cs : List (PStmt XRat)) : Bool :=
  match PStmt.runAll (fun _ => true) (.begin f) cs with
  | .ok _ => true
  | _ => false

theorem stateAfter_eq {f : Nat → Bool} {cs : List (PStmt XRat)} (h : goesWell f cs = true) :
    PStmt.runAll (fun _ => true) (.begin f) cs = .ok (stateAfter f cs) := by
  unfold goesWell at h
  unfold stateAfter
  cases hr : PStmt.runAll (fun _ => true) (.begin f) cs with
  | ok s => rfl
  | throw x => rw [hr] at h; cases h
  | ub => rw [hr] at h; cases h

/-- The program gets to the assignment `f = e` and to the copies, and these end normally. -/
example : (∃ q₁ q₂ s s', PReaches (fun _ => true) (inRow sides) (.begin fun _ => false)
      (.step (.assign .equation 2 1) q₁ q₂) s ∧ PStmt.exec (fun _ => true) (.assign .equation 2 1) s = .ok () s') ∧
    (∃ q₁ q₂ s s', PReaches (fun _ => true) (inRow sides) (.begin fun _ => false)
      (.step (.make .interval 4 ⟨first 1, []⟩ ⟨20, []⟩) q₁ q₂) s ∧
        PStmt.exec (fun _ => true) (.make .interval 4 ⟨first 1, []⟩ ⟨20, []⟩) s = .ok () s') := by
  refine ⟨⟨_, _, _, next (stateAfter (fun _ => false) (sides.take 4)) _,
    reaches_row (cs := sides.take 4) (ds := sides.drop 5) (stateAfter_eq ?_), next_ok ?_⟩,
    ⟨_, _, _, next (stateAfter (fun _ => false) (sides.take 6)) _,
    reaches_row (cs := sides.take 6) (ds := sides.drop 7) (stateAfter_eq ?_), next_ok ?_⟩⟩
  all_goals decide +kernel

/-- The construction of the equation runs out of memory when its second side is copied. -/
example : ∃ q₁ q₂ s, PReaches (fun _ => true) (inRow sides) (.begin fun a => a == 4)
      (.step (.make .equation 1 ⟨20, []⟩ ⟨second 0, []⟩) q₁ q₂) s ∧
    isBadAlloc (PStmt.exec (fun _ => true) (.make .equation 1 ⟨20, []⟩ ⟨second 0, []⟩) s) = true := by
  refine ⟨_, _, _, reaches_row (cs := sides.take 2) (ds := sides.drop 3) (stateAfter_eq ?_), ?_⟩
  all_goals decide +kernel

/-- Two intervals exist, so that one could be assigned to the other. -/
example : ∃ q s, PReaches (fun _ => true) (inRow sides) (.begin fun _ => false) q s ∧
    s.pairs 4 = some .interval ∧ s.pairs 5 = some .interval := by
  refine ⟨_, _, reaches_row (cs := sides.take 8) (ds := []) (stateAfter_eq ?_), ?_, ?_⟩
  all_goals decide +kernel

/-- An equation without sides exists. -/
example : (stateAfter (fun _ => false) (sides.take 4)).st.target ⟨first 2, []⟩ = .ok .null := by decide +kernel

/-- A program after which everything is destroyed. -/
example : ∃ τ, PExecAll (K := XRat) .empty [.decl .interval 0, .make .equation 1 ⟨first 0, []⟩ ⟨second 0, []⟩,
    .destroy 0, .destroy 1] τ ∧ ∀ i, τ.objs i = none := by
  refine ⟨_, .cons (.declInt ⟨rfl, rfl, rfl⟩) trivial (.cons (.make ⟨rfl, rfl, rfl⟩ rfl rfl) trivial
    (.cons (.destroy ⟨rfl, rfl, rfl⟩) trivial (.cons (.destroy ⟨rfl, rfl, rfl⟩) trivial .nil))), fun i => ?_⟩
  simp only [PStore.drop, PStore.put, PStore.empty, Store.set, Store.empty, first, second]
  repeat' split
  all_goals rfl

end VM.Props
