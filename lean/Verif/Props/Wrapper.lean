import Verif.Rt.WrapperLemmas
import Verif.Props.Traverse
/-
C90 functor wrappers own their functor; C91 typed callbacks.
-/
namespace VM.Props
open Spec
variable {F K σ : Type}

/-- C90: a program that gives every functor to one wrapper only, and calls only wrappers that have one, runs without
undefined behaviour and calls the functors it means; at the end every functor that is still there waits to be given to a
wrapper or belongs to exactly one wrapper. -/
theorem C90_wrappers {ops : List (WOp F)} {t : Wrappers F} {cs : List F} (h : Program .none ops t cs) :
    ∃ m, WMem.run .empty ops = some (.ok (m, cs)) ∧
      (∀ w, (∃ a f, m.wrappers w = some (some a) ∧ m.functors a = some f ∧ t.has w = some (some f)) ∨
        (m.wrappers w = some none ∧ t.has w = some none) ∨ (m.wrappers w = none ∧ t.has w = none)) ∧
      ∀ a f, m.functors a = some f → (t.waiting a = some f ∧ ∀ w, m.wrappers w ≠ some (some a)) ∨
        (t.waiting a = none ∧ ∃ w, m.wrappers w = some (some a) ∧ ∀ w', m.wrappers w' = some (some a) → w' = w) := by
  obtain ⟨m, h1, h2⟩ := WRep.run h WRep.empty
  refine ⟨m, h1, fun w => ?_, fun a f hf => ?_⟩
  · cases hw : m.wrappers w with
    | none => exact .inr (.inr ⟨rfl, (h2.absent w).1 hw⟩)
    | some u =>
      cases u with
      | none => exact .inr (.inl ⟨rfl, (h2.null w).1 hw⟩)
      | some a => obtain ⟨f, h3, h4⟩ := h2.held w a hw; exact .inl ⟨a, f, rfl, h3, h4⟩
  · cases hw : t.waiting a with
    | some g =>
      have := h2.waiting a g hw
      rw [hf] at this; cases this
      exact .inl ⟨rfl, fun w hm => by rw [h2.free w a hm] at hw; cases hw⟩
    | none =>
      rcases h2.owned a f hf with h3 | ⟨w, h3⟩
      · rw [hw] at h3; cases h3
      · exact .inr ⟨rfl, w, h3, fun w' h' => h2.one w' w a h' h3⟩

/-- C90: once every functor has been given to a wrapper and every wrapper is gone, no functor is left. -/
theorem C90_nothing_left {ops : List (WOp F)} {t : Wrappers F} {cs : List F} (h : Program .none ops t cs)
    (hw : ∀ a, t.waiting a = none) (hh : ∀ w, t.has w = none) :
    ∃ m, WMem.run .empty ops = some (.ok (m, cs)) ∧ ∀ a, m.functors a = none := by
  obtain ⟨m, h1, h2⟩ := WRep.run h WRep.empty
  refine ⟨m, h1, fun a => ?_⟩
  cases hf : m.functors a with
  | none => rfl
  | some f =>
    rcases h2.owned a f hf with h3 | ⟨w, h3⟩
    · rw [hw] at h3; cases h3
    · rw [(h2.absent w).2 (hh w)] at h3; cases h3

/-- C90 holds in part only, since a copy is not a copy: after any program, taking a copy of a wrapper makes calls of the
wrapper itself undefined, while the copy calls the functor. -/
theorem C90_copy_partial {ops : List (WOp F)} {t : Wrappers F} {cs : List F} (h : Program .none ops t cs) {w w' : Nat}
    {f : F} (hw : t.has w = some (some f)) (hw' : t.has w' = none) :
    WMem.run .empty (ops ++ [.copy w' w, .call w]) = some .ub ∧
    ∃ m, WMem.run .empty (ops ++ [.copy w' w, .call w']) = some (.ok (m, cs ++ [f])) := by
  obtain ⟨m, h1, h2⟩ := WRep.run h WRep.empty
  have app : ∀ (ops ops' : List (WOp F)) (m0 m1 : WMem F) (cs : List F), WMem.run m0 ops = some (.ok (m1, cs)) →
      WMem.run m0 (ops ++ ops') = (WMem.run m1 ops').map fun r => r.map fun q => (q.1, cs ++ q.2) := by
    intro ops ops'
    induction ops with
    | nil =>
      intro m0 m1 cs h
      simp only [WMem.run, Option.some.injEq, Res.ok.injEq, Prod.mk.injEq] at h
      obtain ⟨rfl, rfl⟩ := h
      rw [List.nil_append]
      cases WMem.run m0 ops' with
      | none => rfl
      | some r => cases r <;> rfl
    | cons op ops ih =>
      intro m0 m1 cs h
      rw [List.cons_append, WMem.run]
      rw [WMem.run] at h
      cases hs : m0.step op with
      | none => rw [hs] at h; cases h
      | some r =>
        rw [hs] at h
        cases r with
        | throw x => cases h
        | ub => cases h
        | ok q =>
          obtain ⟨m2, c⟩ := q
          dsimp only at h ⊢
          cases hr : m2.run ops with
          | none => rw [hr] at h; cases h
          | some r =>
            rw [hr] at h
            cases r with
            | throw x => cases h
            | ub => cases h
            | ok q =>
              obtain ⟨m3, cs'⟩ := q
              simp only [Option.map, Res.map, Option.some.injEq] at h
              cases h
              rw [ih m2 m3 cs' hr]
              cases WMem.run m3 ops' with
              | none => rfl
              | some r => cases r <;> simp [Res.map]
  have hne : w ≠ w' := fun he => by rw [he, hw'] at hw; cases hw
  have ha' : m.wrappers w' = none := (h2.absent w').2 hw'
  cases ha : m.wrappers w with
  | none => rw [(h2.absent w).1 ha] at hw; cases hw
  | some u =>
    cases u with
    | none => rw [(h2.null w).1 ha] at hw; cases hw
    | some a =>
      obtain ⟨g, h3, h4⟩ := h2.held w a ha
      rw [hw] at h4; cases h4
      rw [app _ _ _ _ _ h1, app _ _ _ _ _ h1]
      constructor
      · simp [WMem.run, WMem.step, ha, ha', putAt, hne, Res.map]
      · simp [WMem.run, WMem.step, ha, ha', putAt, h3, Res.map]

/-- Giving one functor to two wrappers is undefined once both end. -/
theorem C90_twice (f : F) {w w' : Nat} (h : w ≠ w') :
    WMem.run .empty [.new f, .wrap w 0, .wrap w' 0, .destroy w', .destroy w] = some .ub := by
  simp [WMem.run, WMem.step, WMem.empty, WMem.delete, putAt, h, Ne.symm h, Res.map]

example : ∃ t, Program (F := String) .none
    [.new "a", .wrap 0 0, .call 0, .copy 1 0, .new "b", .wrap 2 1, .assign 2 1, .call 2, .destroy 0, .destroy 1, .destroy 2]
    t ["a", "a"] ∧ (∀ a, t.waiting a = none) ∧ ∀ w, t.has w = none := by
  refine ⟨_, .cons (.new ..) (.cons (.wrap _ _ _ "a" rfl rfl) (.cons (.call _ _ "a" rfl) (.cons (.copy _ _ _ (some "a") rfl rfl)
    (.cons (.new ..) (.cons (.wrap _ _ _ "b" rfl rfl) (.cons (.assign _ _ _ (some "b") (some "a") (by decide) rfl rfl)
    (.cons (.call _ _ "a" rfl) (.cons (.destroy _ _ none rfl) (.cons (.destroy _ _ none rfl)
    (.cons (.destroy _ _ (some "a") rfl) (.nil _))))))))))), fun a => ?_, fun w => ?_⟩
  · simp only [putAt, Wrappers.none]
    by_cases h0 : a = 0 <;> by_cases h1 : a = 1 <;> simp [h0, h1]
  · simp only [putAt, Wrappers.none]; repeat' split
    all_goals first | rfl | omega

/-! ### C91 -/

/-- The class of a node is what it should be. -/
theorem nodeClass_iff (e : Expr K) (C : NodeClass) : e.nodeClass = C ↔ InClass C e := by
  cases e <;> cases C <;> simp [Expr.nodeClass, InClass]

theorem dispatch_eq (other : Expr K → σ → Res σ) (table : List (NodeClass × (Expr K → σ → Res σ)))
    (hn : (table.map (·.1)).Nodup) (e : Expr K) (s : σ) :
    (∀ cb, (e.nodeClass, cb) ∈ table → dispatch other table e s = cb e s) ∧
    (e.nodeClass ∉ table.map (·.1) → dispatch other table e s = other e s) := by
  induction table generalizing s with
  | nil => simp [dispatch]
  | cons q table ih =>
    obtain ⟨T, cb⟩ := q
    rw [List.map_cons, List.nodup_cons] at hn
    have ih := ih hn.2
    by_cases hT : e.nodeClass = T
    · constructor
      · intro cb' hm
        rcases List.mem_cons.1 hm with hm | hm
        · cases hm
          simp only [dispatch, callbackIf]
          cases cb e s <;> rfl
        · exact absurd (List.mem_map_of_mem (f := (·.1)) hm) (hT ▸ hn.1)
      · intro hm; exact absurd hT (by simp at hm; exact hm.1)
    · have : dispatch other ((T, cb) :: table) e s = dispatch other table e s := by
        simp only [dispatch, callbackIf, if_neg hT, Res.bind]; rfl
      rw [this]
      constructor
      · intro cb' hm
        rcases List.mem_cons.1 hm with hm | hm
        · cases hm; exact absurd rfl hT
        · exact (ih s).1 cb' hm
      · intro hm; exact (ih s).2 fun h => hm (List.mem_cons_of_mem _ h)

/-- C91: a functor that tries distinct classes in any order does the callback of the node's own class if it is tried, else
what it does for all others: whichever way, exactly one thing. -/
theorem C91_dispatch (other : Expr K → σ → Res σ) (table : List (NodeClass × (Expr K → σ → Res σ)))
    (hn : (table.map (·.1)).Nodup) (e : Expr K) (s : σ) :
    (∀ C cb, InClass C e → (C, cb) ∈ table → dispatch other table e s = cb e s) ∧
    ((∀ q ∈ table, ¬ InClass q.1 e) → dispatch other table e s = other e s) := by
  have main := dispatch_eq other table hn e s
  refine ⟨fun C cb hC hm => ?_, fun h => main.2 fun hm => ?_⟩
  · rw [← nodeClass_iff] at hC; subst hC; exact main.1 cb hm
  · obtain ⟨q, hq, hT⟩ := List.mem_map.1 hm
    exact h q hq ((nodeClass_iff _ _).1 hT.symm)

/-- C91: the order in which the classes are tried does not matter. -/
theorem C91_order (other : Expr K → σ → Res σ) {table table' : List (NodeClass × (Expr K → σ → Res σ))}
    (hn : (table.map (·.1)).Nodup) (hp : table.Perm table') (e : Expr K) (s : σ) :
    dispatch other table e s = dispatch other table' e s := by
  have hn' : (table'.map (·.1)).Nodup := (hp.map _).nodup_iff.1 hn
  by_cases hm : e.nodeClass ∈ table.map (·.1)
  · obtain ⟨⟨T, cb⟩, hq, hT⟩ := List.mem_map.1 hm
    dsimp only at hT; subst hT
    rw [(dispatch_eq other table hn e s).1 cb hq, (dispatch_eq other table' hn' e s).1 cb (hp.subset hq)]
  · rw [(dispatch_eq other table hn e s).2 hm,
      (dispatch_eq other table' hn' e s).2 fun h => hm ((hp.map _).symm.subset h)]

/-- C91: traversing an expression with such a functor, every callback noting the node it gets: each class that is tried gets
exactly the nodes of that class, the fallback gets all the others, each node once and in visiting order. -/
theorem C91_traversal (classes : List NodeClass) (hn : classes.Nodup) (e : Expr K) :
    ∃ vs : List (List Dir × Expr K),
      (∀ q ∈ vs, At e q.1 q.2) ∧ (∀ p s, At e p s → (vs.map (·.1)).count p = 1) ∧ (vs.map (·.1)).Pairwise Before ∧
      ∃ got : Option NodeClass → List (Expr K),
        traverse (σ := Option NodeClass → List (Expr K))
          ⟨dispatch (fun e s => .ok fun T => if T = none then s T ++ [e] else s T)
            (classes.map fun C => (C, fun e s => .ok fun T => if T = some C then s T ++ [e] else s T)),
            fun _ _ => true⟩ e (fun _ => []) = .ok got ∧
        (∀ C ∈ classes, Picks (InClass C) (vs.map (·.2)) (got (some C))) ∧
        (∀ C, C ∉ classes → got (some C) = []) ∧
        Picks (fun e => ∀ C ∈ classes, ¬ InClass C e) (vs.map (·.2)) (got none) := by
  have pick : ∀ (p : Expr K → Bool) (P : Expr K → Prop), (∀ e, p e = true ↔ P e) → ∀ l, Picks P l (l.filter p) := by
    intro p P h l
    induction l with
    | nil => exact .nil
    | cons e l ih =>
      rw [List.filter_cons]
      split
      · exact .take ((h e).1 ‹_›) ih
      · exact .skip (fun hP => ‹¬ _› ((h e).2 hP)) ih
  obtain ⟨vs, h1, h2, h3, h4⟩ := C25_all_nodes e
  refine ⟨vs, h1, h2, h3, fun T => (vs.map (·.2)).filter fun e =>
    T = if e.nodeClass ∈ classes then some e.nodeClass else none, ?_, ?_, ?_, ?_⟩
  · rw [h4]
    have key : ∀ (l : List (Expr K)) (s : Option NodeClass → List (Expr K)),
        callAll (dispatch (fun e s => .ok fun T => if T = none then s T ++ [e] else s T)
            (classes.map fun C => (C, fun e s => .ok fun T => if T = some C then s T ++ [e] else s T))) l s =
          .ok fun T => s T ++ l.filter fun e => T = if e.nodeClass ∈ classes then some e.nodeClass else none := by
      intro l
      induction l with
      | nil => intro s; simp [callAll]
      | cons e l ih =>
        intro s
        have hn' : ((classes.map fun C => (C, (fun e s => .ok fun T => if T = some C then s T ++ [e] else s T :
            Expr K → (Option NodeClass → List (Expr K)) → Res (Option NodeClass → List (Expr K))))).map (·.1)).Nodup := by
          simpa [List.map_map, Function.comp_def] using hn
        have hd := dispatch_eq (fun e s => .ok fun T => if T = none then s T ++ [e] else s T) _ hn' e s
        rw [callAll]
        by_cases hm : e.nodeClass ∈ classes
        · rw [hd.1 _ (List.mem_map.2 ⟨_, hm, rfl⟩), Res.bind, ih]
          congr 1; funext T
          by_cases hT : T = some e.nodeClass <;> simp [hT, hm]
        · rw [hd.2 (by simpa [List.map_map, Function.comp_def] using hm), Res.bind, ih]
          congr 1; funext T
          by_cases hT : T = none <;> simp [hT, hm]
    rw [key]
    simp
  · intro C hC
    apply pick
    intro e
    rw [decide_eq_true_eq, ← nodeClass_iff]
    by_cases hm : e.nodeClass ∈ classes
    · simp [hm, eq_comm]
    · simp only [hm, if_false, reduceCtorEq, false_iff]
      exact fun h => hm (h ▸ hC)
  · intro C hC
    rw [List.filter_eq_nil_iff]
    intro e _
    by_cases hm : e.nodeClass ∈ classes
    · simp only [hm, if_true, Option.some.injEq, decide_eq_true_eq]
      rintro rfl; exact hC hm
    · simp [hm]
  · apply pick
    intro e
    rw [decide_eq_true_eq]
    simp only [← nodeClass_iff]
    by_cases hm : e.nodeClass ∈ classes
    · simp only [hm, if_true, reduceCtorEq, false_iff]
      exact fun h => h _ hm rfl
    · simp only [hm, if_false, true_iff]
      exact fun C hC h => hm (h ▸ hC)

/-- The tutorial's functor on `sin(x + u) * 2`: two binary nodes, one unary one, a variable and a constant, and the function
symbol for the fallback. -/
example : traverse (K := Nat) ⟨dispatch (fun _ s => .ok (s ++ ["non-dispatched type"]))
      [(.binary, fun _ s => .ok (s ++ ["binary"])), (.variable, fun _ s => .ok (s ++ ["variable"])),
        (.constant, fun _ s => .ok (s ++ ["constant"])), (.unary, fun _ s => .ok (s ++ ["unary"]))], fun _ _ => true⟩
    (.bin .mult (.un (.fn .sin) (.bin .plus (.var 0) (.fsym 0 0))) (.const 2)) [] =
    .ok ["unary", "variable", "binary", "non-dispatched type", "binary", "constant"] := by
  rfl

end VM.Props
