import Verif.Rt.BodyLemmas
/-
`apply_coordinate_system` with all its local objects.
-/
namespace VM
open Spec Run Prog
variable {K : Type} [Num K]

/-- Code that does nothing but construct object `i` with value `v`, or throws without an effect. -/
structure Yields (σ : Store K) (b : Body K) (i : Nat) (v : Obj K) : Prop where
  legal : Legal σ b
  neat : Neat σ b
  free : σ i = none
  effect : ∀ t τ, Did σ b t τ → (t = false ∧ τ = σ.set i (some v)) ∨ (t = true ∧ τ = σ)

theorem Yields.scope {σ : Store K} {a b : Body K} {i j : Nat} {u v : Obj K} (ha : Yields σ a j u)
    (hb : Yields (σ.set j (some u)) b i v) : Yields σ (.scope j a b) i v := by
  have hij : i ≠ j := by
    rintro rfl
    have := hb.free
    rw [set_self] at this
    cases this
  have hn : ∀ τ, Did σ a false τ → τ = σ.set j (some u) := fun τ h => by
    rcases ha.effect _ _ h with ⟨-, h⟩ | ⟨h, -⟩
    · exact h
    · cases h
  refine ⟨⟨ha.legal, fun τ h => ?_⟩, ⟨ha.neat, fun τ h => ?_⟩, ?_, fun t τ h => ?_⟩
  · rw [hn τ h]
    refine ⟨hb.legal, fun t υ h => ?_⟩
    rcases hb.effect _ _ h with ⟨-, rfl⟩ | ⟨-, rfl⟩
    · rw [set_other hij.symm, set_self]; simp
    · rw [set_self]; simp
  · rw [hn τ h]; exact hb.neat
  · rw [← hb.free, set_other hij]
  · cases h with
    | scopeMake h =>
      rcases ha.effect _ _ h with ⟨h, -⟩ | h
      · cases h
      · exact .inr h
    | scope h1 h2 =>
      rw [hn _ h1] at h2
      rcases hb.effect _ _ h2 with ⟨h, rfl⟩ | ⟨h, rfl⟩
      · exact .inl ⟨h, by
        rw [set_comm hij, set_set, set_same ha.free]⟩
      · exact .inr ⟨h, by rw [set_set, set_same ha.free]⟩

theorem Yields.cons {σ : Store K} {c : Stmt K} {cs : List (Stmt K)} {b : Body K} {i j : Nat} {u v : Obj K}
    (ha : Yields σ (.one c) j u) (hc : c.target = j) (hb : Yields (σ.set j (some u)) (scopes cs b) i v) :
    Yields σ (scopes (c :: cs) b) i v := by
  subst hc
  exact .scope ha hb

theorem Yields.init {σ : Store K} {i : Nat} {rhs : Rhs K} {e : Expr K} (hi : σ i = none) (hr : RhsVal σ rhs (.ok e))
    (hu : ∀ e', RhsVal σ rhs (.ok e') → e' = e) (hs : ∀ r, rhs = .copy r → ¬ Unset σ r)
    (ht : TidyRhs σ rhs) : Yields σ (.one (.init i rhs)) i (.expr (some e)) := by
  refine ⟨⟨_, .init hi hr⟩, ht, hi, fun t τ h => ?_⟩
  cases h with | one h =>
  cases h with
  | normal h h' =>
    cases h with
    | init h1 h2 => rw [hu _ h2]; exact .inl ⟨rfl, rfl⟩
    | initUnset h1 h2 => exact absurd h2 (hs _ rfl)
    | initThrow h1 h2 => exact absurd h2 hr.not_throw
  | threw h h' => exact absurd h' (not_throwing_init hr)
  | noMemory h => cases h; exact .inr ⟨rfl, rfl⟩

theorem Yields.initUn {σ : Store K} {i : Nat} {op : UOp} {r : Src} {x : Expr K} (hi : σ i = none)
    (hr : Spec.look σ r = some x) : Yields σ (.one (.initUn i op r)) i (.un (some op) (some x)) := by
  refine ⟨⟨_, .initUn hi hr⟩, trivial, hi, fun t τ h => ?_⟩
  cases h with | one h =>
  cases h with
  | normal h h' =>
    cases h with
    | initUn h1 h2 => rw [hr] at h2; cases h2; exact .inl ⟨rfl, rfl⟩
  | threw h h' => exact absurd h' (not_throwing fun i rhs => ⟨by simp, by simp⟩)
  | noMemory h => cases h; exact .inr ⟨rfl, rfl⟩

theorem Yields.subst {σ : Store K} {i : Nat} {s t r : Src} {x y e z : Expr K} (hi : σ i = none)
    (hs : Spec.look σ s = some x) (ht : Spec.look σ t = some y) (hr : Spec.look σ r = some e)
    (hz : substitute x y e = .ok z) : Yields σ (.one (.init i (.subst s t r))) i (.expr (some z)) := by
  refine .init hi (.subst hs ht hr hz) (fun e' h => ?_) (fun r h => by cases h)
    ⟨(fun x h => by cases h), (fun i t r e h => by cases h)⟩
  cases h with | subst h1 h2 h3 h4 =>
  rw [hs] at h1; rw [ht] at h2; rw [hr] at h3; cases h1; cases h2; cases h3
  rw [hz] at h4; cases h4; rfl

theorem Yields.copy {σ : Store K} {i : Nat} {r : Src} {e : Expr K} (hi : σ i = none)
    (hr : Spec.look σ r = some e) : Yields σ (.one (.init i (.copy r))) i (.expr (some e)) := by
  refine .init hi (.copy hr) (fun e' h => ?_) (fun r' h => ?_) tidy_copy
  · cases h with | copy h1 => rw [hr] at h1; cases h1; rfl
  · cases h
    rintro ⟨h1, h2⟩
    rw [Spec.look, h1, h2] at hr
    cases hr

theorem Yields.fsym {σ : Store K} {i j t : Nat} (hi : σ i = none) :
    Yields σ (.one (.init i (.leaf (.fsym j t)))) i (.expr (some (.fsym j t))) := by
  refine .init hi (.fsym j t) (fun e' h => ?_) (fun r' h => by cases h)
    ⟨(fun x h => by cases h), (fun i t r e h => by cases h)⟩
  cases h; rfl

theorem Yields.un {σ : Store K} {i : Nat} {op : UOp} {r : Src} {x : Expr K} (hi : σ i = none)
    (hr : Spec.look σ r = some x) : Yields σ (.one (.init i (.un op r))) i (.expr (some (.un op x))) := by
  refine .init hi (.un hr) (fun e' h => ?_) (fun r' h => by cases h)
    ⟨(fun x h => by cases h), (fun i t r e h => by cases h)⟩
  cases h with | un h => rw [hr] at h; cases h; rfl

theorem Yields.bin {σ : Store K} {i : Nat} {op : BOp} {l r : Src} {x y : Expr K} (hi : σ i = none)
    (hl : Spec.look σ l = some x) (hr : Spec.look σ r = some y) :
    Yields σ (.one (.init i (.bin op l r))) i (.expr (some (.bin op x y))) := by
  refine .init hi (.bin hl hr) (fun e' h => ?_) (fun r' h => by cases h)
    ⟨(fun x h => by cases h), (fun i t r e h => by cases h)⟩
  cases h with | bin h h' => rw [hl] at h; rw [hr] at h'; cases h; cases h'; rfl

theorem Yields.vec {σ : Store K} {i : Nat} {rs : List Src} {es : List (Expr K)} (hi : σ i = none)
    (hr : lookAll σ rs = some es) : Yields σ (.one (.init i (.vec rs))) i (.expr (some (.vec es))) := by
  refine .init hi (.vec hr) (fun e' h => ?_) (fun r' h => by cases h)
    ⟨(fun x h => by cases h), (fun i t r e h => by cases h)⟩
  cases h with | vec h => rw [hr] at h; cases h; rfl

omit [Num K] in
theorem look_whole {σ : Store K} {i : Nat} {e : Expr K} (h : σ i = some (.expr (some e))) :
    Spec.look σ (whole i) = some e := by
  simp [Spec.look, h, Obj.part, part]

omit [Num K] in
theorem look_whole_un {σ : Store K} {i : Nat} {op : UOp} {e : Expr K} (h : σ i = some (.un (some op) (some e))) :
    Spec.look σ (whole i) = some (.un op e) := by
  simp [Spec.look, h, Obj.part]

/-- The value of an object in a store that differs from `σ` in some objects. -/
macro "lk" : tactic => `(tactic| (repeat (first | rw [set_self] | rw [set_other (by omega)])))
/-- The object has not been constructed yet. -/
macro "fr" h:ident : tactic => `(tactic| (lk; first | assumption | exact $h _ (by omega) (by omega)))

theorem yields_partial {σ : Store K} {t w x k : Nat} (ht : σ t = none) (hw : σ w = some (.expr (some (.fsym 0 k)))) :
    Yields σ (.one (partialOf t w x)) t (.expr (some (diffSymbol 0 k x))) := .un ht (look_whole hw)

theorem yields_replacing1 {σ : Store K} {g w r k : Nat} {op : UOp} {e : Src} {x z : Expr K} (hg : σ g = none)
    (ht : σ (g+1) = none) (hr : σ r = none) (h1 : r ≠ g) (h2 : r ≠ g + 1)
    (hw : σ w = some (.expr (some (.fsym 0 k)))) (he : Spec.look σ e = some x)
    (hz : substitute (.un op (.fsym 0 k)) (diffSymbol 0 k 0) x = .ok z) :
    Yields σ (replacing g op w [partialOf (g+1) w 0] (g+1) e r) r (.expr (some z)) := by
  have hwg : w ≠ g := by rintro rfl; rw [hg] at hw; cases hw
  have hwt : w ≠ g + 1 := by rintro rfl; rw [ht] at hw; cases hw
  refine .cons (.initUn hg (look_whole hw)) rfl (.cons (yields_partial (k := k) ?_ ?_) rfl (.subst ?_ ?_ ?_ ?_ hz))
  · lk; exact ht
  · lk; exact hw
  · lk; exact hr
  · exact look_whole_un (by lk)
  · exact look_whole (by lk)
  · exact look_set (by lk; exact ht) (look_set hg he)

theorem yields_replacing {σ : Store K} {g w t r k : Nat} {op : UOp} {e : Src} {x y z : Expr K} (hg : σ g = none)
    (hr : σ r = none) (h1 : r ≠ g) (ht : σ t = some (.expr (some y)))
    (hw : σ w = some (.expr (some (.fsym 0 k)))) (he : Spec.look σ e = some x)
    (hz : substitute (.un op (.fsym 0 k)) y x = .ok z) :
    Yields σ (replacing g op w [] t e r) r (.expr (some z)) := by
  have htg : t ≠ g := by rintro rfl; rw [hg] at ht; cases ht
  refine .cons (.initUn hg (look_whole hw)) rfl (.subst ?_ ?_ ?_ ?_ hz)
  · lk; exact hr
  · exact look_whole_un (by lk)
  · exact look_whole (by lk; exact ht)
  · exact look_set hg he

theorem yields_replacing2 {σ : Store K} {g w r k : Nat} {op : UOp} {e : Src} {x z : Expr K}
    (hf : ∀ j, g ≤ j → j ≤ g + 3 → σ j = none) (hr : σ r = none) (h1 : r < g ∨ g + 3 < r)
    (hw : σ w = some (.expr (some (.fsym 0 k)))) (he : Spec.look σ e = some x)
    (hz : substitute (.un op (.fsym 0 k)) (.bin .plus (diffSymbol 0 k 0) (diffSymbol 0 k 1)) x = .ok z) :
    Yields σ (replacing g op w (divergence2 w (g+1)) (g+3) e r) r (.expr (some z)) := by
  have hwg : w < g ∨ g + 3 < w := by
    by_contra h
    rw [hf w (by omega) (by omega)] at hw
    cases hw
  refine .cons (.initUn (hf _ (by omega) (by omega)) (look_whole hw)) rfl (.cons (yields_partial (k := k) ?_ ?_) rfl
    (.cons (yields_partial (k := k) ?_ ?_) rfl (.cons (.bin (x := diffSymbol 0 k 0) (y := diffSymbol 0 k 1) ?_ ?_ ?_) rfl (.subst ?_ ?_ ?_ ?_ hz))))
  · fr hf
  · lk; exact hw
  · fr hf
  · lk; exact hw
  · fr hf
  · exact look_whole (by lk)
  · exact look_whole (by lk)
  · fr hf
  · exact look_whole_un (by lk)
  · exact look_whole (by lk)
  · exact look_set (by fr hf) (look_set (by fr hf) (look_set (by fr hf) (look_set (by fr hf) he)))

theorem yields_replacing3 {σ : Store K} {g w r k : Nat} {op : UOp} {e : Src} {x z : Expr K}
    (hf : ∀ j, g ≤ j → j ≤ g + 5 → σ j = none) (hr : σ r = none) (h1 : r < g ∨ g + 5 < r)
    (hw : σ w = some (.expr (some (.fsym 0 k)))) (he : Spec.look σ e = some x)
    (hz : substitute (.un op (.fsym 0 k))
      (.bin .plus (.bin .plus (diffSymbol 0 k 0) (diffSymbol 0 k 1)) (diffSymbol 0 k 2)) x = .ok z) :
    Yields σ (replacing g op w (divergence3 w (g+1)) (g+5) e r) r (.expr (some z)) := by
  have hwg : w < g ∨ g + 5 < w := by
    by_contra h
    rw [hf w (by omega) (by omega)] at hw
    cases hw
  refine .cons (.initUn (hf _ (by omega) (by omega)) (look_whole hw)) rfl (.cons (yields_partial (k := k) ?_ ?_) rfl
    (.cons (yields_partial (k := k) ?_ ?_) rfl (.cons (.bin (x := diffSymbol 0 k 0) (y := diffSymbol 0 k 1) ?_ ?_ ?_) rfl (.cons (yields_partial (k := k) ?_ ?_) rfl (.cons
    (.bin (x := .bin .plus (diffSymbol 0 k 0) (diffSymbol 0 k 1)) (y := diffSymbol 0 k 2) ?_ ?_ ?_) rfl
    (.subst ?_ ?_ ?_ ?_ hz))))))
  · fr hf
  · lk; exact hw
  · fr hf
  · lk; exact hw
  · fr hf
  · exact look_whole (by lk)
  · exact look_whole (by lk)
  · fr hf
  · lk; exact hw
  · fr hf
  · exact look_whole (by lk)
  · exact look_whole (by lk)
  · fr hf
  · exact look_whole_un (by lk)
  · exact look_whole (by lk)
  · exact look_set (by fr hf) (look_set (by fr hf) (look_set (by fr hf) (look_set (by fr hf)
      (look_set (by fr hf) (look_set (by fr hf) he)))))

theorem yields_gradient2 {σ : Store K} {g w t k : Nat} (hg : σ g = none) (hf : ∀ j, t ≤ j → j ≤ t + 1 → σ j = none)
    (h1 : g < t ∨ t + 1 < g) (hw : σ w = some (.expr (some (.fsym 0 k)))) :
    Yields σ (gradient2 g w t) g (.expr (some (.vec [diffSymbol 0 k 0, diffSymbol 0 k 1]))) := by
  have hwg : w < t ∨ t + 1 < w := by
    by_contra h
    rw [hf w (by omega) (by omega)] at hw
    cases hw
  refine .cons (yields_partial (k := k) ?_ ?_) rfl (.cons (yields_partial (k := k) ?_ ?_) rfl (.vec ?_ ?_))
  · fr hf
  · exact hw
  · fr hf
  · lk; exact hw
  · fr hf
  · simp [lookAll, Spec.look, Store.set, Obj.part, part]

theorem yields_gradient3 {σ : Store K} {g w t k : Nat} (hg : σ g = none) (hf : ∀ j, t ≤ j → j ≤ t + 2 → σ j = none)
    (h1 : g < t ∨ t + 2 < g) (hw : σ w = some (.expr (some (.fsym 0 k)))) :
    Yields σ (gradient3 g w t) g (.expr (some (.vec [diffSymbol 0 k 0, diffSymbol 0 k 1, diffSymbol 0 k 2]))) := by
  have hwg : w < t ∨ t + 2 < w := by
    by_contra h
    rw [hf w (by omega) (by omega)] at hw
    cases hw
  refine .cons (yields_partial (k := k) ?_ ?_) rfl (.cons (yields_partial (k := k) ?_ ?_) rfl (.cons (yields_partial (k := k) ?_ ?_) rfl (.vec ?_ ?_)))
  · fr hf
  · exact hw
  · fr hf
  · lk; exact hw
  · fr hf
  · lk; exact hw
  · fr hf
  · simp [lookAll, Spec.look, Store.set, Obj.part, part]

omit [Num K] in
theorem coordsWith_ok [Num K] {gu gv du dv e z : Expr K} (h : coordsWith gu gv du dv e = .ok z) :
    ∃ e1 e2 e3, substitute (.un .grad symU) gu e = .ok e1 ∧ substitute (.un .grad symV) gv e1 = .ok e2 ∧
      substitute (.un .divg symU) du e2 = .ok e3 ∧ substitute (.un .divg symV) dv e3 = .ok z := by
  unfold coordsWith at h
  cases h1 : substitute (.un .grad symU) gu e with
  | ok e1 =>
    rw [h1] at h
    simp only [Res.bind] at h
    cases h2 : substitute (.un .grad symV) gv e1 with
    | ok e2 =>
      rw [h2] at h
      simp only at h
      cases h3 : substitute (.un .divg symU) du e2 with
      | ok e3 => rw [h3] at h; exact ⟨e1, e2, e3, rfl, h2, h3, h⟩
      | throw x => rw [h3] at h; cases h
      | ub => rw [h3] at h; cases h
    | throw x => rw [h2] at h; cases h
    | ub => rw [h2] at h; cases h
  | throw x => rw [h1] at h; cases h
  | ub => rw [h1] at h; cases h

theorem yields_coords1 {σ : Store K} {b r : Nat} {s : Src} {e z : Expr K} (hf : ∀ j, b ≤ j → j ≤ b + 12 → σ j = none)
    (hr : σ r = none) (h1 : r < b ∨ b + 12 < r) (he : Spec.look σ s = some e) (hz : coords1 e = .ok z) :
    Yields σ (coordsBody1 b s r) r (.expr (some z)) := by
  obtain ⟨e1, e2, e3, z1, z2, z3, z4⟩ := coordsWith_ok hz
  refine .cons (.fsym ?_) rfl (.cons (.fsym ?_) rfl (.cons (.copy ?_ (look_set ?_ (look_set ?_ he))) rfl (.scope
    (yields_replacing1 ?_ ?_ ?_ ?_ ?_ ?_ ?_ z1) (.scope (yields_replacing1 ?_ ?_ ?_ ?_ ?_ ?_ ?_ z2)
    (.scope (yields_replacing1 ?_ ?_ ?_ ?_ ?_ ?_ ?_ z3) (yields_replacing1 ?_ ?_ ?_ ?_ ?_ ?_ ?_ z4))))))
  all_goals first
    | omega
    | fr hf
    | exact look_whole (by lk)
    | lk

theorem yields_coords2 {σ : Store K} {b r : Nat} {s : Src} {e z : Expr K} (hf : ∀ j, b ≤ j → j ≤ b + 12 → σ j = none)
    (hr : σ r = none) (h1 : r < b ∨ b + 12 < r) (he : Spec.look σ s = some e) (hz : coords2 e = .ok z) :
    Yields σ (coordsBody2 b s r) r (.expr (some z)) := by
  obtain ⟨e1, e2, e3, z1, z2, z3, z4⟩ := coordsWith_ok hz
  refine .cons (.fsym ?_) rfl (.cons (.fsym ?_) rfl (.scope (yields_gradient2 ?_ ?_ ?_ (k := 0) ?_)
    (.scope (yields_gradient2 ?_ ?_ ?_ (k := 1) ?_)
    (.scope (yields_replacing ?_ ?_ ?_ ?_ ?_ (look_set ?_ (look_set ?_ (look_set ?_ (look_set ?_ he)))) z1)
    (.scope (yields_replacing ?_ ?_ ?_ ?_ ?_ ?_ z2)
    (.scope (yields_replacing2 ?_ ?_ ?_ ?_ ?_ z3) (yields_replacing2 ?_ ?_ ?_ ?_ ?_ z4)))))))
  all_goals first
    | omega
    | fr hf
    | (intro j h1 h2; fr hf)
    | exact look_whole (by lk)
    | lk

theorem yields_coords3 {σ : Store K} {b r : Nat} {s : Src} {e z : Expr K} (hf : ∀ j, b ≤ j → j ≤ b + 12 → σ j = none)
    (hr : σ r = none) (h1 : r < b ∨ b + 12 < r) (he : Spec.look σ s = some e) (hz : coords3 e = .ok z) :
    Yields σ (coordsBody3 b s r) r (.expr (some z)) := by
  obtain ⟨e1, e2, e3, z1, z2, z3, z4⟩ := coordsWith_ok hz
  refine .cons (.fsym ?_) rfl (.cons (.fsym ?_) rfl (.scope (yields_gradient3 ?_ ?_ ?_ (k := 0) ?_)
    (.scope (yields_gradient3 ?_ ?_ ?_ (k := 1) ?_)
    (.scope (yields_replacing ?_ ?_ ?_ ?_ ?_ (look_set ?_ (look_set ?_ (look_set ?_ (look_set ?_ he)))) z1)
    (.scope (yields_replacing ?_ ?_ ?_ ?_ ?_ ?_ z2)
    (.scope (yields_replacing3 ?_ ?_ ?_ ?_ ?_ z3) (yields_replacing3 ?_ ?_ ?_ ?_ ?_ z4)))))))
  all_goals first
    | omega
    | fr hf
    | (intro j h1 h2; fr hf)
    | exact look_whole (by lk)
    | lk

theorem yields_coords {σ : Store K} {d : Dim} {b r : Nat} {s : Src} {e z : Expr K}
    (hf : ∀ j, b ≤ j → j ≤ b + 12 → σ j = none) (hr : σ r = none) (h1 : r < b ∨ b + 12 < r)
    (he : Spec.look σ s = some e) (hz : coords d e = .ok z) : Yields σ (coordsBody d b s r) r (.expr (some z)) := by
  cases d
  · exact yields_coords1 hf hr h1 he hz
  · exact yields_coords2 hf hr h1 he hz
  · exact yields_coords3 hf hr h1 he hz

end VM
