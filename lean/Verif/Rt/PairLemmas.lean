import Verif.Spec.Pair
import Verif.Rt.HeapSim
/-
Programs with equations and intervals run as the specification says.
-/
namespace VM
variable {K : Type} [Num K] {o fl : Nat → Bool} {G : List Nat}
open Act Run Prog Spec

omit [Num K] in
theorem first_ne {p q : Nat} : first p ≠ second q := by unfold first second; omega

omit [Num K] in
theorem first_inj {p q : Nat} (h : first p = first q) : p = q := by unfold first at h; omega

omit [Num K] in
theorem target_subject (c : Stmt K) : c.target = subject c := by cases c <;> rfl

omit [Num K] in
theorem set_same {σ : Store K} {i : Nat} {v : Option (Obj K)} (h : σ i = v) : σ.set i v = σ := by
  funext j
  unfold Store.set
  split
  · rename_i hj; rw [hj, h]
  · rfl

omit [Num K] in
theorem set_set {σ : Store K} {i : Nat} {u v : Option (Obj K)} : (σ.set i u).set i v = σ.set i v := by
  funext j; unfold Store.set; split <;> rfl

omit [Num K] in
theorem set_comm {σ : Store K} {i j : Nat} {u v : Option (Obj K)} (h : i ≠ j) :
    (σ.set i u).set j v = (σ.set j v).set i u := by
  funext n
  unfold Store.set
  by_cases h1 : n = i
  · have : n ≠ j := fun h2 => h (h1 ▸ h2)
    simp [h1, h]
  · simp [h1]

omit [Num K] in
theorem set_other {σ : Store K} {i j : Nat} {u : Option (Obj K)} (h : j ≠ i) : σ.set i u j = σ j := by
  simp [Store.set, h]

omit [Num K] in
theorem set_self {σ : Store K} {i : Nat} {u : Option (Obj K)} : σ.set i u i = u := by simp [Store.set]

/-- A piece of code that ends normally with the objects `τ`, and nothing lost, or runs out of memory with objects as in
`Bad`. -/
inductive EndsAs (fl : Nat → Bool) (G : List Nat) (τ : Store K) (Bad : Store K → Prop) : Out (State K) Unit → Prop
  | ok {s'} : Rep fl s' τ G → EndsAs fl G τ Bad (.ok () s')
  | noMemory {s' L υ} : Rep fl s' υ (L ++ G) → Bad υ → (∃ a, fl a = true) → EndsAs fl G τ Bad (.throw .badAlloc s')

theorem not_throwing_tidy {σ : Store K} {c : Stmt K} (h : Tidy σ c) : ¬ Throwing σ c := by
  rintro ⟨i, rhs, x, h1 | h1, h2⟩ <;> subst h1 <;> exact h.1 x h2

theorem exec_ends {s : State K} {σ τ : Store K} {c : Stmt K} (H : Rep fl s σ G) (hx : Exec σ c τ) (ht : Tidy σ c) :
    EndsAs fl G τ (OutOf σ c) (exec o c s) := by
  have hs := exec_sim (o := o) H hx
  revert hs
  generalize exec o c s = r
  rintro (⟨h1, h2, h3⟩ | ⟨h1, h2⟩ | ⟨h1, h2, ⟨a, -, -, ha⟩⟩)
  · rw [h2 ht] at h1; exact .ok h1
  · exact absurd h2 (not_throwing_tidy ht)
  · exact .noMemory h1 h2 ⟨a, ha⟩

omit [Num K] in
theorem EndsAs.bind {s : State K} {τ υ : Store K} {B C : Store K → Prop} {m k : Prog K Unit} (h : EndsAs fl G τ B (m s))
    (hB : ∀ ρ, B ρ → C ρ) (hk : ∀ s', Rep fl s' τ G → EndsAs fl G υ C (k s')) :
    EndsAs fl G υ C ((m >>= fun _ => k) s) := by
  revert h
  generalize hr : m s = r
  rintro (h1 | ⟨h1, h2, h3⟩)
  · rw [bind_ok hr]; exact hk _ h1
  · rw [bind_throw hr]; exact .noMemory h1 (hB _ h2) h3

omit [Num K] in
theorem EndsAs.mono {τ : Store K} {B C : Store K → Prop} {r : Out (State K) Unit} (h : EndsAs fl G τ B r)
    (hB : ∀ ρ, B ρ → C ρ) : EndsAs fl G τ C r := by
  cases h with
  | ok h => exact .ok h
  | noMemory h1 h2 h3 => exact .noMemory h1 (hB _ h2) h3

theorem after_ends {s : State K} {τ : Store K} {B C : Store K → Prop} {m : Prog K Unit} {i : Nat}
    (h : EndsAs fl G τ B (m s)) (hB : ∀ υ, B υ → (∃ v, υ i = some v) ∧ C (υ.set i none)) :
    EndsAs fl G τ C (after o i m s) := by
  revert h
  generalize hr : m s = r
  unfold after
  rintro (h1 | @⟨s', L, υ, h1, h2, h3⟩)
  · rw [hr]; exact .ok h1
  · rw [hr]
    obtain ⟨⟨v, hv⟩, hc⟩ := hB _ h2
    have h4 := exec_ends (o := o) h1 (.destroy hv) trivial
    simp only
    revert h4
    generalize exec o (.destroy i) s' = q
    rintro (h4 | ⟨-, h5, -⟩)
    · exact .noMemory h4 hc h3
    · cases h5

theorem hold_eq {s : State K} {σ : Store K} {i : Nat} {rhs : Rhs K} {e : Expr K} (H : Rep fl s σ G)
    (hi : σ i = none) (hr : RhsVal σ rhs (.ok e)) : hold o i rhs s = exec o (.init i rhs) s := by
  obtain ⟨⟨fp, H⟩, hk⟩ := H
  rw [exec, look_bind (f := fun s : State K => s.objs i), hk i, hi]
  simp only [Option.map_none]
  rw [look_bind (f := fun s : State K => s.isNull rhs), isNull_false H hk hr]
  rfl

theorem tidy_copy {σ : Store K} {r : Src} : TidyRhs σ (.copy r) :=
  ⟨(fun _ h => by cases h), (fun _ _ _ _ h => by cases h)⟩

theorem tidy_const {σ : Store K} {c : K} : TidyRhs σ (.leaf (.const c)) :=
  ⟨(fun _ h => by cases h), (fun _ _ _ _ h => by cases h)⟩

theorem hold_ends {s : State K} {σ : Store K} {i : Nat} {rhs : Rhs K} {e : Expr K} (H : Rep fl s σ G)
    (hi : σ i = none) (hr : RhsVal σ rhs (.ok e)) (ht : TidyRhs σ rhs) :
    EndsAs fl G (σ.set i (some (.expr (some e)))) (fun υ => υ = σ) (hold o i rhs s) := by
  rw [hold_eq H hi hr]
  exact (exec_ends H (.init hi hr) ht).mono fun _ h => by cases h; rfl

/-- Both members of a new pair. -/
theorem hold_both {s : State K} {σ : Store K} {i j : Nat} (hij : i ≠ j) {rhs rhs' : Rhs K} {e e' : Expr K}
    (H : Rep fl s σ G) (hi : σ i = none) (hj : σ j = none) (hr : RhsVal σ rhs (.ok e)) (ht : TidyRhs σ rhs)
    (hr' : RhsVal (σ.set i (some (.expr (some e)))) rhs' (.ok e'))
    (ht' : TidyRhs (σ.set i (some (.expr (some e)))) rhs') :
    EndsAs fl G ((σ.set i (some (.expr (some e)))).set j (some (.expr (some e')))) (fun υ => υ = σ)
      ((hold o i rhs >>= fun _ => after o i (hold o j rhs')) s) := by
  refine (hold_ends H hi hr ht).bind (fun _ h => h) fun s' h => ?_
  refine after_ends (hold_ends h (by rw [set_other hij.symm, hj]) hr' ht') ?_
  rintro υ rfl
  exact ⟨⟨_, set_self⟩, by rw [set_set, set_same hi]⟩

omit [Num K] in
theorem look_set {σ : Store K} {i : Nat} {u : Option (Obj K)} {r : Src} {e : Expr K} (hi : σ i = none)
    (h : Spec.look σ r = some e) : Spec.look (σ.set i u) r = some e := by
  have : r.obj ≠ i := by
    rintro rfl
    simp [Spec.look, hi] at h
  simpa [Spec.look, set_other this] using h

theorem init_ends {s : State K} {σ : Store K} {i j : Nat} {e : Option (Expr K)} (H : Rep fl s σ G)
    (hi : σ i = none) (hj : σ j = some (.expr e)) :
    EndsAs fl G (σ.set i (some (.expr e))) (fun υ => υ = σ) (exec o (.init i (.copy ⟨j, []⟩)) s) := by
  cases e with
  | none => exact (exec_ends H (.initUnset hi ⟨hj, rfl⟩) tidy_copy).mono fun _ h => by cases h; rfl
  | some e =>
    exact (exec_ends H (.init hi (.copy (by simp [Spec.look, hj, Obj.part, part]))) tidy_copy).mono
      fun _ h => by cases h; rfl

theorem assign_ends {s : State K} {σ : Store K} {i j : Nat} {d : Option (Expr K)} {e : Expr K} (H : Rep fl s σ G)
    (hi : σ i = some (.expr d)) (hj : σ j = some (.expr (some e))) :
    EndsAs fl G (σ.set i (some (.expr (some e)))) (fun υ => υ = σ) (exec o (.assign i (.copy ⟨j, []⟩)) s) :=
  (exec_ends H (.assign hi (.copy (by simp [Spec.look, hj, Obj.part, part]))) tidy_copy).mono
    fun _ h => by cases h; rfl

omit [Num K] in
theorem put_pairs {σ : PStore K} {k : PairKind} {p : Nat} {u v x y : Option (Expr K)} (h : σ.Has k p u v) :
    (σ.put k p x y).pairs = σ.pairs := by
  funext q
  simp only [PStore.put]
  split
  · rename_i hq; rw [hq, h.1]
  · rfl

/-- Both members of an equation are assigned. -/
theorem assign_both {s : State K} {σ : PStore K} {k k' : PairKind} {p q : Nat} {u v : Option (Expr K)} {x y : Expr K}
    (H : Rep fl s σ.objs G) (hp : σ.Has k p u v) (hq : σ.Has k' q (some x) (some y)) :
    EndsAs fl G (σ.put k p (some x) (some y)).objs (fun υ => υ = σ.objs ∨ υ = (σ.put k p (some x) v).objs)
      ((exec o (.assign (first p) (.copy ⟨first q, []⟩)) >>= fun _ =>
        exec o (.assign (second p) (.copy ⟨second q, []⟩))) s) := by
  refine (assign_ends H hp.2.1 hq.2.1).bind (fun _ h => .inl h) fun s' h => ?_
  refine (assign_ends h (d := v) ?_ ?_).mono fun _ h => .inr ?_
  · rw [set_other first_ne.symm, hp.2.2]
  · rw [set_other first_ne.symm, hq.2.2]
  · rw [h]
    refine (set_same ?_).symm
    rw [set_other first_ne.symm, hp.2.2]

theorem members_ends {s : State K} {σ τ : PStore K} {c : PStmt K} (H : Rep fl s σ.objs G) (hx : PExec σ c τ)
    (hc : ∀ d, c ≠ .single d) :
    EndsAs fl G τ.objs (fun υ => POutOf σ c ⟨υ, σ.pairs⟩) (members o c s) := by
  cases hx with
  | single => exact absurd rfl (hc _)
  | @declEq p h =>
    refine (exec_ends H (.decl h.2.1) trivial).bind (fun _ h => by cases h) fun s' h' => ?_
    refine (exec_ends h' (.decl ?_) trivial).mono fun _ h => by cases h
    rw [set_other first_ne.symm, h.2.2]
  | @declInt p h =>
    exact (hold_both first_ne H h.2.1 h.2.2 (.const _) tidy_const (.const _) tidy_const).mono
      fun _ h => by rw [h]; exact .decl
  | @make k p l r x y h hl hr =>
    exact (hold_both first_ne H h.2.1 h.2.2 (.copy hl) tidy_copy (.copy (look_set h.2.1 hr)) tidy_copy).mono
      fun _ h => by rw [h]; exact .make
  | @copyEq p q x y h hq =>
    refine (init_ends H h.2.1 hq.2.1).bind (fun _ h => by rw [h]; exact .copy) fun s' h' => ?_
    refine after_ends (init_ends h' ?_ (e := y) ?_) ?_
    · rw [set_other first_ne.symm, h.2.2]
    · rw [set_other first_ne.symm, hq.2.2]
    · rintro υ rfl
      refine ⟨⟨_, set_self⟩, ?_⟩
      rw [set_set, set_same h.2.1]
      exact .copy
  | @copyInt p q x y h hq =>
    refine (hold_both first_ne H h.2.1 h.2.2 (.copy (e := x) ?_) tidy_copy
      (.copy (look_set h.2.1 (e := y) ?_)) tidy_copy).mono fun _ h => by rw [h]; exact .copy
    · simp [Spec.look, hq.2.1, Obj.part, part]
    · simp [Spec.look, hq.2.2, Obj.part, part]
  | @assign p q u v x y hp hq =>
    refine (assign_both H hp hq).mono ?_
    rintro υ (rfl | rfl)
    · exact .assign
    · have h := POutOf.assignLeft hp hq
      rw [show σ.put .equation p (some x) v = ⟨(σ.put .equation p (some x) v).objs, σ.pairs⟩ by
        rw [← put_pairs hp (x := some x) (y := v)]] at h
      exact h
  | @destroy k p x y h =>
    refine (exec_ends H (.destroy h.2.2) trivial).bind (fun _ h => by cases h) fun s' h' => ?_
    have h1 := (exec_ends (o := o) h' (.destroy (i := first p) (o := .expr x) (by rw [set_other first_ne, h.2.1])) trivial).mono
      (C := fun υ => POutOf σ (.destroy p) ⟨υ, σ.pairs⟩) fun _ h => by cases h
    rw [set_comm first_ne.symm] at h1
    exact h1

/-! ### Statements and programs -/

/-- The state holds the objects and the pairs of the store. -/
def PRep (fl : Nat → Bool) (s : PState K) (σ : PStore K) (G : List Nat) : Prop :=
  Rep fl s.st σ.objs G ∧ s.pairs = σ.pairs

inductive PSim (fl : Nat → Bool) (σ τ : PStore K) (c : PStmt K) (G : List Nat) : Out (PState K) Unit → Prop
  | ok {s' L} : PRep fl s' τ (L ++ G) → (PTidy σ c → L = []) → ¬ PThrowing σ c → PSim fl σ τ c G (.ok () s')
  | threw {x s' L} : PRep fl s' τ (L ++ G) → PThrowing σ c → PSim fl σ τ c G (.throw x s')
  | noMemory {s' L υ} : PRep fl s' υ (L ++ G) → POutOf σ c υ → (∃ a, fl a = true) → PSim fl σ τ c G (.throw .badAlloc s')

omit [Num K] in
theorem PRep.free {s : PState K} {σ : PStore K} (H : PRep fl s σ G) {p : Nat} (h : σ.Free p) :
    (s.pairs p).isNone ∧ (s.st.objs (first p)).isNone ∧ (s.st.objs (second p)).isNone := by
  simp [H.2, h.1, H.1.2 (first p), H.1.2 (second p), h.2.1, h.2.2]

theorem PRep.admits {s : PState K} {σ τ : PStore K} {c : PStmt K} (H : PRep fl s σ G) (hx : PExec σ c τ) :
    s.admits c = true := by
  cases hx with
  | single h1 h2 => simp [PState.admits, PState.outside, target_subject, H.2, h2]
  | declEq h | declInt h => simp only [PState.admits]; simp [H.free h]
  | make h _ _ => simp only [PState.admits]; simp [H.free h]
  | copyEq h hq | copyInt h hq => simp only [PState.admits]; simp [H.free h, H.2, hq.1, h.1]
  | assign hp hq => simp [PState.admits, H.2, hp.1, hq.1]
  | destroy h => simp [PState.admits, H.2, h.1]

theorem live_pairs {σ τ : PStore K} {c : PStmt K} (hx : PExec σ c τ) : c.live σ.pairs = τ.pairs := by
  cases hx with
  | assign hp hq => rw [put_pairs hp]; rfl
  | _ => rfl

theorem pexec_sim {s : PState K} {σ τ : PStore K} {c : PStmt K} (H : PRep fl s σ G) (hx : PExec σ c τ) :
    PSim fl σ τ c G (c.exec o s) := by
  rw [PStmt.exec, if_pos (H.admits hx)]
  have hl := live_pairs hx
  by_cases hc : ∃ d, c = .single d
  · obtain ⟨d, rfl⟩ := hc
    cases hx with
    | @single _ τ h1 h2 =>
      have hs := exec_sim (o := o) H.1 h1
      rw [members]
      revert hs
      generalize exec o d s.st = r
      rintro (⟨h3, h4, h5⟩ | ⟨h3, h4⟩ | ⟨h3, h4, ⟨a, -, -, ha⟩⟩)
      · exact .ok ⟨h3, H.2⟩ h4 h5
      · exact .threw ⟨h3, H.2⟩ h4
      · exact .noMemory (υ := ⟨_, σ.pairs⟩) ⟨h3, H.2⟩ (.single h4) ⟨a, ha⟩
  · have hc' : ∀ d, c ≠ .single d := fun d h => hc ⟨d, h⟩
    have hs := members_ends (o := o) H.1 hx hc'
    revert hs
    generalize members o c s.st = r
    rintro (h3 | ⟨h3, h4, h5⟩)
    · refine .ok (L := []) ⟨h3, ?_⟩ (fun _ => rfl) ?_
      · simp only; rw [H.2, hl]
      · cases c <;> first | exact id | exact absurd rfl (hc' _)
    · exact .noMemory (υ := ⟨_, σ.pairs⟩) ⟨h3, H.2⟩ h4 h5

theorem pclient_sim : ∀ {p : PClient K} {s : PState K} {σ : PStore K} {G : List Nat},
    PRep fl s σ G → PSafe σ p → ∃ s' L τ, p.run o s = .ok s' ∧ PRan σ p τ ∧ PRep fl s' τ (L ++ G)
  | .done, s, σ, G, H, _ => ⟨s, [], σ, rfl, .done, H⟩
  | .step c p q, s, σ, G, H, hS => by
    obtain ⟨⟨τ, hx⟩, hS⟩ := hS
    have hs := pexec_sim (o := o) H hx
    revert hs
    rw [PClient.run]
    generalize hr : c.exec o s = r
    rintro (@⟨s', L, h2, h3, h4⟩ | @⟨x, s', L, h2, h3⟩ | @⟨s', L, υ, h2, h3, -⟩)
    · obtain ⟨s'', M, υ, g1, g2, g3⟩ := pclient_sim h2 ((hS τ).1 (.normal hx h4))
      exact ⟨s'', M ++ L, υ, g1, .step (.normal hx h4) g2, by rw [List.append_assoc]; exact g3⟩
    · obtain ⟨s'', M, υ, g1, g2, g3⟩ := pclient_sim h2 ((hS τ).2 (.threw hx h3))
      exact ⟨s'', M ++ L, υ, g1, .step (.threw hx h3) g2, by rw [List.append_assoc]; exact g3⟩
    · obtain ⟨s'', M, υ', g1, g2, g3⟩ := pclient_sim h2 ((hS υ).2 (.noMemory h3))
      exact ⟨s'', M ++ L, υ', g1, .step (.noMemory h3) g2, by rw [List.append_assoc]; exact g3⟩

omit [Num K] in
theorem pstart_rep : PRep fl (PState.begin (K := K) fl) .empty [] := ⟨start_rep, rfl⟩

theorem preaches_sim {p q : PClient K} {s t : PState K} {σ : PStore K} (hr : PReaches o p s q t) (H : PRep fl s σ G)
    (hS : PSafe σ p) : ∃ τ L, PRep fl t τ (L ++ G) ∧ PSafe τ q := by
  induction hr generalizing σ G with
  | refl => exact ⟨σ, [], H, hS⟩
  | @ok c p q s s' r t hx _ ih =>
    obtain ⟨⟨τ, hc⟩, hS⟩ := hS
    have hs := pexec_sim (o := o) H hc
    rw [hx] at hs
    cases hs with
    | @ok _ L h1 _ h2 =>
      obtain ⟨υ, M, h3, h4⟩ := ih h1 ((hS τ).1 (.normal hc h2))
      exact ⟨υ, M ++ L, by rw [List.append_assoc]; exact h3, h4⟩
  | @threw c p q s x s' r t hx _ ih =>
    obtain ⟨⟨τ, hc⟩, hS⟩ := hS
    have hs := pexec_sim (o := o) H hc
    rw [hx] at hs
    cases hs with
    | @threw _ _ L h1 h2 =>
      obtain ⟨υ, M, h3, h4⟩ := ih h1 ((hS τ).2 (.threw hc h2))
      exact ⟨υ, M ++ L, by rw [List.append_assoc]; exact h3, h4⟩
    | @noMemory _ L υ h1 h2 _ =>
      obtain ⟨υ', M, h3, h4⟩ := ih h1 ((hS υ).2 (.noMemory h2))
      exact ⟨υ', M ++ L, by rw [List.append_assoc]; exact h3, h4⟩

/-- Without enough memory or with: any point of a safe program. -/
theorem pclient_step {p q₁ q₂ : PClient K} {c : PStmt K} {s : PState K} (h : PSafe .empty p)
    (hs : PReaches o p (.begin fl) (.step c q₁ q₂) s) :
    ∃ σ τ G, PRep fl s σ G ∧ PExec σ c τ ∧ PSim fl σ τ c G (c.exec o s) := by
  obtain ⟨σ, L, h1, ⟨⟨τ, h2⟩, -⟩⟩ := preaches_sim hs pstart_rep h
  exact ⟨σ, τ, _, h1, h2, pexec_sim h1 h2⟩

/-- A program, statement by statement. -/
def PStmt.runAll (o : Nat → Bool) : PState K → List (PStmt K) → Res (PState K)
  | s, [] => .ok s
  | s, c :: cs => match c.exec o s with
    | .ok _ s' => PStmt.runAll o s' cs
    | .throw x _ => .throw x
    | .ub => .ub

theorem pall_sim {σ τ : PStore K} {cs : List (PStmt K)} {s : PState K} (hf : ∀ a, fl a = false) (H : PRep fl s σ [])
    (hx : PExecAll σ cs τ) : ∃ s', PStmt.runAll o s cs = .ok s' ∧ PRep fl s' τ [] := by
  induction hx generalizing s with
  | nil => exact ⟨s, rfl, H⟩
  | @cons σ c τ cs υ h ht _ ih =>
    have hs := pexec_sim (o := o) H h
    revert hs
    rw [PStmt.runAll]
    generalize hr : c.exec o s = r
    rintro (@⟨s', L, h2, h3, h4⟩ | @⟨x, s', L, h2, h3⟩ | ⟨_, _, ⟨a, ha⟩⟩)
    · rw [h3 ht] at h2
      exact ih h2
    · cases c with
      | single c => exact absurd h3 (not_throwing_tidy ht)
      | _ => exact absurd h3 id
    · rw [hf a] at ha; cases ha

omit [Num K] in
theorem set_look' {σ : Store K} {i : Nat} {v : Option (Obj K)} {r : Src} (hr : r.obj ≠ i) :
    Spec.look (σ.set i v) r = Spec.look σ r := by
  simp [Spec.look, set_other hr]

theorem pexec_look {σ τ : PStore K} {c : PStmt K} (h : PExec σ c τ) {r : Src} (hr : ¬ Subject r.obj c) :
    Spec.look τ.objs r = Spec.look σ.objs r := by
  cases h with
  | single h => exact exec_look h hr
  | _ =>
    have h1 := not_or.1 hr
    simp only [PStore.put, PStore.drop]
    rw [set_look' h1.2, set_look' h1.1]

theorem poutOf_look {σ τ : PStore K} {c : PStmt K} (h : POutOf σ c τ) {r : Src} (hr : ¬ Subject r.obj c) :
    Spec.look τ.objs r = Spec.look σ.objs r := by
  cases h with
  | single h => exact outOf_look h hr
  | assignLeft =>
    have h1 := not_or.1 hr
    simp only [PStore.put]
    rw [set_look' h1.2, set_look' h1.1]
  | _ => rfl

/-! ### Intervals always have both bounds -/

def Complete (σ : PStore K) : Prop :=
  ∀ p, σ.pairs p = some .interval → ∃ x y, σ.Has .interval p (some x) (some y)

theorem exec_same {σ τ : Store K} {c : Stmt K} (h : Exec σ c τ) {j : Nat} (hj : j ≠ subject c) : τ j = σ j := by
  cases h <;> first | rfl | exact set_other hj

theorem outOf_same {σ τ : Store K} {c : Stmt K} (h : OutOf σ c τ) {j : Nat} (hj : j ≠ subject c) : τ j = σ j := by
  cases h <;> first | rfl | exact set_other hj

omit [Num K] in
theorem Complete.single {σ : PStore K} (H : Complete σ) {τ : Store K} {n : Nat} (hn : σ.pairs (n / 2) = none)
    (h : ∀ j, j ≠ n → τ j = σ.objs j) : Complete ⟨τ, σ.pairs⟩ := by
  intro p hp
  obtain ⟨x, y, h1, h2, h3⟩ := H p hp
  have g1 : first p ≠ n := by
    rintro rfl
    rw [show first p / 2 = p by unfold first; omega] at hn
    rw [h1] at hn; cases hn
  have g2 : second p ≠ n := by
    rintro rfl
    rw [show second p / 2 = p by unfold second; omega] at hn
    rw [h1] at hn; cases hn
  exact ⟨x, y, h1, by rw [← h2]; exact h _ g1, by rw [← h3]; exact h _ g2⟩

omit [Num K] in
theorem Complete.put {σ : PStore K} (H : Complete σ) {k : PairKind} {p : Nat} {u v : Option (Expr K)}
    (h : k = .interval → ∃ x y, u = some x ∧ v = some y) : Complete (σ.put k p u v) := by
  intro q hq
  by_cases hqp : q = p
  · subst hqp
    obtain ⟨x, y, rfl, rfl⟩ := h (by simpa [PStore.put] using hq)
    exact ⟨x, y, hq, by simp only [PStore.put]; rw [set_other first_ne, set_self], by simp only [PStore.put]; rw [set_self]⟩
  · have h1 : σ.pairs q = some .interval := by simpa [PStore.put, hqp] using hq
    obtain ⟨x, y, _, h2, h3⟩ := H q h1
    refine ⟨x, y, hq, ?_, ?_⟩
    · simp only [PStore.put]
      rw [set_other first_ne, set_other fun h => hqp (first_inj h), h2]
    · simp only [PStore.put]
      rw [set_other (by unfold second; omega), set_other first_ne.symm, h3]

omit [Num K] in
theorem Complete.drop {σ : PStore K} (H : Complete σ) {p : Nat} : Complete (σ.drop p) := by
  intro q hq
  by_cases hqp : q = p
  · subst hqp; simp [PStore.drop] at hq
  · have h1 : σ.pairs q = some .interval := by simpa [PStore.drop, hqp] using hq
    obtain ⟨x, y, _, h2, h3⟩ := H q h1
    refine ⟨x, y, hq, ?_, ?_⟩
    · simp only [PStore.drop]
      rw [set_other first_ne, set_other fun h => hqp (first_inj h), h2]
    · simp only [PStore.drop]
      rw [set_other (by unfold second; omega), set_other first_ne.symm, h3]

theorem Complete.exec {σ τ : PStore K} {c : PStmt K} (H : Complete σ) (h : PExec σ c τ) : Complete τ := by
  cases h with
  | single h1 h2 => exact H.single h2 fun _ hj => exec_same h1 hj
  | destroy => exact H.drop
  | declEq | copyEq | assign => exact H.put fun h => by cases h
  | declInt | make | copyInt => exact H.put fun _ => ⟨_, _, rfl, rfl⟩

theorem Complete.outOf {σ τ υ : PStore K} {c : PStmt K} (H : Complete σ) (h : PExec σ c τ) (h' : POutOf σ c υ) :
    Complete υ := by
  cases h' with
  | single h1 => cases h with | single _ h2 => exact H.single h2 fun _ hj => outOf_same h1 hj
  | assignLeft => exact H.put fun h => by cases h
  | _ => exact H

theorem preaches_complete {p q : PClient K} {s t : PState K} {σ : PStore K} (hr : PReaches o p s q t)
    (H : PRep fl s σ G) (hS : PSafe σ p) (hC : Complete σ) : ∃ τ L, PRep fl t τ (L ++ G) ∧ Complete τ := by
  induction hr generalizing σ G with
  | refl => exact ⟨σ, [], H, hC⟩
  | @ok c p q s s' r t hx _ ih =>
    obtain ⟨⟨τ, hc⟩, hS⟩ := hS
    have hs := pexec_sim (o := o) H hc
    rw [hx] at hs
    cases hs with
    | @ok _ L h1 _ h2 =>
      obtain ⟨υ, M, h3, h4⟩ := ih h1 ((hS τ).1 (.normal hc h2)) (hC.exec hc)
      exact ⟨υ, M ++ L, by rw [List.append_assoc]; exact h3, h4⟩
  | @threw c p q s x s' r t hx _ ih =>
    obtain ⟨⟨τ, hc⟩, hS⟩ := hS
    have hs := pexec_sim (o := o) H hc
    rw [hx] at hs
    cases hs with
    | @threw _ _ L h1 h2 =>
      obtain ⟨υ, M, h3, h4⟩ := ih h1 ((hS τ).2 (.threw hc h2)) (hC.exec hc)
      exact ⟨υ, M ++ L, by rw [List.append_assoc]; exact h3, h4⟩
    | @noMemory _ L υ h1 h2 _ =>
      obtain ⟨υ', M, h3, h4⟩ := ih h1 ((hS υ).2 (.noMemory h2)) (hC.outOf hc h2)
      exact ⟨υ', M ++ L, by rw [List.append_assoc]; exact h3, h4⟩

/-! ### Determinism, for the examples -/

omit [Num K] in
theorem Spec.PStore.Has.det {σ : PStore K} {k k' : PairKind} {p : Nat} {x y x' y' : Option (Expr K)} (h : σ.Has k p x y)
    (h' : σ.Has k' p x' y') : x' = x ∧ y' = y := by
  obtain ⟨-, h1, h2⟩ := h
  obtain ⟨-, h3, h4⟩ := h'
  rw [h1] at h3
  rw [h2] at h4
  cases h3
  cases h4
  exact ⟨rfl, rfl⟩

theorem pexec_det {σ τ τ' : PStore K} {c : PStmt K} (hc : ∀ d, c ≠ .single d) (h : PExec σ c τ) (h' : PExec σ c τ') :
    τ' = τ := by
  cases h with
  | single => exact absurd rfl (hc _)
  | declEq | declInt | destroy => cases h'; rfl
  | make _ h1 h2 =>
    cases h' with
    | make _ h3 h4 => rw [h1] at h3; rw [h2] at h4; cases h3; cases h4; rfl
  | copyEq _ h1 => cases h' with | copyEq _ h2 => rw [(h1.det h2).1, (h1.det h2).2]
  | copyInt _ h1 =>
    cases h' with
    | copyInt _ h2 =>
      obtain ⟨h3, h4⟩ := h1.det h2
      cases h3; cases h4; rfl
  | assign _ h1 =>
    cases h' with
    | assign _ h2 =>
      obtain ⟨h3, h4⟩ := h1.det h2
      cases h3; cases h4; rfl

end VM
