import Verif.Rt.ThreadsSim
import Verif.Spec.Reuse
/-
Memory that is used again does not show.
-/
namespace VM
open Spec
variable {K ι β : Type} [DecidableEq ι]

/-- The two machines are at the same point. -/
structure Stands (M : Machine ι K β) (R : Reuser ι K β) : Prop where
  placed : Placed M.cells R.mem R.addr
  fails : R.fails = M.fails
  threads : R.threads = M.threads

namespace Stands
variable {M M' : Machine ι K β} {R R' : Reuser ι K β} {t : ι}

omit [DecidableEq ι] in
theorem seen (S : Stands M R) {a : Nat} (h : M.cells a ≠ none) : R.seen a = M.cells a := by
  cases hc : M.cells a with
  | none => exact absurd hc h
  | some c => exact S.placed.there a c hc

/-- Where the machine that uses every address once goes on, so does the other, if there is an address left. -/
theorem step (S : Stands M R) (hM : M.step t ≠ none) : ¬ R.Faulty t ∧ ((∃ p, R.mem p = none) → ∃ R', R.Step t R') := by
  unfold Machine.step at hM
  unfold Reuser.Faulty
  rw [S.threads]
  cases hc : (M.threads t).code with
  | done b => exact ⟨id, fun _ => ⟨_, .idle (by rw [S.threads]; exact hc)⟩⟩
  | undefined => rw [hc] at hM; exact absurd rfl hM
  | read a k =>
    cases hx : M.cells a with
    | none => rw [hc] at hM; simp [Code.step, hx] at hM
    | some c =>
      have := S.placed.there a c hx
      exact ⟨by simp [this], fun _ => ⟨_, .read (by rw [S.threads]; exact hc) this⟩⟩
  | new c k =>
    refine ⟨id, fun ⟨p, hp⟩ => ?_⟩
    cases hf : R.fails (R.threads t).next with
    | true => exact ⟨_, .fail (by rw [S.threads]; exact hc) hf⟩
    | false => exact ⟨_, .give p (by rw [S.threads]; exact hc) hf hp⟩
  | free a k =>
    cases hx : M.cells a with
    | none => rw [hc] at hM; simp [Code.step, hx] at hM
    | some c =>
      have := S.placed.there a c hx
      exact ⟨by simp [this], fun _ => ⟨_, .free (by rw [S.threads]; exact hc) this⟩⟩

/-- And they go to the same point. -/
theorem next (S : Stands M R) (hF : Fresh M) (hM : M.step t = some M') (hR : R.Step t R') : Stands M' R' := by
  unfold Machine.step at hM
  have hth := S.threads
  have hfa := S.fails
  cases hR with
  | idle h =>
    rw [hth] at h
    rw [h] at hM
    cases hM
    refine ⟨S.placed, hfa, ?_⟩
    funext u
    rw [hth]
    by_cases hu : u = t
    · subst hu; simp [← h]
    · simp [hu]
  | @read a k c h hx =>
    rw [hth] at h
    rw [h] at hM
    cases hc : M.cells a with
    | none => simp [Code.step, hc] at hM
    | some d =>
      have := S.placed.there a d hc
      rw [hx] at this
      cases this
      simp only [Code.step, hc, Option.map_some, Option.some.injEq] at hM
      subst hM
      exact ⟨S.placed, hfa, by funext u; simp only [Reuser.goOn, hth]⟩
  | @fail c k h hf =>
    rw [hth] at h
    rw [hth, hfa] at hf
    rw [h] at hM
    simp only [Code.step, hf, if_true, Option.map_some, Option.some.injEq] at hM
    subst hM
    exact ⟨S.placed, hfa, by funext u; simp only [Reuser.goOn, hth]⟩
  | @give c k p h hf hp =>
    rw [hth] at h
    rw [hth, hfa] at hf
    rw [h] at hM
    simp only [Code.step, hf, Bool.false_eq_true, if_false, Option.map_some, Option.some.injEq] at hM
    subst hM
    have hn := hF t c k h
    have hne : ∀ a, M.cells a ≠ none → R.addr a ≠ p := by
      intro a ha he
      cases hc : M.cells a with
      | none => exact ha hc
      | some d => have := S.placed.there a d hc; rw [he, hp] at this; cases this
    refine ⟨?_, hfa, by funext u; simp only [Reuser.goOn, hth, Heap.give_next]⟩
    rw [hth]
    cases c with
    | none =>
      have hx : ∀ a, M.cells a ≠ none → a ≠ (M.threads t).next := fun a ha he => ha (he ▸ hn)
      refine ⟨fun a d ha => ?_, fun a b ha hb => ?_, fun q hq => ?_⟩
      · have ha' : M.cells a = some d := ha
        have h1 : M.cells a ≠ none := by simp [ha']
        simp only [hx a h1, if_false, hne a h1]
        exact S.placed.there a d ha'
      · simp only [hx a ha, hx b hb, if_false]
        exact S.placed.apart a b ha hb
      · by_cases hqp : q = p
        · simp [hqp] at hq
        · simp only [hqp, if_false] at hq
          obtain ⟨a, h1, h2⟩ := S.placed.only q hq
          exact ⟨a, h1, by simp only [hx a h1, if_false, h2]⟩
    | some c =>
      refine ⟨fun a d ha => ?_, fun a b ha hb => ?_, fun q hq => ?_⟩
      · simp only [Heap.give] at ha
        by_cases h1 : a = (M.threads t).next
        · simp only [h1, if_true] at ha ⊢
          exact ha
        · simp only [h1, if_false] at ha ⊢
          simp only [hne a (by simp [ha]), if_false]
          exact S.placed.there a d ha
      · simp only [Heap.give] at ha hb
        by_cases h1 : a = (M.threads t).next <;> by_cases h2 : b = (M.threads t).next <;>
          simp only [h1, h2, if_true, if_false] at ha hb ⊢
        · exact fun _ => trivial
        · exact fun h3 => absurd h3.symm (hne b hb)
        · exact fun h3 => absurd h3 (hne a ha)
        · exact S.placed.apart a b ha hb
      · by_cases hqp : q = p
        · exact ⟨(M.threads t).next, by simp [Heap.give], by simp [hqp]⟩
        · simp only [hqp, if_false] at hq
          obtain ⟨a, h1, h2⟩ := S.placed.only q hq
          have h3 : a ≠ (M.threads t).next := fun h => h1 (h ▸ hn)
          exact ⟨a, by simpa [Heap.give, h3] using h1, by simp only [h3, if_false, h2]⟩
  | @free a k c h hx =>
    rw [hth] at h
    rw [h] at hM
    cases hc : M.cells a with
    | none => simp [Code.step, hc] at hM
    | some d =>
      simp only [Code.step, hc, Option.map_some, Option.some.injEq] at hM
      subst hM
      refine ⟨⟨fun b e hb => ?_, fun b b' hb hb' => ?_, fun q hq => ?_⟩, hfa, by funext u; simp only [Reuser.goOn, hth]⟩
      · by_cases h1 : b = a
        · simp [h1] at hb
        · simp only [h1, if_false] at hb
          have : R.addr b ≠ R.addr a := fun h2 => h1 (S.placed.apart b a (by simp [hb]) (by simp [hc]) h2)
          simp only [this, if_false]
          exact S.placed.there b e hb
      · by_cases h1 : b = a
        · simp [h1] at hb
        · by_cases h2 : b' = a
          · simp [h2] at hb'
          · simp only [h1, h2, if_false] at hb hb'
            exact S.placed.apart b b' hb hb'
      · by_cases h1 : q = R.addr a
        · simp [h1] at hq
        · simp only [h1, if_false] at hq
          obtain ⟨b, h2, h3⟩ := S.placed.only q hq
          have h4 : b ≠ a := fun h => h1 (by rw [← h3, h])
          exact ⟨b, by simpa [h4] using h2, h3⟩

/-- There is no race. -/
theorem race (S : Stands M R) (hM : ∀ t, M.step t ≠ none) (hr : ¬ Race M) : ¬ RaceAt R := by
  have live : ∀ t a, ((∃ k, (M.threads t).code = .read a k) ∨ ∃ k, (M.threads t).code = .free a k) → M.cells a ≠ none := by
    rintro t a h hn
    refine hM t ?_
    unfold Machine.step
    rcases h with ⟨k, hk⟩ | ⟨k, hk⟩ <;> rw [hk] <;> simp [Code.step, hn]
  rintro ⟨t, u, a, b, k, htu, h1, h2, h3⟩
  rw [S.threads] at h1 h3
  have h4 := S.placed.apart b a (live u b h3) (live t a (.inr ⟨k, h1⟩)) h2
  subst h4
  rcases h3 with ⟨k', h3⟩ | ⟨k', h3⟩
  · exact hr ⟨t, u, b, false, htu, by rw [Thread.access, h1], by rw [Thread.access, h3]⟩
  · exact hr ⟨t, u, b, true, htu, by rw [Thread.access, h1], by rw [Thread.access, h3]⟩

/-- So they stay together. -/
theorem exec : ∀ {ts : List ι} {M : Machine ι K β} {R R' : Reuser ι K β}, Stands M R →
    (∀ ts, ∃ M', M.exec ts = some M' ∧ Fresh M') → R.Exec ts R' →
    ∃ M', M.exec ts = some M' ∧ Stands M' R'
  | [], M, R, R', S, hM, hR => by
    cases hR
    exact ⟨M, rfl, S⟩
  | t :: ts, M, R, R', S, hM, hR => by
    cases hR with
    | cons h1 h2 =>
      obtain ⟨M0, e0, f0⟩ := hM []
      cases e0
      cases h3 : M.step t with
      | none =>
        obtain ⟨M1, e1, -⟩ := hM [t]
        simp [Machine.exec, h3] at e1
      | some M1 =>
        obtain ⟨M', e1, e2⟩ := exec (S.next f0 h3 h1) (fun ts => by simpa [Machine.exec, h3] using hM (t :: ts)) h2
        exact ⟨M', by simpa [Machine.exec, h3] using e1, e2⟩

end Stands

theorem Reuser.Step.bounded {R R' : Reuser ι K β} {t : ι} (h : R.Step t R') (hB : Bounded R.mem) : Bounded R'.mem := by
  obtain ⟨B, hB⟩ := hB
  cases h with
  | idle => exact ⟨B, hB⟩
  | read => exact ⟨B, hB⟩
  | fail => exact ⟨B, hB⟩
  | give p =>
    refine ⟨B + p + 1, fun q hq => ?_⟩
    simp only [show q ≠ p by omega, if_false]
    exact hB q (by omega)
  | free =>
    refine ⟨B, fun q hq => ?_⟩
    simp only [hB q hq, ite_self]

theorem Reuser.Exec.bounded {R R' : Reuser ι K β} {ts : List ι} (h : R.Exec ts R') : Bounded R.mem → Bounded R'.mem := by
  induction h with
  | nil => exact id
  | cons h1 _ ih => exact fun hB => ih (h1.bounded hB)

/-- A thread alone. -/
theorem alone_sim {f : Nat → Bool} {code : Code K β} {b : β} {h' : Heap K}
    (hr : code.run ⟨fun _ => none, 0, f⟩ = some (b, h')) : ∃ n, ∀ ts : List Unit, ∃ M,
      (Machine.mk (fun _ => none) f fun _ : Unit => ⟨code, 0⟩).exec ts = some M ∧ Fresh M ∧
      (n ≤ ts.length → (M.threads ()).code = .done b ∧ M.cells = h'.cells) := by
  have hA : Areas (ι := Unit) (fun _ => False) (fun _ _ => True) := ⟨fun _ _ _ h => h, fun t u _ h => absurd rfl h⟩
  have h0 : ∀ t, Alone (fun _ => False) (fun _ _ => True) (Machine.mk (fun _ => none) f fun _ : Unit => ⟨code, 0⟩) t b h'
      (code.steps ⟨fun _ => none, 0, f⟩) ⟨fun _ => none, 0, f⟩ := fun t =>
    ⟨rfl, rfl, fun _ _ => rfl, fun _ h => absurd rfl h, fun _ h => h.elim, hr, fun _ _ _ => trivial, fun _ h => h.elim,
      Nat.le_refl _, fun _ _ => rfl⟩
  refine ⟨code.steps ⟨fun _ => none, 0, f⟩, fun ts => ?_⟩
  obtain ⟨M, h1, e1, e2⟩ := Alone.exec hA (b := fun _ => b) (h' := fun _ => h') ts h0
  refine ⟨M, e1, fun t _ _ hc => (e2 t).unused hc, fun hn => ?_⟩
  have hcount : ts.count () = ts.length := List.count_eq_length.2 fun _ _ => rfl
  have hz : (M.threads ()).code.steps (h1 ()) = 0 := by
    have := (e2 ()).steps
    simp only [hcount] at this
    omega
  obtain ⟨g1, g2⟩ := Code.steps_zero (e2 ()).run hz
  refine ⟨g1, ?_⟩
  have : h1 () = h' := g2
  rw [← this]
  funext a
  exact (e2 ()).same a (.inr trivial)

end VM
