import Verif.Rt.ThreadsSim
import Verif.Rt.JobsCode
import Verif.Rt.HeapReadLemmas
import Verif.Rt.NewtonALemmas
import Verif.Spec.Jobs
/-
Programs with calls, alone and in threads, compared with independent values.
-/
namespace VM
variable {K : Type} [Num K]
open Act Run Spec

/-- How a call of a program ended that started in `s` and should give `r`. -/
inductive Asked {β : Type} (fl : Nat → Bool) (s : State K) (σ : Store K) (G : List Nat) (r : Res β) :
    Out (State K) β → Prop
  | ok {v s'} : r = .ok v → Rep fl s' σ G → s'.ptr = s.ptr → Asked fl s σ G r (.ok v s')
  | throw {x s'} : r = .throw x → Rep fl s' σ G → s'.ptr = s.ptr → Asked fl s σ G r (.throw x s')
  | noMemory {s' L} : Rep fl s' σ (L ++ G) → s'.ptr = s.ptr → Fails fl s.heap.next s'.heap.next →
      Asked fl s σ G r (.throw .badAlloc s')
  | ub : r = .ub → Asked fl s σ G r .ub

variable {fl : Nat → Bool} {s : State K} {σ : Store K} {G : List Nat} {β : Type}

omit [Num K] in
theorem asked_heap {fp : Ptr → List Nat} {m : Act K β} {v : Res β} (H : Inv fl s.heap s.ptr (own σ) fp G)
    (hk : Kinds s.objs σ) (hg : Gives False s.heap v m) : Asked fl s σ G v (Prog.heap m s) := by
  have := hg s.heap [] (.refl H.wf)
  revert this
  rw [Prog.heap]
  cases hm : m s.heap with
  | ok w h' =>
    rintro (⟨e1, e2⟩)
    exact .ok e1 ⟨⟨fp, by simpa using H.leak e2⟩, hk⟩ rfl
  | throw y h' =>
    intro hG
    cases hG with
    | throw e1 e2 => exact .throw e1 ⟨⟨fp, by simpa using H.leak e2⟩, hk⟩ rfl
    | noMemory e1 e2 => exact .noMemory ⟨⟨fp, H.leak e2⟩, hk⟩ rfl (H.scarce e1)
    | other e1 => exact e1.elim
  | ub =>
    rintro (_ | _ | _ | _ | e1)
    exact .ub (e1.resolve_right fun h => h.1)

omit [Num K] in
theorem asked_read {e : Expr K} {r : Src} {g : Ref → Act K β} {v : Res β} (H : Rep fl s σ G) (hl : look σ r = some e)
    (hg : ∀ {x}, RefIs s.heap x e → Gives False s.heap v (g x)) : Asked fl s σ G v (readCall g r s) := by
  obtain ⟨⟨fp, H⟩, hk⟩ := H
  obtain ⟨x, h1, h2, -⟩ := ref_some H hk hl
  have hx : readCall g r s = Prog.heap (g x) s :=
    bind_ok (m := (Run.look fun s : State K => s.ref r : Run (State K) Ref)) (look_ok (f := fun s : State K => s.ref r) h1)
  rw [hx]
  exact asked_heap H hk (hg h2)

omit [Num K] in
theorem asked_solver {q₁ q₂ : Equation K} {q : System Src} {g : System Ref → Act K β} {v : Res β} (H : Rep fl s σ G)
    (h₁ : look σ q.l₁ = some q₁.lhs) (h₂ : look σ q.r₁ = some q₁.rhs) (h₃ : look σ q.l₂ = some q₂.lhs)
    (h₄ : look σ q.r₂ = some q₂.rhs) (hg : ∀ {x}, SystemIs s.heap x q₁ q₂ → Gives False s.heap v (g x)) :
    Asked fl s σ G v (solverCall g q s) := by
  obtain ⟨⟨fp, H⟩, hk⟩ := H
  obtain ⟨x1, a1, b1, -⟩ := ref_some H hk h₁
  obtain ⟨x2, a2, b2, -⟩ := ref_some H hk h₂
  obtain ⟨x3, a3, b3, -⟩ := ref_some H hk h₃
  obtain ⟨x4, a4, b4, -⟩ := ref_some H hk h₄
  have hx : solverCall g q s = Prog.heap (g ⟨x1, x2, x3, x4⟩) s := by
    rw [solverCall, bind_ok (look_ok (f := fun s : State K => s.ref q.l₁) a1),
      bind_ok (look_ok (f := fun s : State K => s.ref q.r₁) a2),
      bind_ok (look_ok (f := fun s : State K => s.ref q.l₂) a3),
      bind_ok (look_ok (f := fun s : State K => s.ref q.r₂) a4)]
  rw [hx]
  exact asked_heap H hk (hg (x := ⟨x1, x2, x3, x4⟩) ⟨b1, b2, b3, b4⟩)

omit [Num K] in
theorem gives_read {Lt : Prop} {h : Heap K} {x : Ref} {e : Expr K} (H : RefIs h x e) : Gives Lt h (.ok e) x.read := by
  intro h1 A E
  rw [H.read h1 A E]
  exact .ok rfl (.refl E.wf')

theorem Res.map_bind {α β : Type} (r : Res α) (f : α → β) : r.map f = r.bind fun a => .ok (f a) := by cases r <;> rfl

theorem cutOff_some {r : Res β} : cutOff (some r) = r.map some := rfl

/-- A call gives what the values say. -/
theorem query_sim [NumLt K] {oh : Nat → Bool} {q : Query K} {r : Res (Answer K)} (H : Rep fl s σ G) (hq : Asks σ q r) :
    Asked fl s σ G r (q.call oh s) := by
  cases hq with
  | @value o v _ _ h =>
    rw [Res.map_bind]
    exact asked_read H h fun hx => (gives_read hx).bind (s := fun e => (eval o v e).bind fun a => .ok (Answer.number a))
      fun e' _ => gives_look.bind fun c _ => gives_pure
  | @text fmt _ _ h =>
    exact asked_read H h fun hx => (gives_read hx).bind (s := fun e => .ok (Answer.text (deepStr fmt e)))
      fun e' _ => gives_pure
  | latex h =>
    exact asked_read H h fun hx => (latexRef_gives _ _ _ hx).bind (s := fun t => .ok (Answer.text t)) fun t _ => gives_pure
  | integral h hi =>
    rw [Res.map_bind]
    exact asked_read H h fun hx => ((quadRef_gives gaussA_rule hx).mono fun hn => hn hi).bind fun t _ => gives_pure
  | @solved o fuel guess q q₁ q₂ r h1 h2 h3 h4 s1 s2 hr =>
    have : (r.map fun x => Answer.point (some x)) =
        (cutOff (newtonLoop o q₁ q₂ fuel (Num.lit 1) guess)).bind fun p => .ok (.point p) := by
      rw [hr]; cases r <;> rfl
    rw [this]
    exact asked_solver H h1 h2 h3 h4 fun hx => (newtonA_gives hx (not_stuck s1.1 s1.2) (not_stuck s2.1 s2.2)).bind
      fun t _ => gives_pure
  | @running o fuel guess q q₁ q₂ h1 h2 h3 h4 s1 s2 hr =>
    have : (.ok (.point none) : Res (Answer K)) =
        (cutOff (newtonLoop o q₁ q₂ fuel (Num.lit 1) guess)).bind fun p => .ok (.point p) := by
      rw [hr]; rfl
    rw [this]
    exact asked_solver H h1 h2 h3 h4 fun hx => (newtonA_gives hx (not_stuck s1.1 s1.2) (not_stuck s2.1 s2.2)).bind
      fun t _ => gives_pure

/-- What the values say is determined. -/
theorem Spec.Asks.unique [NumLt K] {q : Query K} {r r' : Res (Answer K)} (h : Asks σ q r) (h' : Asks σ q r') : r = r' := by
  cases h with
  | value h => cases h' with | value h' => rw [h] at h'; cases h'; rfl
  | text h => cases h' with | text h' => rw [h] at h'; cases h'; rfl
  | latex h => cases h' with | latex h' => rw [h] at h'; cases h'; rfl
  | integral h => cases h' with | integral h' => rw [h] at h'; cases h'; rfl
  | @solved _ _ _ _ q₁ q₂ _ h1 h2 h3 h4 _ _ h5 =>
    cases h' with
    | @solved _ _ _ _ p₁ p₂ _ g1 g2 g3 g4 _ _ g5 =>
      obtain ⟨a, b⟩ := q₁; obtain ⟨c, d⟩ := q₂; obtain ⟨a', b'⟩ := p₁; obtain ⟨c', d'⟩ := p₂
      simp only [h1, h2, h3, h4, Option.some.injEq] at g1 g2 g3 g4
      subst g1 g2 g3 g4
      rw [h5] at g5; cases g5; rfl
    | @running _ _ _ _ p₁ p₂ g1 g2 g3 g4 _ _ g5 =>
      obtain ⟨a, b⟩ := q₁; obtain ⟨c, d⟩ := q₂; obtain ⟨a', b'⟩ := p₁; obtain ⟨c', d'⟩ := p₂
      simp only [h1, h2, h3, h4, Option.some.injEq] at g1 g2 g3 g4
      subst g1 g2 g3 g4
      rw [h5] at g5; cases g5
  | @running _ _ _ _ q₁ q₂ h1 h2 h3 h4 _ _ h5 =>
    cases h' with
    | @solved _ _ _ _ p₁ p₂ _ g1 g2 g3 g4 _ _ g5 =>
      obtain ⟨a, b⟩ := q₁; obtain ⟨c, d⟩ := q₂; obtain ⟨a', b'⟩ := p₁; obtain ⟨c', d'⟩ := p₂
      simp only [h1, h2, h3, h4, Option.some.injEq] at g1 g2 g3 g4
      subst g1 g2 g3 g4
      rw [h5] at g5; cases g5
    | running => rfl

theorem Spec.RanJob.mono [NumLt K] {S S' : Prop} {τ : Store K} {p : Job K} {as : List (Except Exc (Answer K))} (hS : S → S')
    (h : RanJob S σ p as τ) : RanJob S' σ p as τ := by
  induction h with
  | done => exact .done
  | normal h1 h2 _ ih => exact .normal h1 h2 ih
  | threw h1 h2 _ ih => exact .threw h1 h2 ih
  | noMemory h1 h2 _ ih => exact .noMemory (hS h1) h2 ih
  | query h1 h2 _ ih => exact .query h1 h2 ih
  | noAnswer h1 _ ih => exact .noAnswer (hS h1) ih

omit [Num K] in
theorem fails_wider {n n' m m' : Nat} (H : Fails fl n m) (h1 : n' ≤ n) (h2 : m ≤ m') : Fails fl n' m' := by
  obtain ⟨a, g1, g2, g3⟩ := H
  exact ⟨a, Nat.le_trans h1 g1, Nat.lt_of_lt_of_le g2 h2, g3⟩

/-- A program with calls does what it does on independent values. -/
theorem job_sim [NumLt K] {o : Nat → Bool} : ∀ {p : Job K} {s : State K} {σ : Store K} {G : List Nat},
    Rep fl s σ G → SafeJob σ p → ∃ as s' L τ, p.run o s = .ok (as, s') ∧
      RanJob (Fails fl s.heap.next s'.heap.next) σ p as τ ∧ Rep fl s' τ (L ++ G) ∧ s.heap.next ≤ s'.heap.next ∧
      (¬ Fails fl s.heap.next s'.heap.next → TidyJob σ p → L = [])
  | .done, s, σ, G, H, _ => ⟨[], s, [], σ, rfl, .done, H, Nat.le_refl _, fun _ _ => rfl⟩
  | .step c p q, s, σ, G, H, hS => by
    obtain ⟨⟨τ, hx⟩, hS⟩ := hS
    have hs := exec_sim (o := o) H hx
    revert hs
    rw [Job.run]
    generalize hr : exec o c s = r
    have hle : ∀ s', (∃ a, r = .ok a s') ∨ (∃ x, r = .throw x s') → s.heap.next ≤ s'.heap.next := fun s' h =>
      PTraced.next_le (PTraced.exec (o := o) c) (by rwa [hr])
    rintro (@⟨s', L, h2, h3, h4⟩ | @⟨x, s', L, h2, h3⟩ | @⟨s', L, υ, h2, h3, h5⟩)
    · have hn := hle s' (.inl ⟨_, rfl⟩)
      obtain ⟨as, s'', M, υ, g1, g2, g3, g4, g5⟩ := job_sim h2 ((hS τ).1 (.normal hx h4))
      refine ⟨as, s'', M ++ L, υ, g1, .normal hx h4 (g2.mono fun h => fails_wider h hn (Nat.le_refl _)),
        by rw [List.append_assoc]; exact g3, Nat.le_trans hn g4, fun hf ht => ?_⟩
      rw [g5 (fun h => hf (fails_wider h hn (Nat.le_refl _))) (ht.2 τ hx), h3 ht.1]; rfl
    · have hn := hle s' (.inr ⟨_, rfl⟩)
      obtain ⟨as, s'', M, υ, g1, g2, g3, g4, g5⟩ := job_sim h2 ((hS τ).2 (.threw hx h3))
      refine ⟨as, s'', M ++ L, υ, g1, .threw hx h3 (g2.mono fun h => fails_wider h hn (Nat.le_refl _)),
        by rw [List.append_assoc]; exact g3, Nat.le_trans hn g4, fun hf ht => ?_⟩
      obtain ⟨i, rhs, y, rfl | rfl, h4⟩ := h3
      · exact absurd h4 (ht.1.1 y)
      · exact absurd h4 (ht.1.1 y)
    · have hn := hle s' (.inr ⟨_, rfl⟩)
      obtain ⟨as, s'', M, υ', g1, g2, g3, g4, g5⟩ := job_sim h2 ((hS υ).2 (.noMemory h3))
      have hf := fails_wider h5 (Nat.le_refl _) g4
      refine ⟨as, s'', M ++ L, υ', g1, .noMemory hf h3 (g2.mono fun h => fails_wider h hn (Nat.le_refl _)),
        by rw [List.append_assoc]; exact g3, Nat.le_trans hn g4, fun hn _ => (hn hf).elim⟩
  | .query q k, s, σ, G, H, hS => by
    obtain ⟨⟨r, hq, hu, hS⟩, hS'⟩ := hS
    have hs := query_sim (oh := o) H hq
    revert hs
    rw [Job.run]
    generalize hr : q.call o s = x
    have hle : ∀ s', (∃ a, x = .ok a s') ∨ (∃ y, x = .throw y s') → s.heap.next ≤ s'.heap.next := fun s' h =>
      PTraced.next_le (PTraced.query (oh := o) q) (by rwa [hr])
    rintro (@⟨v, s', h1, h2, h3⟩ | @⟨x, s', h1, h2, h3⟩ | @⟨s', L, h1, h2, h3⟩ | h1)
    · have hn := hle s' (.inl ⟨_, rfl⟩)
      subst h1
      obtain ⟨as, s'', M, υ, g1, g2, g3, g4, g5⟩ := job_sim (o := o) h2 (hS _ .ok)
      refine ⟨.ok v :: as, s'', M, υ, by simp only [g1]; rfl, .query hq .ok (g2.mono fun h =>
        fails_wider h hn (Nat.le_refl _)), g3, Nat.le_trans hn g4, fun hf ht =>
          g5 (fun h => hf (fails_wider h hn (Nat.le_refl _))) (ht _ _ hq .ok)⟩
    · have hn := hle s' (.inr ⟨_, rfl⟩)
      subst h1
      obtain ⟨as, s'', M, υ, g1, g2, g3, g4, g5⟩ := job_sim (o := o) h2 (hS _ .threw)
      refine ⟨.error x :: as, s'', M, υ, by simp only [g1]; rfl, .query hq .threw (g2.mono fun h =>
        fails_wider h hn (Nat.le_refl _)), g3, Nat.le_trans hn g4, fun hf ht =>
          g5 (fun h => hf (fails_wider h hn (Nat.le_refl _))) (ht _ _ hq .threw)⟩
    · have hn := hle s' (.inr ⟨_, rfl⟩)
      obtain ⟨as, s'', M, υ, g1, g2, g3, g4, g5⟩ := job_sim (o := o) h1 hS'
      have hf := fails_wider h3 (Nat.le_refl _) g4
      exact ⟨.error .badAlloc :: as, s'', M ++ L, υ, by simp only [g1]; rfl, .noAnswer hf (g2.mono fun h =>
        fails_wider h hn (Nat.le_refl _)), by rw [List.append_assoc]; exact g3, Nat.le_trans hn g4,
        fun hn _ => (hn hf).elim⟩
    · exact (hu h1).elim

/-! ### What is not the program's own -/

namespace Keeps
variable {p : Ptr}

omit [Num K] in
theorem readCall {f : Ref → Act K β} {r : Src} : Keeps p (VM.readCall f r) := look.bind fun _ => heap

omit [Num K] in
theorem solverCall {f : System Ref → Act K β} {q : System Src} : Keeps p (VM.solverCall f q) :=
  look.bind fun _ => look.bind fun _ => look.bind fun _ => look.bind fun _ => heap

theorem query [NumLt K] {o : Nat → Bool} (q : Query K) : Keeps p (q.call o) := by
  cases q with
  | solve o' n g q => exact solverCall (f := fun x => newtonA o' o n g x >>= fun p => pure (Answer.point p))
  | _ => exact readCall

theorem job [NumLt K] {o : Nat → Bool} {P : Nat → Prop} (h1 : ∀ i, objOf p = some i → ¬ P i) (h2 : p ≠ .tmp) :
    ∀ (c : Job K) {s s' : State K} {as : List (Except Exc (Answer K))}, JobOn P c → c.run o s = .ok (as, s') →
      s'.ptr p = s.ptr p
  | .done, s, s', as, _, hr => by cases hr; rfl
  | .step c q q', s, s', as, ho, hr => by
    have hk : Keeps p (VM.exec o c) := exec c (fun h => h1 (subject c) (by rw [h]; rfl) ho.1)
      (fun h => h1 (subject c) (by rw [h]; rfl) ho.1) h2
    have := hk s
    rw [Job.run] at hr
    cases hx : VM.exec o c s with
    | ok u s1 => rw [hx] at this hr; exact (job h1 h2 q ho.2.1 hr).trans this
    | throw x s1 => rw [hx] at this hr; exact (job h1 h2 q' ho.2.2 hr).trans this
    | ub => rw [hx] at hr; cases hr
  | .query q k, s, s', as, ho, hr => by
    have := query (p := p) (o := o) q s
    rw [Job.run] at hr
    cases hx : q.call o s with
    | ok v s1 =>
      rw [hx] at this hr
      cases hy : (k (.ok v)).run o s1 with
      | ok y => obtain ⟨bs, s2⟩ := y; simp only [hy, Res.map] at hr; cases hr; exact (job h1 h2 _ (ho _) hy).trans this
      | throw y => simp only [hy, Res.map] at hr; cases hr
      | ub => simp only [hy, Res.map] at hr; cases hr
    | throw x s1 =>
      rw [hx] at this hr
      cases hy : (k (.error x)).run o s1 with
      | ok y => obtain ⟨bs, s2⟩ := y; simp only [hy, Res.map] at hr; cases hr; exact (job h1 h2 _ (ho _) hy).trans this
      | throw y => simp only [hy, Res.map] at hr; cases hr
      | ub => simp only [hy, Res.map] at hr; cases hr
    | ub => rw [hx] at hr; cases hr

end Keeps

theorem ranJob_store [NumLt K] {S : Prop} {P : Nat → Prop} {σ τ : Store K} {p : Job K}
    {as : List (Except Exc (Answer K))} (h : RanJob S σ p as τ) (ho : JobOn P p) {i : Nat} (hi : ¬ P i) : τ i = σ i := by
  induction h with
  | done => rfl
  | normal h1 _ _ ih => rw [ih ho.2.1, exec_store (i := i) h1 fun h => hi (h ▸ ho.1)]
  | threw h1 _ _ ih => rw [ih ho.2.2, exec_store (i := i) h1 fun h => hi (h ▸ ho.1)]
  | noMemory _ h1 _ ih => rw [ih ho.2.2, outOf_store (i := i) h1 fun h => hi (h ▸ ho.1)]
  | query _ _ _ ih => exact ih (ho _)
  | noAnswer _ _ ih => exact ih (ho _)

end VM
