import Verif.Rt.ThreadsCode
import Verif.Rt.Jobs
/-
Calls that only read, and programs with such calls, consist of single accesses to memory.
-/
namespace VM
variable {K α β : Type} [Num K] {o : Order K} {oh : Nat → Bool}
open Act Run

namespace Traced

theorem withTemp {f : Act K Nat} {k : Nat → Act K β} (hf : Traced f) (hk : ∀ a, Traced (k a)) :
    Traced (VM.withTemp f k) :=
  hf.bind fun a => (owning (hk a)).bind fun _ => (delete a).bind fun _ => ret _

omit [Num K] in
theorem ask2 (q : Expr K → Expr K → Res β) (a b : Nat) : Traced (VM.ask2 q a b) :=
  (load a).look_bind fun x => (load b).look_bind fun y => res (q x y)


theorem gaussA (lo hi x a : Nat) : Traced (VM.gaussA o oh lo hi x a) :=
  (ask2 _ _ _).bind fun _ => withTemp ((substA (ret _) (newConst _) a).bind fun _ => simplifiedA _) fun _ =>
    withTemp (newBin (clone _) (clone _)) fun _ => ask2 _ _ _

theorem zeroCheckA {a : Nat} {m : Act K K} (hm : Traced m) : Traced (VM.zeroCheckA o a m) := by
  refine (askConst a).bind fun b => ?_
  cases b with
  | false => exact hm
  | true => exact (ask _ _).bind fun c => ite (ret _) hm

theorem bothA {b : Bool} {l r : Nat} {q : Nat → Act K K} {f : K → K → K} (hq : ∀ a, Traced (q a)) :
    Traced (VM.bothA b l r q f) := by
  cases b
  · exact withTemp (clone _) fun _ => (hq _).bind fun _ => withTemp (clone _) fun _ => (hq _).bind fun _ => ret _
  · exact withTemp (clone _) fun _ => (hq _).bind fun _ => withTemp (clone _) fun _ => (hq _).bind fun _ => ret _

theorem quadN {q : RuleA K} (hq : ∀ lo hi x a, Traced (q lo hi x a)) : ∀ n a : Nat, Traced (VM.quadN o q n a)
  | 0, _ => res _
  | n + 1, a => by
    refine (cell a).bind fun c => ?_
    obtain ⟨c, ks⟩ := c
    dsimp only
    split
    · exact withTemp (clone _) fun _ => hq _ _ _ _
    · exact res _
    · exact res _
    · refine zeroCheckA ((ask2 _ _ _).bind fun b => ?_)
      split
      · exact bothA (quadN hq n)
      · exact bothA (quadN hq n)
      · exact res _
    · exact zeroCheckA (res _)

theorem quadA {q : RuleA K} (hq : ∀ lo hi x a, Traced (q lo hi x a)) (a : Nat) : Traced (VM.quadA o q a) :=
  (ask _ _).bind fun _ => quadN hq _ _

theorem quadRef {q : RuleA K} (hq : ∀ lo hi x a, Traced (q lo hi x a)) (x : Ref) : Traced (VM.quadRef o q x) := by
  cases x with
  | node a => exact quadA hq a
  | whole op l r => exact withTemp (refClone _) (quadA hq)
  | single op k => exact withTemp (refClone _) (quadA hq)

theorem latexNode {fmt : K → Txt} {t : Translator} {rec : Bool → Nat → Act K Txt} (hr : ∀ b a, Traced (rec b a))
    (flag : Bool) (c : Label K) (ks : List Nat) : Traced (VM.latexNode fmt t rec flag c ks) := by
  unfold VM.latexNode
  split
  · exact withTemp (clone _) fun _ => withTemp (clone _) fun _ => (hr _ _).bind fun _ => (hr _ _).bind fun _ => ret _
  · exact withTemp (clone _) fun _ => (hr _ _).bind fun _ => ret _
  · exact withTemp (clone _) fun _ => (hr _ _).bind fun _ => (hr _ _).bind fun _ => (hr _ _).bind fun _ => ret _
  all_goals exact ret _

theorem latexN {fmt : K → Txt} {t : Translator} : ∀ (n : Nat) (flag : Bool) (a : Nat), Traced (VM.latexN fmt t n flag a)
  | 0, _, _ => res _
  | n + 1, _, a => (cell a).bind fun _ => latexNode (latexN n) _ _ _

theorem latexA {fmt : K → Txt} {t : Translator} (flag : Bool) (a : Nat) : Traced (VM.latexA fmt t flag a) :=
  (ask _ _).bind fun _ => latexN _ _ _

theorem latexRef {fmt : K → Txt} {t : Translator} (flag : Bool) (x : Ref) : Traced (VM.latexRef fmt t flag x) := by
  cases x with
  | node a => exact latexA flag a
  | whole op l r => exact latexNode (fmt := fmt) (t := t) (fun b a => latexA (K := K) b a) flag (.bin op) [l, r]
  | single op k => exact latexNode (fmt := fmt) (t := t) (fun b a => latexA (K := K) b a) flag (.un op) [k]

theorem residualA (l r : Ref) : Traced (K := K) (VM.residualA l r) := newBin (refClone l) (refClone r)

theorem derivA (x f : Nat) : Traced (K := K) (VM.derivA oh x f) := (diffA f).bind fun _ => simplifiedA _

theorem newtonStepA (q : System Ref) (g : List K) : Traced (VM.newtonStepA o oh q g) :=
  withTemp (residualA _ _) fun _ => withTemp (residualA _ _) fun _ => (ask _ _).bind fun _ => (ask _ _).bind fun _ =>
    withTemp (derivA _ _) fun _ => withTemp (derivA _ _) fun _ => withTemp (derivA _ _) fun _ =>
    withTemp (derivA _ _) fun _ => (ask _ _).bind fun _ => (ask _ _).bind fun _ => (ask _ _).bind fun _ =>
    (ask _ _).bind fun _ => (res _).bind fun _ => (res _).bind fun _ => ret _

theorem newtonNormA (a b : Nat) (x : List K) : Traced (VM.newtonNormA o a b x) :=
  (ask _ _).bind fun _ => (ask _ _).bind fun _ => ret _

theorem newtonLoopA [NumLt K] {q : System Ref} {a b : Nat} : ∀ (n : Nat) (c : K) (x : List K),
    Traced (VM.newtonLoopA o oh q a b n c x)
  | 0, _, _ => ret _
  | n + 1, _, _ => ite ((newtonStepA _ _).bind fun _ => (newtonNormA _ _ _).bind fun _ => newtonLoopA n _ _) (ret _)

theorem newtonA [NumLt K] (n : Nat) (g : List K) (q : System Ref) : Traced (VM.newtonA o oh n g q) :=
  withTemp (residualA _ _) fun _ => withTemp (residualA _ _) fun _ => newtonLoopA _ _ _

end Traced

namespace PTraced

omit [Num K] in
theorem readCall {f : Ref → Act K β} (hf : ∀ x, Traced (f x)) (r : Src) : PTraced (VM.readCall f r) :=
  (look fun l => Traced.ref l r).bind fun x => heap (hf x)

omit [Num K] in
theorem solverCall {f : System Ref → Act K β} (hf : ∀ x, Traced (f x)) (q : System Src) : PTraced (VM.solverCall f q) :=
  (look fun l => Traced.ref l _).bind fun _ => (look fun l => Traced.ref l _).bind fun _ =>
    (look fun l => Traced.ref l _).bind fun _ => (look fun l => Traced.ref l _).bind fun _ => heap (hf _)

theorem query [NumLt K] (q : Query K) : PTraced (q.call oh) := by
  cases q with
  | value o v r => exact readCall (fun x => (Traced.refRead x).bind fun _ => (Traced.res _).bind fun _ => Traced.ret _) r
  | text fmt r => exact readCall (fun x => (Traced.refRead x).bind fun _ => Traced.ret _) r
  | latex fmt t flag r => exact readCall (fun x => (Traced.latexRef flag x).bind fun _ => Traced.ret _) r
  | integral o r => exact readCall (fun x => (Traced.quadRef Traced.gaussA x).bind fun _ => Traced.ret _) r
  | solve o n g q =>
    refine solverCall (f := fun x => VM.newtonA o oh n g x >>= fun p => pure (Answer.point p)) (fun x => ?_) q
    exact (Traced.newtonA n g x).bind fun _ => Traced.ret _

/-- Every program with calls is a sequence of single accesses to memory. -/
theorem job [NumLt K] {o : Nat → Bool} : ∀ (p : Job K) (l : Local), ∃ c, RunsJob o p l c
  | .done, l => ⟨.done ([], l), fun _ => rfl⟩
  | .step c p q, l => by
    obtain ⟨d, hd⟩ := exec (o := o) c l
    obtain ⟨f, hf⟩ : ∃ f : Local → Code K (JobResult K), ∀ l, RunsJob o p l (f l) :=
      ⟨fun l => Classical.choose (job p l), fun l => Classical.choose_spec (job p l)⟩
    obtain ⟨g, hg⟩ : ∃ g : Local → Code K (JobResult K), ∀ l, RunsJob o q l (g l) :=
      ⟨fun l => Classical.choose (job q l), fun l => Classical.choose_spec (job q l)⟩
    refine ⟨d.bind fun
      | (.ok _, l') => f l'
      | (.error _, l') => g l', fun h => ?_⟩
    rw [Code.run_bind, Job.run, hd h]
    cases d.run h with
    | none => rfl
    | some r =>
      obtain ⟨⟨r, l'⟩, h'⟩ := r
      cases r with
      | ok a => exact hf l' h'
      | error x => exact hg l' h'
  | .query q k, l => by
    obtain ⟨d, hd⟩ := query (oh := o) q l
    obtain ⟨f, hf⟩ : ∃ f : Except Exc (Answer K) → Local → Code K (JobResult K), ∀ a l, RunsJob o (k a) l (f a l) :=
      ⟨fun a l => Classical.choose (job (k a) l), fun a l => Classical.choose_spec (job (k a) l)⟩
    refine ⟨d.bind fun r => (f r.1 r.2).bind fun x => .done (r.1 :: x.1, x.2), fun h => ?_⟩
    rw [Code.run_bind, Job.run, hd h]
    cases d.run h with
    | none => rfl
    | some r =>
      obtain ⟨⟨r, l'⟩, h'⟩ := r
      have := hf r l' h'
      simp only [Option.bind_some, Code.run_bind, this]
      cases r with
      | ok a =>
        simp only [toOutP]
        cases (k (.ok a)).run o (l'.state h') <;> rfl
      | error x =>
        simp only [toOutP]
        cases (k (.error x)).run o (l'.state h') <;> rfl

omit [Num K] in
/-- Addresses are not used again. -/
theorem next_le {m : Prog K α} (hm : PTraced m) {s s' : State K} (h : (∃ a, m s = .ok a s') ∨ ∃ x, m s = .throw x s') :
    s.heap.next ≤ s'.heap.next := by
  obtain ⟨c, hc⟩ := hm ⟨s.ptr, s.objs⟩
  have hc := hc s.heap
  change m s = _ at hc
  cases hr : c.run s.heap with
  | none =>
    rw [hr] at hc
    rcases h with ⟨a, h⟩ | ⟨a, h⟩ <;> rw [h] at hc <;> cases hc
  | some r =>
    obtain ⟨⟨r, l'⟩, h'⟩ := r
    rw [hr] at hc
    have := (Code.run_old hr).1
    cases r with
    | ok a => rcases h with ⟨a, h⟩ | ⟨a, h⟩ <;> rw [h] at hc <;> cases hc; exact this
    | error x => rcases h with ⟨a, h⟩ | ⟨a, h⟩ <;> rw [h] at hc <;> cases hc; exact this

end PTraced

end VM
