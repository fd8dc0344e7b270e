import Verif.Rt.ThreadsLemmas
import Verif.Rt.HeapLemmas
/-
Everything the library does consists of single accesses to memory.
-/
namespace VM
variable {K α β γ : Type}
open Act Run

namespace Code

def bind : Code K β → (β → Code K γ) → Code K γ
  | .done b, f => f b
  | .undefined, _ => .undefined
  | .read a k, f => .read a fun c => (k c).bind f
  | .new c k, f => .new c fun a => (k a).bind f
  | .free a k, f => .free a (k.bind f)

theorem run_bind (c : Code K β) (f : β → Code K γ) (h : Heap K) :
    (c.bind f).run h = (c.run h).bind fun r => (f r.1).run r.2 := by
  induction c generalizing h with
  | done b => rfl
  | undefined => rfl
  | read a k ih =>
    rw [bind, run, run]
    cases h.cells a with
    | none => rfl
    | some c => exact ih c h
  | new c k ih =>
    rw [bind, run, run]
    split
    · exact ih _ _
    · exact ih _ _
  | free a k ih =>
    rw [bind, run, run]
    cases h.cells a with
    | none => rfl
    | some c => exact ih _

end Code

def toOut : Option (Except Exc α × Heap K) → Out (Heap K) α
  | none => .ub
  | some (.ok a, h) => .ok a h
  | some (.error x, h) => .throw x h

/-- The code consists of single accesses to memory. -/
def Traced (m : Act K α) : Prop := ∃ c : Code K (Except Exc α), ∀ h, m h = toOut (c.run h)

/-- Runs `m`, and if it throws, `n`. -/
def handled (m : Act K α) (n : Act K β) : Act K α := fun h => match m h with
  | .throw x h' => match n h' with
    | .ok _ h'' => .throw x h''
    | _ => .ub
  | r => r

namespace Traced

theorem ret (a : α) : Traced (K := K) (pure a) := ⟨.done (.ok a), fun _ => rfl⟩

theorem bind {m : Act K α} {k : α → Act K β} (hm : Traced m) (hk : ∀ a, Traced (k a)) : Traced (m >>= k) := by
  obtain ⟨c, hc⟩ := hm
  obtain ⟨d, hd⟩ : ∃ d : α → Code K (Except Exc β), ∀ a h, k a h = toOut ((d a).run h) :=
    ⟨fun a => Classical.choose (hk a), fun a => Classical.choose_spec (hk a)⟩
  refine ⟨c.bind fun
    | .ok a => d a
    | .error x => .done (.error x), fun h => ?_⟩
  rw [Code.run_bind]
  have hc := hc h
  cases hr : c.run h with
  | none =>
    rw [hr] at hc
    exact bind_ub hc
  | some r =>
    obtain ⟨r, h'⟩ := r
    rw [hr] at hc
    cases r with
    | ok a => exact (bind_ok hc).trans (hd a h')
    | error x => exact bind_throw hc

theorem res (r : Res α) : Traced (look fun _ : Heap K => r) := by
  cases r with
  | ok a => exact ⟨.done (.ok a), fun _ => rfl⟩
  | throw x => exact ⟨.done (.error x), fun _ => rfl⟩
  | ub => exact ⟨.undefined, fun _ => rfl⟩

theorem cell (a : Nat) : Traced (K := K) (Act.cell a) := by
  refine ⟨.read a fun c => .done (.ok c), fun h => ?_⟩
  rw [Act.cell, look, Code.run]
  cases h.cells a <;> rfl

theorem new (l : Label K) (ks : List Nat) : Traced (Act.new l ks) := by
  refine ⟨.new (some ⟨l, ks⟩) fun
    | none => .done (.error .badAlloc)
    | some a => .done (.ok a), fun h => ?_⟩
  rw [Act.new, Code.run]
  cases h.fails h.next <;> rfl

theorem request : Traced (K := K) Act.request := by
  refine ⟨.new none fun
    | none => .done (.error .badAlloc)
    | some _ => .done (.ok ()), fun h => ?_⟩
  rw [Act.request, Code.run]
  cases h.fails h.next <;> rfl

theorem release (a : Nat) : Traced (K := K) (Act.release a) := by
  refine ⟨.free a (.done (.ok ())), fun h => ?_⟩
  rw [Act.release, Code.run]
  cases h.cells a <;> rfl

theorem ite {m n : Act K α} {p : Prop} [Decidable p] (hm : Traced m) (hn : Traced n) :
    Traced (if p then m else n) := by
  split
  · exact hm
  · exact hn

theorem each {f : Nat → Act K α} : ∀ ks : List Nat, (∀ k, Traced (f k)) → Traced (Act.each f ks)
  | [], _ => ret []
  | k :: ks, hf => (hf k).bind fun _ => (each ks hf).bind fun _ => ret _

/-- What is done when something throws. -/
theorem handle {m : Act K α} {n : Act K β} (hm : Traced m) (hn : Traced n) : Traced (handled m n) := by
  obtain ⟨c, hc⟩ := hm
  obtain ⟨d, hd⟩ := hn
  refine ⟨c.bind fun
    | .ok a => .done (.ok a)
    | .error x => d.bind fun
      | .ok _ => .done (.error x)
      | .error _ => .undefined, fun h => ?_⟩
  rw [Code.run_bind, handled, hc h]
  cases c.run h with
  | none => rfl
  | some r =>
    obtain ⟨r, h'⟩ := r
    cases r with
    | ok a => rfl
    | error x =>
      simp only [toOut, hd h', Option.bind_some]
      rw [Code.run_bind]
      cases d.run h' with
      | none => rfl
      | some r =>
        obtain ⟨r, h''⟩ := r
        cases r <;> rfl

/-- Functions that only read. -/
theorem look_bind {f : Heap K → Res α} {g : α → Heap K → Res β} (hf : Traced (look f)) (hg : ∀ a, Traced (look (g a))) :
    Traced (look fun h => (f h).bind fun a => g a h) := by
  have : (look fun h => (f h).bind fun a => g a h) = (look f >>= fun a => look (g a)) := by
    funext h
    cases hf : f h with
    | ok a => rw [bind_ok (look_ok hf)]; simp [look, hf]
    | throw x => rw [bind_throw (x := x) (s' := h) (by simp [look, hf])]; simp [look, hf]
    | ub => rw [bind_ub (look_ub hf)]; simp [look, hf]
  rw [this]
  exact hf.bind hg

theorem look_map {f : Heap K → Res α} {g : α → β} (hf : Traced (look f)) : Traced (look fun h => (f h).map g) := by
  have : (fun h => (f h).map g) = fun h => (f h).bind fun a => (fun _ : Heap K => Res.ok (g a)) h := by
    funext h; cases f h <;> rfl
  rw [this]
  exact hf.look_bind fun a => res _

theorem look_cell (a : Nat) : Traced (look fun h : Heap K => match h.cells a with
  | some c => .ok c
  | none => .ub) := cell a

theorem readEach {f : Nat → Heap K → Res α} (hf : ∀ k, Traced (look (f k))) :
    ∀ ks : List Nat, Traced (look fun h => VM.readEach (fun k => f k h) ks)
  | [] => res _
  | k :: ks => (hf k).look_bind fun _ => (readEach hf ks).look_map

theorem loadN : ∀ n a : Nat, Traced (look fun h : Heap K => VM.loadN h n a)
  | 0, _ => res _
  | n + 1, a => by
    have : (fun h : Heap K => VM.loadN h (n + 1) a) = fun h => (match h.cells a with
        | some c => Res.ok c
        | none => .ub).bind fun c => (fun h => (VM.readEach (VM.loadN h n) c.kids).bind fun es =>
          (fun _ : Heap K => match Expr.build c.label es with
            | some e => Res.ok e
            | none => .ub) h) h := by
      funext h
      rw [VM.loadN]
      cases h.cells a <;> rfl
    rw [this]
    exact (look_cell a).look_bind fun c => (readEach (fun k => loadN n k) c.kids).look_bind fun es => res _

theorem load (a : Nat) : Traced (look fun h : Heap K => VM.load a h) := loadN _ _

theorem follow : ∀ (ks : List Nat) (a : Nat), Traced (look fun h : Heap K => VM.follow h a ks)
  | [], a => res _
  | k :: ks, a => by
    have : (fun h : Heap K => VM.follow h a (k :: ks)) = fun h => (match h.cells a with
        | some c => Res.ok c
        | none => .ub).bind fun c => (fun h => match c.kids[k]? with
          | none => Res.ub
          | some b => VM.follow h b ks) h := by
      funext h
      rw [VM.follow]
      cases h.cells a <;> rfl
    rw [this]
    refine (look_cell a).look_bind fun c => ?_
    cases c.kids[k]? with
    | none => exact res _
    | some b => exact follow ks b

theorem cloneN : ∀ n a : Nat, Traced (K := K) (VM.cloneN n a)
  | 0, _ => res _
  | n + 1, a => (cell a).bind fun c => (each c.kids (cloneN n)).bind fun _ => new _ _

theorem clone (a : Nat) : Traced (K := K) (VM.clone a) := cloneN _ _

theorem deleteN : ∀ n a : Nat, Traced (K := K) (VM.deleteN n a)
  | 0, _ => res _
  | n + 1, a => (cell a).bind fun c => (each c.kids (deleteN n)).bind fun _ => release _

theorem delete (a : Nat) : Traced (K := K) (VM.delete a) := deleteN _ _

variable [Num K]
set_option linter.unusedSectionVars false

theorem ask (q : Expr K → Res α) (a : Nat) : Traced (VM.ask q a) := (load a).look_bind fun e => res (q e)

omit [Num K] in
theorem newConst (c : K) : Traced (VM.newConst c) := new _ _

theorem newUn {op : UOp} {f : Act K Nat} (hf : Traced f) : Traced (VM.newUn op f) := hf.bind fun _ => new _ _

theorem newBin {b : Bool} {op : BOp} {f g : Act K Nat} (hf : Traced f) (hg : Traced g) : Traced (VM.newBin b op f g) := by
  unfold VM.newBin
  exact ite (hf.bind fun _ => hg.bind fun _ => new _ _) (hg.bind fun _ => hf.bind fun _ => new _ _)

theorem newInteg {b : Bool} {lo hi x : Nat} {f : Act K Nat} (hf : Traced f) : Traced (VM.newInteg b lo hi x f) := by
  unfold VM.newInteg
  exact ite (hf.bind fun _ => (clone _).bind fun _ => (clone _).bind fun _ => new _ _)
    ((clone _).bind fun _ => (clone _).bind fun _ => hf.bind fun _ => new _ _)

theorem owning {as : List Nat} {m : Act K β} (hm : Traced m) : Traced (VM.owning as m) := by
  have : VM.owning as m = handled m (Act.each VM.delete as) := by
    funext h
    unfold VM.owning handled
    cases m h with
    | throw x h' =>
      simp only
      cases Act.each VM.delete as h' <;> rfl
    | ok a h' => rfl
    | ub => rfl
  rw [this]
  exact hm.handle (each as delete)

theorem viaTemp {f : Act K Nat} (hf : Traced f) : Traced (VM.viaTemp f) :=
  hf.bind fun _ => (clone _).owning.bind fun _ => (delete _).bind fun _ => ret _

theorem dotFromA {o : Nat → Bool} : ∀ (ls rs : List Nat) (acc : Nat), Traced (K := K) (VM.dotFromA o acc ls rs)
  | _ :: ls, _ :: rs, _ => (newBin (clone _) (clone _)).owning.bind fun _ =>
      (newBin (clone _) (clone _)).owning.bind fun _ => (clone _).owning.bind fun _ => (delete _).bind fun _ =>
      (delete _).bind fun _ => (delete _).bind fun _ => dotFromA ls rs _
  | [], [], _ => ret _
  | [], _ :: _, _ => ret _
  | _ :: _, [], _ => ret _

theorem dotA {o : Nat → Bool} : ∀ ls rs : List Nat, Traced (K := K) (VM.dotA o ls rs)
  | _ :: _, _ :: _ => ite (viaTemp ((newBin (clone _) (clone _)).bind fun _ => dotFromA _ _ _)) (res _)
  | [], [] => res .ub
  | [], _ :: _ => res .ub
  | _ :: _, [] => res .ub

theorem askConst (a : Nat) : Traced (K := K) (VM.askConst a) := ask _ _

theorem simpBinA {o : Nat → Bool} {b : Bool} {op : BOp} {l r : Nat} {sl sr : Act K Nat} (hl : Traced sl) (hr : Traced sr) :
    Traced (VM.simpBinA o b op l r sl sr) := by
  cases op with
  | plus =>
    exact (askConst _).bind fun _ => ite ((ask _ _).bind fun _ => ite hr (newBin (newConst _) hr))
      ((askConst _).bind fun _ => ite ((ask _ _).bind fun _ => ite hl (newBin hl (newConst _))) (newBin hl hr))
  | minus =>
    exact (askConst _).bind fun _ => ite ((ask _ _).bind fun _ => ite (newBin (newConst _) hr) (newBin (newConst _) hr))
      ((askConst _).bind fun _ => ite ((ask _ _).bind fun _ => ite hl (newBin hl (newConst _))) (newBin hl hr))
  | mult =>
    refine (askConst _).bind fun _ => ite ((ask _ _).bind fun _ => ite (newConst _) (ite hr (newBin (newConst _) hr)))
      ((askConst _).bind fun _ => ite ((ask _ _).bind fun _ => ite (newConst _) (ite hl (newBin hl (newConst _))))
        ((cell _).bind fun c => (cell _).bind fun d => ?_))
    split
    · exact dotA _ _
    · exact newBin hl hr
  | div =>
    exact (askConst _).bind fun _ => ite ((ask _ _).bind fun _ => ite (newConst _) (newBin (newConst _) hr))
      ((askConst _).bind fun _ => ite ((ask _ _).bind fun _ => ite hl (newBin hl (newConst _))) (newBin hl hr))
  | uid => exact newBin (clone _) (clone _)

theorem simplifyN {o : Nat → Bool} : ∀ n a : Nat, Traced (K := K) (VM.simplifyN o n a)
  | 0, _ => res _
  | n + 1, a => by
    refine (cell a).bind fun c => ?_
    split
    · refine (askConst _).bind fun _ => ite ((ask _ _).bind fun _ => ite ((res _).bind fun _ => newConst _)
        (newUn (newConst _))) (newUn (simplifyN n _))
    · exact (askConst _).bind fun _ => ite ((ask _ _).bind fun _ => newInteg (newConst _)) (newInteg (simplifyN n _))
    · exact (askConst _).bind fun _ => (askConst _).bind fun _ => ite ((ask _ _).bind fun _ => newConst _)
        (simpBinA (simplifyN n _) (simplifyN n _))
    · exact clone _

theorem simplifyA {o : Nat → Bool} (a : Nat) : Traced (K := K) (VM.simplifyA o a) := simplifyN _ _

theorem loopA {o : Nat → Bool} : ∀ n a : Nat, Traced (K := K) (VM.loopA o n a)
  | 0, _ => res _
  | n + 1, _ => (ask _ _).owning.bind fun _ => ite ((simplifyA _).owning.bind fun _ => (delete _).bind fun _ => loopA n _)
      (ret _)

theorem simplifiedA {o : Nat → Bool} (a : Nat) : Traced (K := K) (VM.simplifiedA o a) := (ask _ _).bind fun _ => loopA _ _

theorem diffFnA {b : Bool} {f : Fn} {e : Nat} {d : Act K Nat} (hd : Traced d) : Traced (VM.diffFnA b f e d) := by
  cases f with
  | id => exact hd
  | exp => exact newBin (newUn (clone _)) hd
  | sin => exact newBin (newUn (clone _)) hd
  | cos => exact newBin (newUn (clone _)) (newBin (newConst _) hd)
  | tan => exact newBin hd (newBin (newUn (clone _)) (newUn (clone _)))
  | fabs => exact res (.throw .notDifferentiable)
  | sqrt => exact newBin hd (newBin (newConst _) (newUn (clone _)))
  | log => exact newBin hd (newUn (clone _))
  | log10 => exact newBin hd (newBin (newConst _) (newUn (clone _)))

theorem diffBinA {b : Bool} {op : BOp} {l r : Nat} {dl dr : Act K Nat} (hl : Traced dl) (hr : Traced dr) :
    Traced (VM.diffBinA b op l r dl dr) := by
  cases op with
  | plus => exact newBin hl hr
  | minus => exact newBin hl hr
  | mult => exact newBin (newBin hl (clone _)) (newBin (clone _) hr)
  | div => exact newBin (newBin (newBin hl (clone _)) (newBin (clone _) hr)) (newBin (clone _) (clone _))
  | uid => exact res (.throw .rhsForUnary)

theorem entriesA {f : Nat → Act K Nat} (hf : ∀ a, Traced (f a)) : ∀ as : List Nat, Traced (VM.entriesA f as)
  | [] => ret _
  | a :: as => (viaTemp (hf a)).bind fun _ => (entriesA hf as).bind fun _ => ret _

theorem diffUnA {b : Bool} {x : DVar} {op : UOp} {e : Nat} {d : Act K Nat} (hd : Traced d) :
    Traced (VM.diffUnA b x op e d) := by
  rw [VM.diffUnA.eq_def]
  split
  · exact diffFnA hd
  · split
    · exact res _
    · exact (newConst _).bind fun _ => hd.bind fun _ => (ask _ _).bind fun _ =>
        ite ((delete _).bind fun _ => ret _) ((delete _).bind fun _ => newUn hd)
  · exact res _

theorem diffN {o : Nat → Bool} {x : DVar} : ∀ n a : Nat, Traced (K := K) (VM.diffN o x n a)
  | 0, _ => res _
  | n + 1, a => by
    refine (cell a).bind fun c => ?_
    split
    · exact newConst _
    · exact newConst _
    · split
      · exact res _
      · exact newConst _
    · exact diffUnA (diffN n _)
    · exact res _
    · exact diffBinA (diffN n _) (diffN n _)
    · exact (entriesA (diffN n) _).bind fun _ => new _ _
    · exact res _

theorem diffA {o : Nat → Bool} {x : DVar} (a : Nat) : Traced (K := K) (VM.diffA o x a) := diffN _ _

theorem findA {a : Nat} {miss : Act K Nat} (hm : Traced miss) : ∀ {ss : List (Act K (Expr K))}
    {rs : List (Act K Nat)}, (∀ s ∈ ss, Traced s) → (∀ r ∈ rs, Traced r) → Traced (VM.findA a miss ss rs)
  | [], _, _, _ => hm
  | s :: ss, rs, hs, hr => by
    unfold VM.findA
    refine (hs s (by simp)).bind fun s' => (ask _ _).bind fun _ => ite ?_
      (findA hm (fun s h => hs s (by simp [h])) fun r h => hr r (List.mem_of_mem_tail h))
    cases rs with
    | nil => exact res _
    | cons r rs => exact hr r (by simp)

theorem substN {o : Nat → Bool} {ss : List (Act K (Expr K))} {rs : List (Act K Nat)} (hs : ∀ s ∈ ss, Traced s)
    (hr : ∀ r ∈ rs, Traced r) : ∀ n a : Nat, Traced (VM.substN o ss rs n a)
  | 0, _ => res _
  | n + 1, a => by
    refine (cell a).bind fun c => findA ?_ hs hr
    split
    · exact newUn (substN hs hr n _)
    · exact newInteg (substN hs hr n _)
    · exact newBin (substN hs hr n _) (substN hs hr n _)
    · exact (entriesA (substN hs hr n) _).bind fun _ => new _ _
    · exact clone _

theorem substA {o : Nat → Bool} {s : Act K (Expr K)} {r : Act K Nat} (hs : Traced s) (hr : Traced r) (a : Nat) :
    Traced (VM.substA o s r a) := substN (by simpa using hs) (by simpa using hr) _ _

theorem substBinA {o : Nat → Bool} {s : Act K (Expr K)} {r : Act K Nat} (hs : Traced s) (hr : Traced r) {op : BOp}
    {e f : Nat} : Traced (VM.substBinA o s r op e f) :=
  hs.bind fun _ => (ask _ _).bind fun _ => (ask _ _).bind fun _ => (res _).bind fun _ =>
    ite hr (newBin (substA hs hr _) (substA hs hr _))

theorem substUnA {o : Nat → Bool} {s : Act K (Expr K)} {r : Act K Nat} (hs : Traced s) (hr : Traced r) {op : UOp}
    {k : Nat} : Traced (VM.substUnA o s r op k) :=
  hs.bind fun _ => (ask _ _).bind fun _ => (res _).bind fun _ => ite hr (newUn (substA hs hr _))

theorem manipN {o : Nat → Bool} {lo hi x : Nat} : ∀ n a : Nat, Traced (K := K) (VM.manipN o lo hi x n a)
  | 0, _ => res _
  | n + 1, a => by
    refine (cell a).bind fun c => ?_
    split
    · exact newInteg (clone _)
    · exact newUn (manipN n _)
    · exact newInteg (manipN n _)
    · exact newBin (manipN n _) (manipN n _)
    · exact clone _

theorem refClone (r : Ref) : Traced (K := K) r.clone := by
  cases r with
  | node a => exact clone a
  | whole op l r => exact newBin (clone _) (clone _)
  | single op k => exact newUn (clone _)

theorem refRead (r : Ref) : Traced (K := K) r.read := by
  cases r with
  | node a => exact ask _ _
  | whole op l r => exact (ask _ _).bind fun _ => (ask _ _).bind fun _ => ret _
  | single op k => exact (ask _ _).bind fun _ => ret _

theorem refDiff {o : Nat → Bool} {x : DVar} (r : Ref) : Traced (K := K) (r.diff o x) := by
  cases r with
  | node a => exact diffA _
  | whole op l r => exact diffBinA (diffA _) (diffA _)
  | single op k => exact diffUnA (diffA _)

theorem refSubst {o : Nat → Bool} (s t r : Ref) : Traced (K := K) (Ref.subst o s t r) := by
  cases r with
  | node a => exact substA (refRead _) (refClone _) _
  | whole op l r => exact substBinA (refRead _) (refClone _)
  | single op k => exact substUnA (refRead _) (refClone _)

theorem refSubstMany {o : Nat → Bool} (ss ts : List Ref) (r : Ref) : Traced (K := K) (Ref.substMany o ss ts r) := by
  cases r with
  | node a =>
    refine substN ?_ ?_ _ _
    · intro s h
      obtain ⟨x, -, rfl⟩ := List.mem_map.1 h
      exact refRead x
    · intro s h
      obtain ⟨x, -, rfl⟩ := List.mem_map.1 h
      exact refClone x
  | whole op l r => exact res .ub
  | single op k => exact res .ub

theorem refManip {o : Nat → Bool} {lo hi x : Nat} (r : Ref) : Traced (K := K) (r.manip o lo hi x) := by
  cases r with
  | node a => exact manipN _ _
  | whole op l r => exact res .ub
  | single op k => exact res .ub

theorem refCloneAll : ∀ rs : List Ref, Traced (K := K) (Ref.cloneAll rs)
  | [] => ret _
  | r :: rs => (refClone r).bind fun _ => (refCloneAll rs).owning.bind fun _ => ret _

theorem withBounds {lo hi : Act K Nat} {k : Nat → Nat → Act K Nat} (hl : Traced lo) (hh : Traced hi)
    (hk : ∀ a b, Traced (k a b)) : Traced (VM.withBounds lo hi k) :=
  hl.bind fun _ => hh.owning.bind fun _ => (hk _ _).owning.bind fun _ => (delete _).bind fun _ => (delete _).bind fun _ =>
    ret _

theorem fromCt : ∀ c : Ct.CtExpr, Traced (K := K) (VM.fromCt c)
  | .const _ => newConst _
  | .var _ => new _ _
  | .fsym _ => res _
  | .bin l _ r => (fromCt l).bind fun _ => (fromCt r).owning.bind fun _ => (new _ _).owning

theorem act {o : Nat → Bool} (rhs : Rhs K) (xs : List Ref) : Traced (rhs.act o xs) := by
  unfold Rhs.act
  split
  · exact newConst _
  · exact new _ _
  · exact new _ _
  · exact fromCt _
  · exact refClone _
  · exact newBin (refClone _) (refClone _)
  · exact newUn (refClone _)
  · exact withBounds (refClone _) (refClone _) fun _ _ => newInteg (refClone _)
  · exact viaTemp ((refCloneAll _).bind fun _ => (new _ _).owning)
  · exact (refClone _).bind fun _ => simplifiedA _
  · exact (refDiff _).bind fun _ => simplifiedA _
  · exact (refSubst _ _ _).bind fun _ => simplifiedA _
  · split
    · split
      · exact (refSubstMany _ _ _).bind fun _ => simplifiedA _
      · exact res _
    · exact res _
  · exact withBounds (refClone _) (refClone _) fun _ _ => refManip _
  · exact res _

end Traced

/-! ### Programs -/

def toOutP : Option ((Except Exc α × Local) × Heap K) → Out (State K) α
  | none => .ub
  | some ((.ok a, l), h) => .ok a (l.state h)
  | some ((.error x, l), h) => .throw x (l.state h)

/-- The program consists of single accesses to memory, and of work on its own variables. -/
def PTraced (m : Prog K α) : Prop :=
  ∀ l : Local, ∃ c : Code K (Except Exc α × Local), ∀ h, m (l.state h) = toOutP (c.run h)

namespace PTraced

theorem ret (a : α) : PTraced (K := K) (pure a) := fun l => ⟨.done (.ok a, l), fun _ => rfl⟩

theorem bind {m : Prog K α} {k : α → Prog K β} (hm : PTraced m) (hk : ∀ a, PTraced (k a)) : PTraced (m >>= k) := by
  intro l
  obtain ⟨c, hc⟩ := hm l
  obtain ⟨d, hd⟩ : ∃ d : α → Local → Code K (Except Exc β × Local), ∀ a l h, k a (l.state h) = toOutP ((d a l).run h) :=
    ⟨fun a l => Classical.choose (hk a l), fun a l => Classical.choose_spec (hk a l)⟩
  refine ⟨c.bind fun
    | (.ok a, l') => d a l'
    | (.error x, l') => .done (.error x, l'), fun h => ?_⟩
  rw [Code.run_bind]
  have hc := hc h
  cases hr : c.run h with
  | none =>
    rw [hr] at hc
    exact bind_ub hc
  | some r =>
    obtain ⟨⟨r, l'⟩, h'⟩ := r
    rw [hr] at hc
    cases r with
    | ok a => exact (bind_ok hc).trans (hd a l' h')
    | error x => exact bind_throw hc

theorem heap {m : Act K α} (hm : Traced m) : PTraced (Prog.heap m) := by
  intro l
  obtain ⟨c, hc⟩ := hm
  refine ⟨c.bind fun r => .done (r, l), fun h => ?_⟩
  rw [Code.run_bind, Prog.heap, show m (l.state h).heap = _ from hc h]
  cases c.run h with
  | none => rfl
  | some r =>
    obtain ⟨r, h'⟩ := r
    cases r <;> rfl

theorem setPtr (p : Ptr) (a : Option Nat) : PTraced (K := K) (Prog.setPtr p a) := fun l =>
  ⟨.done (.ok (), ⟨fun q => if q = p then a else l.ptr q, l.objs⟩), fun _ => rfl⟩

theorem setObj (i : Nat) (k : Option Kind) : PTraced (K := K) (Prog.setObj i k) := fun l =>
  ⟨.done (.ok (), ⟨l.ptr, fun j => if j = i then k else l.objs j⟩), fun _ => rfl⟩

theorem look {f : State K → Res α} (hf : ∀ l : Local, Traced (Run.look fun h => f (l.state h))) :
    PTraced (Run.look f) := by
  intro l
  obtain ⟨c, hc⟩ := hf l
  refine ⟨c.bind fun r => .done (r, l), fun h => ?_⟩
  have := hc h
  rw [Code.run_bind]
  simp only [Run.look] at this ⊢
  -- reading does not change the memory
  cases hr : c.run h with
  | none =>
    rw [hr] at this
    cases hs : f (l.state h) <;> rw [hs] at this <;> first | rfl | cases this
  | some r =>
    obtain ⟨r, h'⟩ := r
    rw [hr] at this
    cases hs : f (l.state h) <;> rw [hs] at this <;> cases r <;> cases this <;> rfl

theorem res (r : Res α) : PTraced (Run.look fun _ : State K => r) := look fun _ => Traced.res r

theorem reset (p : Ptr) (a : Option Nat) : PTraced (K := K) (Prog.reset p a) := by
  refine bind (look fun l => Traced.res (.ok (l.ptr p))) fun x => ?_
  cases x with
  | none => exact setPtr _ _
  | some b => exact bind (heap (Traced.delete b)) fun _ => setPtr _ _

theorem ite {m n : Prog K α} {p : Prop} [Decidable p] (hm : PTraced m) (hn : PTraced n) :
    PTraced (if p then m else n) := by
  split
  · exact hm
  · exact hn

theorem unwinding (p : Ptr) {m : Prog K α} (hm : PTraced m) : PTraced (Prog.unwinding p m) := by
  intro l
  obtain ⟨c, hc⟩ := hm l
  obtain ⟨d, hd⟩ : ∃ d : Local → Code K (Except Exc Unit × Local), ∀ l h,
      Prog.reset p none (l.state h) = toOutP ((d l).run h) :=
    ⟨fun l => Classical.choose (reset p none l), fun l => Classical.choose_spec (reset p none l)⟩
  refine ⟨c.bind fun
    | (.ok a, l') => .done (.ok a, l')
    | (.error x, l') => (d l').bind fun
      | (.ok _, l'') => .done (.error x, l'')
      | (.error _, _) => .undefined, fun h => ?_⟩
  rw [Code.run_bind, Prog.unwinding, hc h]
  cases c.run h with
  | none => rfl
  | some r =>
    obtain ⟨⟨r, l'⟩, h'⟩ := r
    cases r with
    | ok a => rfl
    | error x =>
      simp only [toOutP, hd l' h', Option.bind_some]
      rw [Code.run_bind]
      cases (d l').run h' with
      | none => rfl
      | some r =>
        obtain ⟨⟨r, l''⟩, h''⟩ := r
        cases r <;> rfl

end PTraced

namespace Traced

theorem target (l : Local) (r : Src) : Traced (look fun h : Heap K => (l.state h).target r) := by
  cases ho : l.objs r.obj with
  | none =>
    rw [show (fun h : Heap K => (l.state h).target r) = fun _ => .ub from funext fun h => by simp [State.target, Local.state, ho]]
    exact res _
  | some k =>
    cases k with
    | expr =>
      cases hp : l.ptr (.one r.obj) with
      | none =>
        cases hk : r.path with
        | nil =>
          rw [show (fun h : Heap K => (l.state h).target r) = fun _ => .ok .null from
            funext fun h => by simp [State.target, Local.state, ho, hp, hk]]
          exact res _
        | cons n ks =>
          rw [show (fun h : Heap K => (l.state h).target r) = fun _ => .ub from
            funext fun h => by simp [State.target, Local.state, ho, hp, hk]]
          exact res _
      | some a =>
        rw [show (fun h : Heap K => (l.state h).target r) = fun h => (VM.follow h a r.path).map .node from
          funext fun h => by simp [State.target, Local.state, ho, hp]]
        exact (follow _ a).look_map
    | bin op =>
      cases hk : r.path with
      | nil =>
        rw [show (fun h : Heap K => (l.state h).target r) = fun _ => .ok (.binObj r.obj) from
          funext fun h => by simp [State.target, Local.state, ho, hk]]
        exact res _
      | cons n ks =>
        match n, hk with
        | 0, hk =>
          cases hp : l.ptr (.one r.obj) with
          | none =>
            rw [show (fun h : Heap K => (l.state h).target r) = fun _ => .ub from
              funext fun h => by simp [State.target, Local.state, ho, hp, hk]]
            exact res _
          | some a =>
            rw [show (fun h : Heap K => (l.state h).target r) = fun h => (VM.follow h a ks).map .node from
              funext fun h => by simp [State.target, Local.state, ho, hp, hk]]
            exact (follow _ a).look_map
        | 1, hk =>
          cases hp : l.ptr (.two r.obj) with
          | none =>
            rw [show (fun h : Heap K => (l.state h).target r) = fun _ => .ub from
              funext fun h => by simp [State.target, Local.state, ho, hp, hk]]
            exact res _
          | some a =>
            rw [show (fun h : Heap K => (l.state h).target r) = fun h => (VM.follow h a ks).map .node from
              funext fun h => by simp [State.target, Local.state, ho, hp, hk]]
            exact (follow _ a).look_map
        | n + 2, hk =>
          rw [show (fun h : Heap K => (l.state h).target r) = fun _ => .ub from
            funext fun h => by simp [State.target, Local.state, ho, hk]]
          exact res _
    | un op =>
      cases hk : r.path with
      | nil =>
        rw [show (fun h : Heap K => (l.state h).target r) = fun _ => .ok (.unObj r.obj) from
          funext fun h => by simp [State.target, Local.state, ho, hk]]
        exact res _
      | cons n ks =>
        match n, hk with
        | 0, hk =>
          cases hp : l.ptr (.one r.obj) with
          | none =>
            rw [show (fun h : Heap K => (l.state h).target r) = fun _ => .ub from
              funext fun h => by simp [State.target, Local.state, ho, hp, hk]]
            exact res _
          | some a =>
            rw [show (fun h : Heap K => (l.state h).target r) = fun h => (VM.follow h a ks).map .node from
              funext fun h => by simp [State.target, Local.state, ho, hp, hk]]
            exact (follow _ a).look_map
        | n + 1, hk =>
          rw [show (fun h : Heap K => (l.state h).target r) = fun _ => .ub from
            funext fun h => by simp [State.target, Local.state, ho, hk]]
          exact res _

/-- Whether a reference is NULL is known without looking at the memory. -/
theorem target_null (l : Local) (r : Src) (h h' : Heap K) :
    ((l.state h).target r = .ok .null) → (l.state h').target r = .ok .null := by
  simp only [State.target, Local.state]
  split
  · exact id
  · split
    · exact id
    · exact id
    · intro hm
      cases hf : VM.follow h _ r.path <;> rw [hf] at hm <;> cases hm
  · split
    · exact id
    · split
      · exact id
      · intro hm
        rename_i ks _ _ _ _
        cases hf : VM.follow h _ ks <;> rw [hf] at hm <;> cases hm
    · split
      · exact id
      · intro hm
        rename_i ks _ _ _ _
        cases hf : VM.follow h _ ks <;> rw [hf] at hm <;> cases hm
    · exact id
  · split
    · exact id
    · split
      · exact id
      · intro hm
        rename_i ks _ _ _ _
        cases hf : VM.follow h _ ks <;> rw [hf] at hm <;> cases hm
    · exact id

/-- Some memory. -/
def dummy : Heap K := ⟨fun _ => none, 0, fun _ => false⟩

theorem ref (l : Local) (r : Src) : Traced (look fun h : Heap K => (l.state h).ref r) := by
  refine (target l r).look_bind fun t => ?_
  cases t with
  | null => exact res .ub
  | node a => exact res (.ok (Ref.node a))
  | binObj i =>
    simp only [Local.state]
    exact res _
  | unObj i =>
    simp only [Local.state]
    exact res _

theorem refs (l : Local) : ∀ rs : List Src, Traced (look fun h : Heap K => (l.state h).refs rs)
  | [] => res _
  | r :: rs => (ref l r).look_bind fun _ => (refs l rs).look_map

theorem binParts (l : Local) (t : Target) : Traced (look fun h : Heap K => (l.state h).binParts t) := by
  cases t with
  | null => exact res _
  | node a =>
    have : (fun h : Heap K => (l.state h).binParts (.node a)) = fun h => (match h.cells a with
        | some c => Res.ok c
        | none => .ub).bind fun c => (fun _ : Heap K => match (some c : Option (Cell K)) with
          | some ⟨.bin op, [l, r]⟩ => Res.ok (op, l, r)
          | _ => .ub) h := by
      funext h
      show (match h.cells a with
        | some ⟨.bin op, [l, r]⟩ => Res.ok (op, l, r)
        | _ => .ub) = _
      cases h.cells a <;> rfl
    rw [this]
    exact (look_cell a).look_bind fun c => res _
  | binObj i => exact res ((l.state (dummy (K := K))).binParts (.binObj i))
  | unObj i => exact res _

theorem unParts (l : Local) (t : Target) : Traced (look fun h : Heap K => (l.state h).unParts t) := by
  cases t with
  | null => exact res _
  | node a =>
    have : (fun h : Heap K => (l.state h).unParts (.node a)) = fun h => (match h.cells a with
        | some c => Res.ok c
        | none => .ub).bind fun c => (fun _ : Heap K => match (some c : Option (Cell K)) with
          | some ⟨.un op, [k]⟩ => Res.ok (op, k)
          | _ => .ub) h := by
      funext h
      show (match h.cells a with
        | some ⟨.un op, [k]⟩ => Res.ok (op, k)
        | _ => .ub) = _
      cases h.cells a <;> rfl
    rw [this]
    exact (look_cell a).look_bind fun c => res _
  | binObj i => exact res _
  | unObj i => exact res ((l.state (dummy (K := K))).unParts (.unObj i))

end Traced

namespace PTraced
variable [Num K]

theorem create {o : Nat → Bool} (rhs : Rhs K) : PTraced (VM.create o rhs) :=
  (look fun l => Traced.refs l _).bind fun _ => heap (Traced.act _ _)

omit [Num K] in
theorem isNull (rhs : Rhs K) : PTraced (Run.look fun s : State K => .ok (s.isNull rhs)) := by
  refine look fun l => ?_
  have : ∀ h h', (l.state h).isNull rhs = (l.state h').isNull rhs := by
    have key : ∀ h h', (l.state h).isNull rhs = true → (l.state h').isNull rhs = true := by
      intro h h' hn
      cases rhs with
      | copy r =>
        simp only [State.isNull] at hn ⊢
        split at hn
        · rename_i ht
          rw [Traced.target_null l r h h' ht]
        · cases hn
      | _ => cases hn
    intro h h'
    exact Bool.eq_iff_iff.2 ⟨key h h', key h' h⟩
  rw [show (fun h : Heap K => Res.ok ((l.state h).isNull rhs)) =
    fun _ => .ok ((l.state (Traced.dummy (K := K))).isNull rhs) from funext fun h => by rw [this]]
  exact Traced.res _

theorem inplaceLoop {o : Nat → Bool} {i : Nat} : ∀ n, PTraced (K := K) (VM.inplaceLoop o i n)
  | 0 => res _
  | n + 1 => by
    refine bind (look fun l => Traced.res (.ok (l.ptr (.one i)))) fun x => ?_
    cases x with
    | none => exact res _
    | some a =>
      exact (heap (Traced.ask _ _)).bind fun _ => ite ((heap (Traced.simplifyA _)).bind fun _ =>
        (reset _ _).bind fun _ => inplaceLoop n) (ret _)

theorem exec {o : Nat → Bool} (c : Stmt K) : PTraced (VM.exec o c) := by
  cases c with
  | decl i =>
    refine bind (look fun l => Traced.res (.ok (l.objs i))) fun x => ?_
    cases x with
    | none => exact setObj _ _
    | some _ => exact res _
  | init i rhs =>
    refine bind (look fun l => Traced.res (.ok (l.objs i))) fun x => ?_
    cases x with
    | none => exact (isNull _).bind fun _ => ite (setObj _ _) ((create _).bind fun _ => (setObj _ _).bind fun _ => reset _ _)
    | some _ => exact res _
  | assign i rhs =>
    refine bind (look fun l => Traced.res (.ok (l.objs i))) fun x => ?_
    split
    · split
      · exact (create _).bind fun _ => reset _ _
      · exact (create _).bind fun _ => reset _ _
      · exact (create _).bind fun _ => reset _ _
      · exact (create _).bind fun _ => (reset _ _).bind fun _ => (unwinding _ (heap (Traced.clone _))).bind fun _ =>
          (reset _ _).bind fun _ => reset _ _
    · exact res _
  | inplace i =>
    refine bind (look fun l => Traced.res (.ok (l.objs i, l.ptr (.one i)))) fun x => ?_
    split
    · exact (heap (Traced.ask _ _)).bind fun _ => inplaceLoop _
    · exact res _
  | declBin i =>
    refine bind (look fun l => Traced.res (.ok (l.objs i))) fun x => ?_
    cases x with
    | none => exact setObj _ _
    | some _ => exact res _
  | initBin i op l r =>
    refine bind (look fun l => Traced.res (.ok (l.objs i))) fun x => ?_
    cases x with
    | none =>
      exact (look fun _ => Traced.ref _ _).bind fun _ => (look fun _ => Traced.ref _ _).bind fun _ =>
        (heap (Traced.refClone _)).bind fun _ => (heap (Traced.refClone _)).bind fun _ => (setObj _ _).bind fun _ =>
        (reset _ _).bind fun _ => reset _ _
    | some _ => exact res _
  | assignBin i r =>
    refine bind (look fun l => Traced.res (.ok (l.objs i))) fun x => ?_
    split
    · exact (look fun _ => Traced.target _ _).bind fun t => (look fun _ => Traced.binParts _ t).bind fun _ =>
        (heap (Traced.clone _)).bind fun _ => (reset _ _).bind fun _ => (look fun _ => Traced.binParts _ t).bind fun _ =>
        (heap Traced.request).bind fun _ => (setObj _ _).bind fun _ => (look fun _ => Traced.binParts _ t).bind fun _ =>
        (heap (Traced.clone _)).bind fun _ => reset _ _
    · exact res _
  | assignNum i c =>
    refine bind (look fun l => Traced.res (.ok (l.objs i))) fun x => ?_
    split
    · exact (heap (Traced.newConst _)).bind fun _ => (reset _ _).bind fun _ => (heap Traced.request).bind fun _ =>
        (setObj _ _).bind fun _ => (heap (Traced.newConst _)).bind fun _ => reset _ _
    · exact res _
  | declUn i =>
    refine bind (look fun l => Traced.res (.ok (l.objs i))) fun x => ?_
    cases x with
    | none => exact setObj _ _
    | some _ => exact res _
  | initUn i op r =>
    refine bind (look fun l => Traced.res (.ok (l.objs i))) fun x => ?_
    cases x with
    | none =>
      exact (look fun _ => Traced.ref _ _).bind fun _ => (heap (Traced.refClone _)).bind fun _ =>
        (heap Traced.request).bind fun _ => (setObj _ _).bind fun _ => reset _ _
    | some _ => exact res _
  | wrapUn i r =>
    refine bind (look fun l => Traced.res (.ok (l.objs i))) fun x => ?_
    cases x with
    | none =>
      exact (look fun _ => Traced.ref _ _).bind fun _ => (heap (Traced.refClone _)).bind fun _ =>
        (heap Traced.request.owning).bind fun _ => (setObj _ _).bind fun _ => reset _ _
    | some _ => exact res _
  | copyUn i r =>
    refine bind (look fun l => Traced.res (.ok (l.objs i))) fun x => ?_
    cases x with
    | none =>
      exact (look fun _ => Traced.target _ _).bind fun t => (look fun _ => Traced.unParts _ t).bind fun _ =>
        (heap (Traced.clone _)).bind fun _ => (heap Traced.request.owning).bind fun _ => (setObj _ _).bind fun _ =>
        reset _ _
    | some _ => exact res _
  | numUn i c =>
    refine bind (look fun l => Traced.res (.ok (l.objs i))) fun x => ?_
    split
    · exact (heap (Traced.newConst _)).bind fun _ => (reset _ _).bind fun _ => (heap Traced.request).bind fun _ =>
        setObj _ _
    · exact res _
  | destroy i =>
    refine bind (look fun l => Traced.res (.ok (l.objs i))) fun x => ?_
    cases x with
    | none => exact res _
    | some _ => exact (reset _ _).bind fun _ => (reset _ _).bind fun _ => setObj _ _

/-- Every program of the user is a sequence of single accesses to memory. -/
theorem client {o : Nat → Bool} : ∀ (p : Client K) (l : Local), ∃ c, Runs o p l c
  | .done, l => ⟨.done l, fun _ => rfl⟩
  | .step c p q, l => by
    obtain ⟨d, hd⟩ := exec (o := o) c l
    obtain ⟨f, hf⟩ : ∃ f : Local → Code K Local, ∀ l, Runs o p l (f l) :=
      ⟨fun l => Classical.choose (client p l), fun l => Classical.choose_spec (client p l)⟩
    obtain ⟨g, hg⟩ : ∃ g : Local → Code K Local, ∀ l, Runs o q l (g l) :=
      ⟨fun l => Classical.choose (client q l), fun l => Classical.choose_spec (client q l)⟩
    refine ⟨d.bind fun
      | (.ok _, l') => f l'
      | (.error _, l') => g l', fun h => ?_⟩
    rw [Code.run_bind, Client.run, hd h]
    cases d.run h with
    | none => rfl
    | some r =>
      obtain ⟨⟨r, l'⟩, h'⟩ := r
      cases r with
      | ok a => exact hf l' h'
      | error x => exact hg l' h'

end PTraced

end VM
