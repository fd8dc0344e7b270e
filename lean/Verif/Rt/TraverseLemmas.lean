import Verif.Rt.Traverse
import Verif.Spec.Traverse
import Verif.Spec.Subst
/-
Lemmas about traversal and manipulation.
-/
namespace VM
open Spec
variable {K σ : Type}

theorem callAll_append (f : Expr K → σ → Res σ) (es fs : List (Expr K)) (s : σ) :
    callAll f (es ++ fs) s = (callAll f es s).bind (callAll f fs) := by
  induction es generalizing s with
  | nil => rfl
  | cons e es ih =>
    simp only [List.cons_append, callAll]
    cases f e s <;> simp [ih]

/-- The positions and nodes visited (helper for the proof of `C25_traversal`). -/
def visits (step : Expr K → Bool) : Expr K → List (List Dir × Expr K)
  | .un op e => ([], .un op e) :: (visits step e).map fun q => (.arg :: q.1, q.2)
  | .integ lo hi x e => ([], .integ lo hi x e) :: (visits step e).map fun q => (.arg :: q.1, q.2)
  | .bin op l r =>
    if step (.bin op l r) then
      (visits step l).map (fun q => (.left :: q.1, q.2)) ++
        ([], .bin op l r) :: (visits step r).map fun q => (.right :: q.1, q.2)
    else [([], .bin op l r)]
  | e => [([], e)]

theorem map_snd_dir (d : Dir) (qs : List (List Dir × Expr K)) :
    (qs.map fun q => (d :: q.1, q.2)).map (·.2) = qs.map (·.2) := by
  simp [List.map_map, Function.comp_def]

theorem visits_traverse (step : Expr K → Bool) (e : Expr K) (visit : Expr K → σ → Res σ) (s : σ) :
    traverse ⟨visit, fun e _ => step e⟩ e s = callAll visit ((visits step e).map (·.2)) s := by
  have single : ∀ e s, callAll visit [e] s = visit e s := by
    intro e s; simp only [callAll]; cases visit e s <;> rfl
  induction e using Expr.ind generalizing s with
  | const | var | fsym | vec => simp [traverse, visits, single]
  | un op e ih => 
    simp only [traverse, visits, List.map_cons, map_snd_dir, callAll]
    congr 1; funext s; exact ih s
  | integ lo hi x e _ _ ih =>
    simp only [traverse, visits, List.map_cons, map_snd_dir, callAll]
    congr 1; funext s; exact ih s
  | bin op l r ihl ihr =>
    simp only [traverse, visits]
    split
    · simp only [List.map_append, List.map_cons, map_snd_dir, callAll_append, callAll, ihl]
      congr 1; funext s; congr 1; funext s; exact ihr s
    · simp [single]

theorem visits_at {step : Expr K → Bool} {e : Expr K} : ∀ q ∈ visits step e, At e q.1 q.2 := by
  induction e using Expr.ind with
  | const | var | fsym | vec => simp [visits]; exact .here
  | un op e ih =>
    intro q hq
    simp only [visits, List.mem_cons, List.mem_map] at hq
    rcases hq with rfl | ⟨q, hq, rfl⟩
    · exact .here
    · exact .un (ih q hq)
  | integ lo hi x e _ _ ih =>
    intro q hq
    simp only [visits, List.mem_cons, List.mem_map] at hq
    rcases hq with rfl | ⟨q, hq, rfl⟩
    · exact .here
    · exact .integ (ih q hq)
  | bin op l r ihl ihr =>
    intro q hq
    simp only [visits] at hq
    split at hq
    · simp only [List.mem_append, List.mem_cons, List.mem_map] at hq
      rcases hq with ⟨q, hq, rfl⟩ | rfl | ⟨q, hq, rfl⟩
      · exact .left (ihl q hq)
      · exact .here
      · exact .right (ihr q hq)
    · simp only [List.mem_singleton] at hq; subst hq; exact .here

theorem pairwise_dir (d : Dir) {qs : List (List Dir × Expr K)} (h : (qs.map (·.1)).Pairwise Before) :
    ((qs.map fun q => (d :: q.1, q.2)).map (·.1)).Pairwise Before := by
  rw [List.pairwise_map] at h ⊢
  rw [List.pairwise_map]
  exact h.imp fun h => .inside h

theorem visits_sorted {step : Expr K → Bool} {e : Expr K} :
    ((visits step e).map (·.1)).Pairwise Before := by
  induction e using Expr.ind with
  | const | var | fsym | vec => simp [visits]
  | un op e ih | integ _ _ _ e _ _ ih =>
    simp only [visits, List.map_cons, List.pairwise_cons]
    refine ⟨?_, pairwise_dir _ ih⟩
    intro p hp
    simp only [List.mem_map] at hp
    obtain ⟨_, ⟨q, _, rfl⟩, rfl⟩ := hp
    exact .nodeArg
  | bin op l r ihl ihr =>
    simp only [visits]
    split
    · simp only [List.map_append, List.map_cons, List.pairwise_append, List.pairwise_cons]
      refine ⟨pairwise_dir _ ihl, ⟨?_, pairwise_dir _ ihr⟩, ?_⟩
      · intro p hp
        simp only [List.mem_map] at hp
        obtain ⟨_, ⟨q, _, rfl⟩, rfl⟩ := hp
        exact .nodeRight
      · intro p hp p' hp'
        simp only [List.mem_map, List.mem_cons] at hp hp'
        obtain ⟨_, ⟨q, _, rfl⟩, rfl⟩ := hp
        rcases hp' with rfl | ⟨_, ⟨q', _, rfl⟩, rfl⟩
        · exact .leftNode
        · exact .leftRight
    · simp

/-- Position `p` is not below a binary node that is declined. -/
def Reached (step : Expr K → Bool) (e : Expr K) (p : List Dir) : Prop :=
  ∀ q d r op a b, p = q ++ d :: r → At e q (.bin op a b) → step (.bin op a b) = true

theorem visits_mem {step : Expr K → Bool} {e : Expr K} (p : List Dir) :
    p ∈ (visits step e).map (·.1) ↔ (∃ s, At e p s) ∧ Reached step e p := by
  have nil : ∀ e : Expr K, Reached step e [] := by
    intro e q d r op a b h; simp at h
  induction e using Expr.ind generalizing p with
  | const | var | fsym | vec =>
    simp only [visits, List.map_cons, List.map_nil, List.mem_singleton]
    refine ⟨fun h => h ▸ ⟨⟨_, .here⟩, nil _⟩, fun h => ?_⟩
    obtain ⟨⟨s, h⟩, _⟩ := h
    cases h; rfl
  | un op e ih | integ _ _ _ e _ _ ih =>
    simp only [visits, List.map_cons, List.mem_cons, List.map_map, Function.comp_def]
    constructor
    · rintro (rfl | h)
      · exact ⟨⟨_, .here⟩, nil _⟩
      · simp only [List.mem_map] at h
        obtain ⟨q, hq, rfl⟩ := h
        obtain ⟨⟨s, hs⟩, hr⟩ := (ih q.1).1 (List.mem_map_of_mem hq)
        refine ⟨⟨s, by constructor; exact hs⟩, ?_⟩
        intro q' d r op a b h hat
        cases hat
        simp only [List.cons_append, List.cons.injEq, true_and] at h
        exact hr _ _ _ _ _ _ h ‹_›
    · rintro ⟨⟨s, hs⟩, hr⟩
      cases hs
      · exact .inl rfl
      · rename_i hs
        right
        have := (ih _).2 ⟨⟨s, hs⟩, fun q d r op a b h hat =>
          hr (.arg :: q) d r op a b (by simp [h]) (by constructor; exact hat)⟩
        simp only [List.mem_map] at this ⊢
        obtain ⟨q, hq, rfl⟩ := this
        exact ⟨q, hq, rfl⟩
  | bin op l r ihl ihr =>
    by_cases hst : step (.bin op l r) = true
    · simp only [visits, hst, if_true, List.map_append, List.map_cons, List.mem_append, List.mem_cons,
        List.map_map, Function.comp_def]
      constructor
      · rintro (h | rfl | h)
        · simp only [List.mem_map] at h
          obtain ⟨q, hq, rfl⟩ := h
          obtain ⟨⟨s, hs⟩, hr⟩ := (ihl q.1).1 (List.mem_map_of_mem hq)
          refine ⟨⟨s, .left hs⟩, ?_⟩
          intro q' d r' op a b h hat
          cases hat with
          | here => exact hst
          | left hat =>
            simp only [List.cons_append, List.cons.injEq, true_and] at h
            exact hr _ _ _ _ _ _ h hat
          | right hat => simp at h
        · exact ⟨⟨_, .here⟩, nil _⟩
        · simp only [List.mem_map] at h
          obtain ⟨q, hq, rfl⟩ := h
          obtain ⟨⟨s, hs⟩, hr⟩ := (ihr q.1).1 (List.mem_map_of_mem hq)
          refine ⟨⟨s, .right hs⟩, ?_⟩
          intro q' d r' op a b h hat
          cases hat with
          | here => exact hst
          | right hat =>
            simp only [List.cons_append, List.cons.injEq, true_and] at h
            exact hr _ _ _ _ _ _ h hat
          | left hat => simp at h
      · rintro ⟨⟨s, hs⟩, hr⟩
        cases hs with
        | here => exact .inr (.inl rfl)
        | left hs =>
          left
          have := (ihl _).2 ⟨⟨s, hs⟩, fun q d r op a b h hat =>
            hr (.left :: q) d r op a b (by simp [h]) (.left hat)⟩
          simp only [List.mem_map] at this ⊢
          obtain ⟨q, hq, rfl⟩ := this
          exact ⟨q, hq, rfl⟩
        | right hs =>
          right; right
          have := (ihr _).2 ⟨⟨s, hs⟩, fun q d r op a b h hat =>
            hr (.right :: q) d r op a b (by simp [h]) (.right hat)⟩
          simp only [List.mem_map] at this ⊢
          obtain ⟨q, hq, rfl⟩ := this
          exact ⟨q, hq, rfl⟩
    · simp only [visits, hst, Bool.false_eq_true, if_false, List.map_cons, List.map_nil, List.mem_singleton]
      constructor
      · rintro rfl; exact ⟨⟨_, .here⟩, nil _⟩
      · rintro ⟨⟨s, hs⟩, hr⟩
        cases hs with
        | here => rfl
        | left hs => exact absurd (hr [] _ _ _ _ _ rfl .here) hst
        | right hs => exact absurd (hr [] _ _ _ _ _ rfl .here) hst

theorem Spec.Before.irrefl (p : List Dir) : ¬ Before p p := by
  induction p with
  | nil => exact nofun
  | cons d p ih => intro h; cases h with | inside h => exact ih h

theorem nodup_of_before {ps : List (List Dir)} (h : ps.Pairwise Before) : ps.Nodup :=
  List.Pairwise.imp (fun h h' => by subst h'; exact Spec.Before.irrefl _ h) h

theorem Spec.NoSymInt.replaced {k : Nat} {lo hi : Expr K} {x : Nat} {e : Expr K} (h : NoSymInt e) :
    IntervalReplaced k lo hi x e e := by
  induction h with
  | const => exact .const _
  | var => exact .var _
  | fsym => exact .fsym _ _
  | un h _ ih => exact .un (h _) ih
  | integ x _ _ _ h1 h2 h3 => exact .integ _ h1 h2 h3
  | bin op _ _ h1 h2 => exact .bin _ h1 h2
  | vec _ ih =>
    refine .vec rfl ?_
    intro j e e' h h'
    rw [h] at h'; cases h'
    exact ih _ (List.mem_of_getElem? h)

theorem Spec.Replaced.mono {hit hit' : Expr K → Expr K → Prop} {miss miss' : Expr K → Prop} {e e' : Expr K}
    (h : Replaced hit miss e e') (hh : ∀ t r, hit t r → hit' t r) (hm : ∀ t, miss t → miss' t) :
    Replaced hit' miss' e e' := by
  induction h with
  | hit h => exact .hit (hh _ _ h)
  | const h => exact .const (hm _ h)
  | var h => exact .var (hm _ h)
  | fsym h => exact .fsym (hm _ h)
  | un h _ ih => exact .un (hm _ h) ih
  | integ h _ ih => exact .integ (hm _ h) ih
  | bin h _ _ ihl ihr => exact .bin (hm _ h) ihl ihr
  | vec h hl _ ih => exact .vec (hm _ h) hl ih

end VM
