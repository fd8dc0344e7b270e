import Verif.Rt.EqualLemmas
import Verif.Rt.SubstLemmas
/-
Lists of pairs of searched expressions and replacements, for C118.
-/
namespace VM
variable {K : Type} [Num K]

mutual
theorem deepEq_noThrow : ∀ (e f : Expr K) (x : Exc), deepEq e f ≠ .throw x
  | .un _ e, .un _ f, x => by
    have := deepEq_noThrow e f
    simp only [deepEq]; cases h : deepEq e f <;> simp_all [Res.map, Res.bind]
  | .un _ e, .integ _ _ _ f, x => by
    have := deepEq_noThrow e f
    simp only [deepEq]; cases h : deepEq e f <;> simp_all [Res.map, Res.bind]
  | .integ _ _ _ e, .un _ f, x => by
    have := deepEq_noThrow e f
    simp only [deepEq]; cases h : deepEq e f <;> simp_all [Res.map, Res.bind]
  | .integ _ _ _ e, .integ _ _ _ f, x => by
    simp only [deepEq]; exact deepEq_noThrow e f x
  | .bin _ l r, .bin _ l' r', x => by
    have h1 := deepEq_noThrow l l'
    have h2 := deepEq_noThrow r r' x
    simp only [deepEq]
    cases h : deepEq l l' with
    | throw y => exact absurd h (h1 y)
    | ub => simp
    | ok b =>
      rw [Res.bind_ok]
      split
      · exact h2
      · simp
  | .vec es, .vec fs, x => by
    simp only [deepEq]; exact deepEqL_noThrow es fs x
  | .const _, f, x | .var _, f, x | .fsym _ _, f, x => by cases f <;> simp [deepEq]
  | .un _ _, .const _, x | .un _ _, .var _, x | .un _ _, .fsym _ _, x | .un _ _, .bin _ _ _, x | .un _ _, .vec _, x => by
    simp [deepEq]
  | .integ _ _ _ _, .const _, x | .integ _ _ _ _, .var _, x | .integ _ _ _ _, .fsym _ _, x
  | .integ _ _ _ _, .bin _ _ _, x | .integ _ _ _ _, .vec _, x => by simp [deepEq]
  | .bin _ _ _, .const _, x | .bin _ _ _, .var _, x | .bin _ _ _, .fsym _ _, x | .bin _ _ _, .un _ _, x
  | .bin _ _ _, .integ _ _ _ _, x | .bin _ _ _, .vec _, x => by simp [deepEq]
  | .vec _, .const _, x | .vec _, .var _, x | .vec _, .fsym _ _, x | .vec _, .un _ _, x
  | .vec _, .integ _ _ _ _, x | .vec _, .bin _ _ _, x => by simp [deepEq]
theorem deepEqL_noThrow : ∀ (es fs : List (Expr K)) (x : Exc), deepEqL es fs ≠ .throw x
  | _, [], x => by simp [deepEqL]
  | [], _ :: _, x => by simp [deepEqL]
  | e :: es, f :: fs, x => by
    have h1 := deepEq_noThrow e f
    have h2 := deepEqL_noThrow es fs x
    simp only [deepEqL]
    cases h : deepEq e f with
    | throw y => exact absurd h (h1 y)
    | ub => simp
    | ok b =>
      rw [Res.bind_ok]
      split
      · exact h2
      · simp
end

/-- What `e` equals is compared with a third expression as `e` is, except that undefined behaviour is met earlier. -/
def Follows (ef eg fg : Res Bool) : Prop :=
  ef = .ok true → (eg = .ub → fg = .ub) ∧ (eg = .ok true → fg ≠ .ok false)

theorem Follows.seq {ef eg fg ef' eg' fg' : Res Bool} {p q r : Bool} (hp : p = true → q = true → r = true)
    (ht : ∀ x, fg ≠ .throw x) (h : Follows ef eg fg) (h' : Follows ef' eg' fg') :
    Follows (ef.bind fun b => if b && p then ef' else .ok false) (eg.bind fun b => if b && q then eg' else .ok false)
      (fg.bind fun b => if b && r then fg' else .ok false) := by
  intro h0
  obtain ⟨b, rfl, h1⟩ := Res.bind_eq_ok.1 h0
  split at h1
  · rename_i hb
    obtain ⟨rfl, rfl⟩ := Bool.and_eq_true_iff.1 hb
    obtain ⟨i1, i2⟩ := h rfl
    obtain ⟨j1, j2⟩ := h' h1
    rcases eg with (_ | _) | y | _
    · simp
    · rcases fg with (_ | _) | z | _
      · exact absurd rfl (i2 rfl)
      · cases q
        · simp
        · rw [hp rfl rfl]; exact ⟨j1, j2⟩
      · exact absurd rfl (ht z)
      · simp
    · simp
    · rw [i1 rfl]; simp
  · cases h1

mutual
theorem deepEq_follows [EqbPER K] : ∀ e f g : Expr K, Follows (deepEq e f) (deepEq e g) (deepEq f g)
  | .const c, f, g => by
    intro hf
    cases f <;> simp only [deepEq, Res.ok.injEq, Bool.false_eq_true] at hf
    rename_i d
    refine ⟨fun h => ?_, fun h => ?_⟩
    · cases g <;> simp [deepEq] at h
    · cases g <;> simp only [deepEq, Res.ok.injEq, Bool.false_eq_true] at h
      rename_i b
      simp only [deepEq, ne_eq, Res.ok.injEq]
      rw [EqbPER.trans h (EqbPER.symm hf)]
      simp
  | .var i, f, g => by
    intro hf
    cases f <;> simp only [deepEq, Res.ok.injEq, Bool.false_eq_true, decide_eq_true_eq] at hf
    subst hf
    exact ⟨fun h => h, fun h => by rw [h]; simp⟩
  | .fsym i t, f, g => by
    intro hf
    cases f <;> simp only [deepEq, Res.ok.injEq, Bool.false_eq_true, Bool.and_eq_true, decide_eq_true_eq] at hf
    obtain ⟨rfl, rfl⟩ := hf
    exact ⟨fun h => h, fun h => by rw [h]; simp⟩
  | .un op e, f, g => by
    intro hf
    cases f with
    | un op' f =>
      cases g with
      | un op'' g =>
        have ih := deepEq_follows e f g
        unfold Follows at ih
        have h1 := fun (a : UOp.equal op' op = true) (b : UOp.equal op'' op = true) =>
          UOp.equal_trans b (UOp.equal_symm a)
        simp only [deepEq] at hf ⊢
        rcases he : deepEq e f with (_ | _) | x | _ <;> rcases hg : deepEq e g with (_ | _) | y | _ <;>
          rcases hh : deepEq f g with (_ | _) | z | _ <;> simp_all
      | integ lo hi x g =>
        have ih := deepEq_follows e f g
        unfold Follows at ih
        simp only [deepEq] at hf ⊢
        rcases he : deepEq e f with (_ | _) | x | _ <;> rcases hg : deepEq e g with (_ | _) | y | _ <;>
          rcases hh : deepEq f g with (_ | _) | z | _ <;> simp_all
      | _ => simp [deepEq]
    | integ lo hi x f =>
      simp only [deepEq] at hf
      rcases he : deepEq e f with (_ | _) | x | _ <;> simp_all
    | _ => simp [deepEq] at hf
  | .integ lo hi x e, f, g => by
    intro hf
    cases f with
    | integ lo' hi' x' f =>
      cases g with
      | integ lo'' hi'' x'' g =>
        simp only [deepEq] at hf ⊢
        exact deepEq_follows e f g hf
      | un op g =>
        have ih := deepEq_follows e f g
        unfold Follows at ih
        simp only [deepEq] at hf ⊢
        rcases he : deepEq e f with (_ | _) | x | _ <;> rcases hg : deepEq e g with (_ | _) | y | _ <;>
          rcases hh : deepEq f g with (_ | _) | z | _ <;> simp_all
      | _ => simp [deepEq]
    | un op f =>
      simp only [deepEq] at hf
      rcases he : deepEq e f with (_ | _) | x | _ <;> simp_all
    | _ => simp [deepEq] at hf
  | .bin op l r, f, g => by
    cases f with
    | bin op' l' r' =>
      cases g with
      | bin op'' l'' r'' =>
        simp only [deepEq]
        refine Follows.seq ?_ (deepEq_noThrow l' l'') (deepEq_follows l l' l'') (deepEq_follows r r' r'')
        simp only [decide_eq_true_eq]
        rintro rfl rfl
        rfl
      | _ => intro _; simp [deepEq]
    | _ => intro h; simp [deepEq] at h
  | .vec es, f, g => by
    cases f with
    | vec fs =>
      cases g with
      | vec gs =>
        simp only [deepEq]
        exact deepEqL_follows es fs gs
      | _ => intro _; simp [deepEq]
    | _ => intro h; simp [deepEq] at h
theorem deepEqL_follows [EqbPER K] : ∀ es fs gs : List (Expr K), Follows (deepEqL es fs) (deepEqL es gs) (deepEqL fs gs)
  | _, _, [] => by intro _; simp [deepEqL]
  | _, [], _ :: _ => by intro _; simp [deepEqL]
  | [], _ :: _, _ :: _ => by intro h; simp [deepEqL] at h
  | e :: es, f :: fs, g :: gs => by
    have := Follows.seq (p := true) (q := true) (r := true) (fun _ _ => rfl) (deepEq_noThrow f g)
      (deepEq_follows e f g) (deepEqL_follows es fs gs)
    simpa only [deepEqL, Bool.and_true] using this
end

/-- Of two different expressions, an expression that equals one is told apart from the other. -/
theorem deepEq_apart [EqbPER K] {e s t : Expr K} (hs : deepEq e s = .ok true) (hst : deepEq s t = .ok false) :
    deepEq e t = .ok false := by
  obtain ⟨h1, h2⟩ := deepEq_follows e s t hs
  rcases h : deepEq e t with (_ | _) | x | _
  · rfl
  · exact absurd hst (h2 h)
  · exact absurd h (deepEq_noThrow e t x)
  · rw [h1 h] at hst; cases hst

/-- `substM` only looks for replacements. -/
theorem substM_congr {ss rs ss' rs' : List (Expr K)} (e : Expr K)
    (h : ∀ t, Spec.SubV t e → findRepl t ss rs = findRepl t ss' rs') : substM ss rs e = substM ss' rs' e := by
  induction e using Expr.ind with
  | const | var | fsym => simp only [substM, h _ .refl]
  | un op e ih => simp only [substM, h _ .refl, ih fun t ht => h t (.un ht)]
  | integ lo hi x e _ _ ih => simp only [substM, h _ .refl, ih fun t ht => h t (.integ ht)]
  | bin op l r ih1 ih2 =>
    simp only [substM, h _ .refl, ih1 fun t ht => h t (.binL ht), ih2 fun t ht => h t (.binR ht)]
  | vec es ih =>
    have hl : ∀ fs : List (Expr K), (∀ f ∈ fs, f ∈ es) → substML ss rs fs = substML ss' rs' fs := by
      intro fs
      induction fs with
      | nil => intro _; rfl
      | cons f fs ihf =>
        intro hm
        have hf := hm f (by simp)
        simp only [substML, ih f hf fun t ht => h t (.vec hf ht), ihf fun g hg => hm g (by simp [hg])]
    simp only [substM, h _ .refl, hl es fun _ h => h]

/-- Two neighbouring pairs can be exchanged. -/
theorem findRepl_swap [EqbPER K] {e s t r q : Expr K} {ss rs : List (Expr K)} (h : deepEq s t = .ok false)
    (h' : deepEq t s = .ok false) :
    findRepl e (s :: t :: ss) (r :: q :: rs) = findRepl e (t :: s :: ss) (q :: r :: rs) := by
  have h1 := fun hs => deepEq_apart (e := e) hs h
  have h2 := fun ht => deepEq_apart (e := e) ht h'
  have h3 := deepEq_noThrow e s
  have h4 := deepEq_noThrow e t
  simp only [findRepl]
  rcases hs : deepEq e s with (_ | _) | x | _ <;> rcases ht : deepEq e t with (_ | _) | y | _ <;> simp_all

theorem findRepl_perm [EqbPER K] (e : Expr K) {ps qs : List (Expr K × Expr K)} (h : ps.Perm qs)
    (hd : ps.Pairwise fun p q => deepEq p.1 q.1 = .ok false ∧ deepEq q.1 p.1 = .ok false) :
    findRepl e (ps.map (·.1)) (ps.map (·.2)) = findRepl e (qs.map (·.1)) (qs.map (·.2)) := by
  induction h with
  | nil => rfl
  | cons p _ ih =>
    simp only [List.map_cons, findRepl, ih (List.pairwise_cons.1 hd).2]
  | swap p q l =>
    have := (List.pairwise_cons.1 hd).1 p (by simp)
    exact findRepl_swap this.1 this.2
  | trans h1 _ ih1 ih2 =>
    rw [ih1 hd]
    exact ih2 ((h1.pairwise_iff fun h => ⟨h.2, h.1⟩).1 hd)

/-- A pair that is not met can be left out. -/
theorem findRepl_drop (e s r : Expr K) (ps qs : List (Expr K × Expr K))
    (h : (∀ p ∈ ps, deepEq e p.1 = .ok false) → deepEq e s = .ok false) :
    findRepl e ((ps ++ (s, r) :: qs).map (·.1)) ((ps ++ (s, r) :: qs).map (·.2)) =
      findRepl e ((ps ++ qs).map (·.1)) ((ps ++ qs).map (·.2)) := by
  induction ps with
  | nil => simp [findRepl, h (by simp)]
  | cons p ps ih =>
    simp only [List.cons_append, List.map_cons, findRepl]
    rcases hp : deepEq e p.1 with (_ | _) | x | _
    · simp only [Res.bind_ok, Bool.false_eq_true, if_false]
      refine ih fun h1 => h fun q hq => ?_
      rcases List.mem_cons.1 hq with rfl | hq
      · exact hp
      · exact h1 q hq
    · simp
    · simp
    · simp

end VM
