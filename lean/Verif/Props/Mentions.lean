import Verif.Rt.MentionsLemmas
import Verif.Rt.Dec
import Verif.NumRat
/-
Property C88: results of manipulations mention nothing that was not given.

Any numeric type; all kinds of nodes.
-/
namespace VM.Props
open Spec
variable {K : Type} [Num K]

/-- C88.  Simplifying. -/
theorem C88_simplify (e e' : Expr K) (h : simplified e = .ok e') (m : Item) (hm : Mentions m e') : Mentions m e :=
  simplified_only (S := (Mentions · e)) h (fun _ h => h) m hm

/-- C88.  Differentiating by a variable or a function symbol: not even what is differentiated by. -/
theorem C88_diff (x : DVar) (e e' : Expr K) (h : diff x e = .ok e') (m : Item) (hm : Mentions m e') : Mentions m e := by
  obtain ⟨d, h1, h2⟩ := Res.bind_eq_ok.1 h
  exact simplified_only (S := (Mentions · e)) h2 (diffE_only h1 fun _ h => h) m hm

/-- C88.  Substituting: what the result mentions was mentioned before, or is mentioned by the replacement and a part of
the expression was found equal to the searched expression. -/
theorem C88_substitute (s r e e' : Expr K) (h : substitute s r e = .ok e') (m : Item) (hm : Mentions m e') :
    Mentions m e ∨ Mentions m r ∧ ∃ t, SubV t e ∧ deepEq t s = .ok true :=
  substitute_only (S := fun m => Mentions m e ∨ Mentions m r ∧ ∃ t, SubV t e ∧ deepEq t s = .ok true) h
    (fun _ h => .inl h) (fun t h1 h2 _ h => .inr ⟨h, t, h1, h2⟩) m hm

/-- C88.  Substituting lists: the replacement belongs to a searched expression that was found. -/
theorem C88_substituteMany (ss rs : List (Expr K)) (e e' : Expr K) (h : substituteMany ss rs e = .ok e') (m : Item)
    (hm : Mentions m e') :
    Mentions m e ∨ ∃ (k : Nat) (s r : Expr K), ss[k]? = some s ∧ rs[k]? = some r ∧ Mentions m r ∧
      ∃ t, SubV t e ∧ deepEq t s = .ok true := by
  rw [substituteMany] at h
  split at h
  · obtain ⟨d, h1, h2⟩ := Res.bind_eq_ok.1 h
    refine simplified_only (S := fun m => Mentions m e ∨ ∃ (k : Nat) (s r : Expr K), ss[k]? = some s ∧ rs[k]? = some r ∧
      Mentions m r ∧ ∃ t, SubV t e ∧ deepEq t s = .ok true) h2
      (substM_only h1 (fun _ h => .inl h) fun t r ht hr n hn => ?_) m hm
    obtain ⟨k, s, h3, h4, h5⟩ := findRepl_at hr
    exact .inr ⟨k, s, r, h3, h4, hn, t, ht, h5⟩
  · cases h

omit [Num K] in
/-- C88.  Substituting a symbolic interval: new are at most the integral itself, its variable and what the bounds
mention, and only if there was a symbolic interval. -/
theorem C88_interval (k : Nat) (lo hi : Expr K) (x : Nat) (e e' : Expr K) (h : substituteInterval k lo hi x e = .ok e')
    (m : Item) (hm : Mentions m e') :
    Mentions m e ∨ (∃ j, Mentions (.interval j) e) ∧
      (m = .integral ∨ m = .var x ∨ Mentions m lo ∨ Mentions m hi) :=
  interval_only (S := fun m => Mentions m e ∨ (∃ j, Mentions (.interval j) e) ∧
      (m = .integral ∨ m = .var x ∨ Mentions m lo ∨ Mentions m hi)) h (fun _ h => .inl h)
    (fun j hj => ⟨.inr ⟨⟨j, hj⟩, .inl rfl⟩, .inr ⟨⟨j, hj⟩, .inr (.inl rfl)⟩,
      fun _ h => .inr ⟨⟨j, hj⟩, .inr (.inr (.inl h))⟩, fun _ h => .inr ⟨⟨j, hj⟩, .inr (.inr (.inr h))⟩⟩) m hm

/-- C88.  Applying a coordinate system: new are at most formal derivatives by the coordinates, if there was a gradient or
a divergence, and vectors, if there was a gradient and the system has several coordinates.  In particular no variables
and no function symbols. -/
theorem C88_coordinates (d : Dim) (e e' : Expr K) (h : coords d e = .ok e') (m : Item) (hm : Mentions m e') :
    Mentions m e ∨ (∃ i < d.toNat, m = .deriv i) ∧ (Mentions .gradient e ∨ Mentions .divergence e) ∨
      m = .vector ∧ Mentions .gradient e ∧ 2 ≤ d.toNat := by
  refine coords_only (S := fun m => Mentions m e ∨
    (∃ i < d.toNat, m = .deriv i) ∧ (Mentions .gradient e ∨ Mentions .divergence e) ∨
      m = .vector ∧ Mentions .gradient e ∧ 2 ≤ d.toNat) h (fun _ h => .inl h) (fun hg i hi => ?_) (fun hg h2 => ?_) m hm
  · refine .inr (.inl ⟨⟨i, hi, rfl⟩, ?_⟩)
    simpa using hg
  · refine .inr (.inr ⟨rfl, ?_, h2⟩)
    simpa using hg

/-- Something can be new: `substitute(x0, x1, x0 + u)` mentions `x1`, and still `u`; and after
`apply_coordinate_system(cartesian<2>, grad(u))` there is a vector. -/
example : ∃ e', substitute (.var 0) (.var 1) (.bin .plus (.var 0) (.fsym 0 0) : Expr XRat) = .ok e' ∧
    Mentions (.var 1) e' ∧ Mentions (.sym 0 0) e' ∧ ¬ Mentions (.var 0) e' := by
  refine ⟨.bin .plus (.var 1) (.fsym 0 0), by decide +kernel, .left _ _ (.var 1), .right _ _ (.sym 0 0), fun h => ?_⟩
  cases h with
  | left _ _ h => cases h
  | right _ _ h => cases h

example : ∃ e', coords .two (.un .grad symU : Expr XRat) = .ok e' ∧ Mentions .vector e' ∧ Mentions (.deriv 1) e' ∧
    ¬ Mentions (.deriv 1) (.un .grad symU : Expr XRat) := by
  refine ⟨.vec [diffSymbol 0 0 0, diffSymbol 0 0 1], by decide +kernel, .vector _,
    .entry (e := diffSymbol 0 0 1) (by simp) (.deriv 1 _), fun h => ?_⟩
  cases h with
  | un _ h => cases h

/-- A derivative of `x0 * sin(x1)` by `x0` does not mention `x0`. -/
example : ∃ e', diff (.var 0) (.bin .mult (.var 0) (.un (.fn .sin) (.var 1)) : Expr XRat) = .ok e' ∧
    Mentions (.var 1) e' ∧ ¬ Mentions (.var 0) e' := by
  refine ⟨.un (.fn .sin) (.var 1), by decide +kernel, .un _ (.var 1), fun h => ?_⟩
  cases h with
  | un _ h => cases h

end VM.Props
