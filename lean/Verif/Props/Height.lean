import Verif.Rt.HeightLemmas
import Verif.Rt.Coords
import Verif.Props.Size
import Verif.Spec.Iterated
/-
C115: results are not nested much deeper than what they were made from.
-/
namespace VM.Props
open Spec
variable {K : Type}

/-- C115, the measure: `reach` is the height, except that a vector counts as deep as the sum of its entries. -/
theorem C115_reach (e : Expr K) : height e ≤ reach e ∧ (VectorFree e → reach e = height e) :=
  ⟨height_le_reach e, reach_vectorFree e⟩

/-- C115: what the user's manipulation adds at most at one place, it adds at most to the whole. -/
theorem C115_manipulate (F : Manip K) (m : Nat) (hF : ∀ e e', F.apply e = .ok e' → reach e' ≤ reach e + m)
    (e e' : Expr K) (h : manipulate F e = .ok e') : reach e' ≤ reach e + m := reach_manipulate F m hF e e' h

/-- C115: putting in an interval for symbolic ones adds at most what the bounds have more than a leaf. -/
theorem C115_interval (k : Nat) (lo hi : Expr K) (x : Nat) (e e' : Expr K)
    (h : substituteInterval k lo hi x e = .ok e') : reach e' + 1 ≤ reach e + max (reach lo) (reach hi) := by
  have h1 := reach_pos lo
  have := reach_manipulate (symIntFunctor lo hi x) (max (reach lo) (reach hi) - 1) ?_ e e' h
  · omega
  intro e e' h
  simp only [symIntFunctor] at h
  split at h
  · rename_i k a
    have h2 := reach_pos a
    cases h; simp only [reach]; omega
  · cases h; omega

variable [Num K]

/-- C115: simplifying makes nothing deeper. -/
theorem C115_simplify (e e' : Expr K) (h : Simplifies e (.ok e')) : reach e' ≤ reach e :=
  reach_simplified (Simplifies_iff.1 h)

/-- C115: derivatives are at most three times as deep. -/
theorem C115_diff (x : DVar) (e e' : Expr K) (h : diff x e = .ok e') : reach e' ≤ 3 * reach e := by
  obtain ⟨d, hd, h⟩ := Res.bind_eq_ok.1 h
  exact (reach_simplified h).trans (reach_diffE x e d hd)

/-- C115: differentiating again and again, by whatever variables. -/
theorem C115_diffs (is : List Nat) (e e' : Expr K) (h : diffs is e = .ok e') : reach e' ≤ 3 ^ is.length * reach e := by
  induction is generalizing e with
  | nil => cases h; simp
  | cons i is ih =>
    obtain ⟨d, hd, h⟩ := Res.bind_eq_ok.1 h
    have h1 := ih d h
    have h2 := C115_diff _ _ _ hd
    calc reach e' ≤ 3 ^ is.length * reach d := h1
      _ ≤ 3 ^ is.length * (3 * reach e) := Nat.mul_le_mul_left _ h2
      _ = 3 ^ (i :: is).length * reach e := by rw [List.length_cons, Nat.pow_succ, Nat.mul_assoc]

/-- C115: simultaneous substitution adds at most what the deepest replacement has more than a leaf. -/
theorem C115_substituteMany (ss rs : List (Expr K)) (m : Nat) (hr : ∀ r ∈ rs, reach r ≤ m + 1) (e e' : Expr K)
    (h : substituteMany ss rs e = .ok e') : reach e' ≤ reach e + m := by
  unfold substituteMany at h
  split at h
  · obtain ⟨d, hd, h⟩ := Res.bind_eq_ok.1 h
    exact (reach_simplified h).trans (reach_substM ss rs m hr e d hd)
  · cases h

/-- C115: so does substitution. -/
theorem C115_substitute (s r e e' : Expr K) (h : substitute s r e = .ok e') : reach e' + 1 ≤ reach e + reach r := by
  obtain ⟨d, hd, h⟩ := Res.bind_eq_ok.1 h
  rw [substE_eq_substM] at hd
  have h1 := reach_pos r
  have h2 := reach_substM [s] [r] (reach r - 1) (by simp; omega) e d hd
  have h3 := reach_simplified h
  omega

/-- C115: a coordinate system makes nothing deeper by more than 16 objects. -/
theorem C115_coords (d : Dim) (e e' : Expr K) (h : coords d e = .ok e') : reach e' ≤ reach e + 16 := by
  have key : ∀ gu gv du dv : Expr K, reach gu ≤ 6 → reach gv ≤ 6 → reach du ≤ 4 → reach dv ≤ 4 →
      coordsWith gu gv du dv e = .ok e' → reach e' ≤ reach e + 16 := by
    intro gu gv du dv h1 h2 h3 h4 h
    obtain ⟨e1, k1, h⟩ := Res.bind_eq_ok.1 h
    obtain ⟨e2, k2, h⟩ := Res.bind_eq_ok.1 h
    obtain ⟨e3, k3, h⟩ := Res.bind_eq_ok.1 h
    have := C115_substitute _ _ _ _ k1
    have := C115_substitute _ _ _ _ k2
    have := C115_substitute _ _ _ _ k3
    have := C115_substitute _ _ _ _ h
    omega
  cases d
  all_goals refine key _ _ _ _ ?_ ?_ ?_ ?_ h
  all_goals simp [diffSymbol, reach, reaches]

/-! ### The bounds are reached -/

/-- `x/(x/(x/...))` -/
def quots : Nat → Expr K
  | 0 => .var 0
  | n + 1 => .bin .div (.var 0) (quots n)

/-- The derivative of `quots (n + 1)`. -/
def quotsDiff : Nat → Expr K
  | 0 => .bin .div (.bin .minus (.var 0) (.var 0)) (.bin .mult (.var 0) (.var 0))
  | n + 1 => .bin .div (.bin .minus (quots (n + 1)) (.bin .mult (.var 0) (quotsDiff n)))
      (.bin .mult (quots (n + 1)) (quots (n + 1)))

/-- The derivative before simplification. -/
private def quotsRaw : Nat → Expr K
  | 0 => .const (Num.lit 1)
  | n + 1 => .bin .div (.bin .minus (.bin .mult (.const (Num.lit 1)) (quots n)) (.bin .mult (.var 0) (quotsRaw n)))
      (.bin .mult (quots n) (quots n))

private theorem quots_facts (n : Nat) : isConst (quots n : Expr K) = false ∧ canSimplify (quots n : Expr K) = .ok false ∧
    simplify (quots n : Expr K) = .ok (quots n) := by
  induction n with
  | zero => exact ⟨rfl, rfl, rfl⟩
  | succ n ih =>
    obtain ⟨h1, h2, h3⟩ := ih
    simp [quots, isConst, canSimplify, canBin, constCheck, simplify, simpBin, h1, h2, h3]

private theorem quotsRaw_facts (h : Num.eqb (Num.lit 1 : K) (Num.lit 0) = false)
    (h' : Num.eqb (Num.lit 1 : K) (Num.lit 1) = true) (n : Nat) :
    isConst (quotsRaw (n + 1) : Expr K) = false ∧ canSimplify (quotsRaw (n + 1) : Expr K) = .ok true ∧
    simplify (quotsRaw (n + 1) : Expr K) = .ok (quotsDiff n) ∧ isConst (quotsDiff n : Expr K) = false ∧
    canSimplify (quotsDiff n : Expr K) = .ok false := by
  induction n with
  | zero =>
    simp [quotsRaw, quotsDiff, quots, isConst, canSimplify, canBin, constCheck, unwrap, simplify, simpBin, h, h']
  | succ n ih =>
    obtain ⟨h1, h2, h3⟩ := quots_facts (K := K) n
    obtain ⟨i1, i2, i3, i4, i5⟩ := ih
    rw [quotsRaw, quotsDiff, quots]
    generalize (quots n : Expr K) = q at *
    generalize (quotsRaw (n + 1) : Expr K) = r at *
    generalize (quotsDiff n : Expr K) = s at *
    simp [isConst, canSimplify, canBin, constCheck, unwrap, simplify, simpBin, h, h', h1, h2, h3, i1, i2, i3, i4, i5]

private theorem diffE_quots (n : Nat) : diffE (.var 0) (quots n : Expr K) = .ok (quotsRaw n) := by
  induction n with
  | zero => rfl
  | succ n ih => rw [quots, diffE, ih]; rfl

omit [Num K] in
private theorem height_quots (n : Nat) : height (quots n : Expr K) = n + 1 := by
  induction n with
  | zero => rfl
  | succ n ih => simp [quots, height, ih]

omit [Num K] in
theorem height_quotsDiff (n : Nat) : height (quotsDiff n : Expr K) = 3 * (n + 1) := by
  induction n with
  | zero => rfl
  | succ n ih => simp only [quotsDiff, height, height_quots, ih]; omega

theorem diff_quots (hone : Num.eqb (Num.lit 1 : K) (Num.lit 0) = false)
    (hone' : Num.eqb (Num.lit 1 : K) (Num.lit 1) = true) (n : Nat) :
    diff (.var 0) (quots (n + 1)) = .ok (quotsDiff n : Expr K) := by
  obtain ⟨_, h2, h3, _, h5⟩ := quotsRaw_facts hone hone' n
  rw [diff, diffE_quots, Res.bind_ok]
  exact Simplifies_iff.1 ⟨2, by simp [simplifyLoop, h2, h3, h5]⟩

/-- The factor 3 cannot be improved: expressions of height `n + 2` with derivatives of height `3 (n + 1)`. -/
theorem C115_diff_sharp (hone : Num.eqb (Num.lit 1 : K) (Num.lit 0) = false)
    (hone' : Num.eqb (Num.lit 1 : K) (Num.lit 1) = true) (n : Nat) : height (quots (n + 1) : Expr K) = n + 2 ∧
    ∃ e' : Expr K, diff (.var 0) (quots (n + 1)) = .ok e' ∧ height e' = 3 * (n + 1) :=
  ⟨height_quots _, quotsDiff n, diff_quots hone hone' n, height_quotsDiff n⟩

omit [Num K] in
private theorem height_tower (n : Nat) : height (tower n : Expr K) = n + 1 := by
  induction n with
  | zero => rfl
  | succ n ih => simp [tower, height, ih]

/-- Nor can the bound for substitution: `exp(...exp(x))` put into another one for `x`. -/
theorem C115_substitute_sharp (n m : Nat) :
    ∃ e' : Expr K, substitute (.var 0) (tower m) (tower n) = .ok e' ∧
      height e' + 1 = height (tower n : Expr K) + height (tower m : Expr K) := by
  have hs : substE (.var 0) (tower m) (tower n) = .ok (tower (m + n) : Expr K) := by
    induction n with
    | zero => simp [tower, substE, deepEq]
    | succ n ih => rw [tower, substE, ih]; simp [deepEq, tower]
  have hc : ∀ k, canSimplify (tower k : Expr K) = .ok false := by
    intro k
    induction k with
    | zero => rfl
    | succ k ih => simp [tower, canSimplify, ih]
  refine ⟨tower (m + n), ?_, ?_⟩
  · rw [substitute, hs, Res.bind_ok]
    exact Simplifies_iff.1 ⟨1, by simp [simplifyLoop, hc]⟩
  · simp only [height_tower]; omega

/-- Why vectors count as deep as their sums: the product of two vectors with `n + 1` entries has height 3, and
simplifying gives a sum of height `n + 2`. -/
theorem C115_vectors (n : Nat) : ∃ r : Expr K,
    Simplifies (.bin .mult (.vec (List.replicate (n + 1) (.var 0))) (.vec (List.replicate (n + 1) (.var 1)))) (.ok r) ∧
    height (.bin .mult (.vec (List.replicate (n + 1) (.var 0))) (.vec (List.replicate (n + 1) (.var 1))) : Expr K) = 3 ∧
    height r = n + 2 := by
  have hh : ∀ (i k : Nat), heights (List.replicate (k + 1) (.var i : Expr K)) = 1 := by
    intro i k
    induction k with
    | zero => rfl
    | succ k ih => rw [List.replicate_succ, heights, ih]; rfl
  have hd : ∀ (k : Nat) (acc : Expr K), isConst acc = false → canSimplify acc = .ok false → 2 ≤ height acc →
      isConst (dotFrom acc (List.replicate k (.var 0)) (List.replicate k (.var 1))) = false ∧
      canSimplify (dotFrom acc (List.replicate k (.var 0)) (List.replicate k (.var 1))) = .ok false ∧
      height (dotFrom acc (List.replicate k (.var 0)) (List.replicate k (.var 1))) = height acc + k := by
    intro k
    induction k with
    | zero => intro acc h1 h2 _; exact ⟨h1, h2, rfl⟩
    | succ k ih =>
      intro acc h1 h2 h3
      obtain ⟨i1, i2, i3⟩ := ih (.bin .plus acc (.bin .mult (.var 0) (.var 1))) (by simp [isConst, h1])
        (by simp [canSimplify, canBin, constCheck, isConst, h1, h2]) (by simp only [height]; omega)
      refine ⟨i1, i2, i3.trans ?_⟩
      simp only [height]; omega
  obtain ⟨_, h2, h3⟩ := hd n (.bin .mult (.var 0) (.var 1)) rfl (by simp [canSimplify, canBin, constCheck, isConst])
    (by simp [height])
  refine ⟨dotFrom (.bin .mult (.var 0) (.var 1)) (List.replicate n (.var 0)) (List.replicate n (.var 1)), ⟨2, ?_⟩, ?_, ?_⟩
  · have hc : canSimplify (.bin .mult (.vec (List.replicate (n + 1) (.var 0))) (.vec (List.replicate (n + 1) (.var 1))) :
        Expr K) = .ok true := by
      simp [canSimplify, canBin, constCheck, isConst]
    have hs : simplify (.bin .mult (.vec (List.replicate (n + 1) (.var 0))) (.vec (List.replicate (n + 1) (.var 1))) :
        Expr K) = .ok (dotFrom (.bin .mult (.var 0) (.var 1)) (List.replicate n (.var 0)) (List.replicate n (.var 1))) := by
      simp [simplify, simpBin, isConst, dot, List.replicate_succ]
    simp [simplifyLoop, hc, hs, h2]
  · simp only [height, hh]; rfl
  · rw [h3]; simp only [height]; omega

/-! ### Non-vacuity -/

example : Num.eqb (Num.lit 1 : XRat) (Num.lit 0) = false ∧ Num.eqb (Num.lit 1 : XRat) (Num.lit 1) = true := by
  decide +kernel

-- grad(u) * grad(v) + div(u) in three dimensions
example : ∃ e', coords .three (.bin .plus (.bin .mult (.un .grad symU) (.un .grad symV)) (.un .divg symU) : Expr XRat) =
    .ok e' ∧ reach e' = 6 := ⟨_, rfl, by decide +kernel⟩

example : substituteInterval 0 (.const (some 0)) (.un (.fn .sqrt) (.const (some 2))) 1
    (.un (.symInt 0) (.var 1) : Expr XRat) =
    .ok (.integ (.const (some 0)) (.un (.fn .sqrt) (.const (some 2))) 1 (.var 1)) := rfl

end VM.Props
