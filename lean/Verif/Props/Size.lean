import Verif.Rt.SizeLemmas
import Verif.Rt.Dec
import Verif.NumRat
/-
C53: results are not much larger than what they were made from.
-/
namespace VM.Props
open Spec
variable {K : Type} [Num K]

/-- C53: simplifying never makes an expression larger. -/
theorem C53_simplify (e e' : Expr K) (h : Simplifies e (.ok e')) : size e' ≤ size e :=
  size_simplified (Simplifies_iff.1 h)

/-- Simplifying takes at most twice as many passes as the expression has objects. -/
theorem C53_passes (e : Expr K) : ∃ r, simplifyLoop (2 * size e) e = some r :=
  simplifyLoop_some (weight_size e)

-- the product of two vectors with three entries becomes a sum of three products: 15 objects become 11
example : simplified (.bin .mult (.vec [.var 0, .var 1, .var 2]) (.vec [.var 3, .var 4, .var 5]) : Expr XRat) =
    .ok (.bin .plus (.bin .plus (.bin .mult (.var 0) (.var 3)) (.bin .mult (.var 1) (.var 4)))
      (.bin .mult (.var 2) (.var 5))) ∧
    size (.bin .mult (.vec [.var 0, .var 1, .var 2]) (.vec [.var 3, .var 4, .var 5]) : Expr XRat) = 15 := by
  decide +kernel

/-- C53: the derivative has at most twice the square of the number of objects. -/
theorem C53_diff (x : DVar) (e e' : Expr K) (h : diff x e = .ok e') : size e' ≤ 2 * size e ^ 2 := by
  obtain ⟨d, hd, h⟩ := Res.bind_eq_ok.1 h
  exact (size_simplified h).trans (size_diffE x e d hd)

-- (x*x)/x
example : ∃ e', diff (.var 0) (.bin .div (.bin .mult (.var 0) (.var 0)) (.var 0) : Expr XRat) = .ok e' ∧
    size e' = 13 := ⟨_, rfl, by decide +kernel⟩

/-- C53: substituting multiplies the size by at most that of the replacement. -/
theorem C53_substitute (s r e e' : Expr K) (h : substitute s r e = .ok e') : size e' ≤ size r * size e := by
  obtain ⟨d, hd, h⟩ := Res.bind_eq_ok.1 h
  rw [substE_eq_substM] at hd
  exact (size_simplified h).trans (size_substM [s] [r] _ (size_pos r) (by simp) e d hd)

/-- C53: the same for simultaneous substitution, with the largest replacement. -/
theorem C53_substituteMany (ss rs : List (Expr K)) (m : Nat) (hm : 1 ≤ m) (hr : ∀ r ∈ rs, size r ≤ m) (e e' : Expr K)
    (h : substituteMany ss rs e = .ok e') : size e' ≤ m * size e := by
  unfold substituteMany at h
  split at h
  · obtain ⟨d, hd, h⟩ := Res.bind_eq_ok.1 h
    exact (size_simplified h).trans (size_substM ss rs m hm hr e d hd)
  · cases h

-- x/y with y*y for x and 1 for y
example : substituteMany [.var 0, .var 1] [.bin .mult (.var 1) (.var 1), .un (.fn .sin) (.var 0)]
    (.bin .div (.var 0) (.var 1) : Expr XRat) =
    .ok (.bin .div (.bin .mult (.var 1) (.var 1)) (.un (.fn .sin) (.var 0))) := by decide +kernel

/-- `exp(exp(...exp(x)))` -/
def tower : Nat → Expr K
  | 0 => .var 0
  | n + 1 => .un (.fn .exp) (tower n)

/-- The derivative of `tower (n + 1)`. -/
def towerDiff : Nat → Expr K
  | 0 => .un (.fn .exp) (.var 0)
  | n + 1 => .bin .mult (.un (.fn .exp) (tower (n + 1))) (towerDiff n)

omit [Num K] in
theorem size_tower (n : Nat) : size (tower n : Expr K) = n + 1 := by
  induction n with
  | zero => rfl
  | succ n ih => simp [tower, size, ih]

/-- The derivative before simplification. -/
private def towerRaw : Nat → Expr K
  | 0 => .bin .mult (.un (.fn .exp) (.var 0)) (.const (Num.lit 1))
  | n + 1 => .bin .mult (.un (.fn .exp) (tower (n + 1))) (towerRaw n)

private theorem tower_facts (n : Nat) : isConst (tower n : Expr K) = false ∧ canSimplify (tower n : Expr K) = .ok false ∧
    simplify (tower n : Expr K) = .ok (tower n) := by
  induction n with
  | zero => exact ⟨rfl, rfl, rfl⟩
  | succ n ih => simp [tower, isConst, canSimplify, simplify, ih]

private theorem raw_facts (h : Num.eqb (Num.lit 1 : K) (Num.lit 0) = false)
    (h' : Num.eqb (Num.lit 1 : K) (Num.lit 1) = true) (n : Nat) :
    isConst (towerRaw n : Expr K) = false ∧ canSimplify (towerRaw n : Expr K) = .ok true ∧
    simplify (towerRaw n : Expr K) = .ok (towerDiff n) ∧ isConst (towerDiff n : Expr K) = false ∧
    canSimplify (towerDiff n : Expr K) = .ok false := by
  induction n with
  | zero => simp [towerRaw, towerDiff, isConst, canSimplify, canBin, constCheck, unwrap, simplify, simpBin, h, h']
  | succ n ih =>
    obtain ⟨h1, h2, h3⟩ := tower_facts (K := K) (n + 1)
    obtain ⟨i1, i2, i3, i4, i5⟩ := ih
    simp [towerRaw, towerDiff, isConst, canSimplify, canBin, constCheck, simplify, simpBin, h1, h2, h3, i1, i2, i3, i4, i5]

private theorem diffE_tower (n : Nat) : diffE (.var 0) (tower (n + 1) : Expr K) = .ok (towerRaw n) := by
  induction n with
  | zero => rfl
  | succ n ih => rw [tower, diffE, ih]; rfl

/-- The bound for derivatives has the right order: here is a family of expressions with `n + 2` objects whose
derivatives have at least `(n + 2) * (n + 2) / 2` objects. -/
theorem C53_diff_quadratic (hone : Num.eqb (Num.lit 1 : K) (Num.lit 0) = false)
    (hone' : Num.eqb (Num.lit 1 : K) (Num.lit 1) = true) (n : Nat) : size (tower (n + 1) : Expr K) = n + 2 ∧
    ∃ e' : Expr K, diff (.var 0) (tower (n + 1)) = .ok e' ∧ (n + 2) * (n + 2) ≤ 2 * size e' := by
  refine ⟨size_tower _, towerDiff n, ?_, ?_⟩
  · obtain ⟨_, h2, h3, _, h5⟩ := raw_facts hone hone' n
    rw [diff, diffE_tower, Res.bind_ok]
    exact Simplifies_iff.1 ⟨2, by simp [simplifyLoop, h2, h3, h5]⟩
  · induction n with
    | zero => simp [towerDiff, size]
    | succ n ih => simp only [towerDiff, size, size_tower]; nlinarith

example : Num.eqb (Num.lit 1 : XRat) (Num.lit 0) = false ∧ Num.eqb (Num.lit 1 : XRat) (Num.lit 1) = true := by
  decide +kernel

end VM.Props
