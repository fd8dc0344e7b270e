import Verif.Rt.VectorLemmas
import Verif.NumRat
import Verif.NumReal
import Mathlib.Algebra.BigOperators.Group.List.Basic
/-
Property C31 (vector expressions act componentwise).
-/
namespace VM.Props
variable {K : Type} [Num K]

/-- Evaluating `z` succeeds exactly if evaluating `x` and `y` succeeds, and then gives `f` of their values. -/
def EvalsTo (f : K → K → K) (x y z : Expr K) : Prop :=
  ∀ (o : Order K) (v : List K) (c : K),
    eval o v z = .ok c ↔ ∃ p q, eval o v x = .ok p ∧ eval o v y = .ok q ∧ c = f p q

private theorem evalsTo_bin {op : BOp} {f : K → K → K} (h : ∀ p q, applyB op p q = .ok (f p q)) (x y : Expr K) :
    EvalsTo f x y (.bin op x y) := by
  intro o v c
  simp only [eval, Res.both_eq_ok, h, Res.ok.injEq]
  constructor
  · rintro ⟨p, q, h1, h2, rfl⟩; exact ⟨p, q, h1, h2, rfl⟩
  · rintro ⟨p, q, h1, h2, rfl⟩; exact ⟨p, q, h1, h2, rfl⟩

/-- C31.  `a + b`: a vector of the same size, entry `i` evaluates to the sum of the entries. -/
theorem C31_add (a b : List (Expr K)) (hl : a.length = b.length) :
    ∃ c, vecAdd a b = .ok c ∧ c.length = a.length ∧ ∀ (i : Nat) (x y : Expr K), a[i]? = some x → b[i]? = some y →
      ∃ z, c[i]? = some z ∧ EvalsTo Num.add x y z :=
  ⟨_, vecAdd_eq hl, by simp [hl], fun i x y hx hy => ⟨_, by simp [List.getElem?_zipWith, hx, hy]; rfl,
    evalsTo_bin (fun _ _ => rfl) x y⟩⟩

/-- C31.  `a - b`. -/
theorem C31_sub (a b : List (Expr K)) (hl : a.length = b.length) :
    ∃ c, vecSub a b = .ok c ∧ c.length = a.length ∧ ∀ (i : Nat) (x y : Expr K), a[i]? = some x → b[i]? = some y →
      ∃ z, c[i]? = some z ∧ EvalsTo Num.sub x y z :=
  ⟨_, vecSub_eq hl, by simp [hl], fun i x y hx hy => ⟨_, by simp [List.getElem?_zipWith, hx, hy]; rfl,
    evalsTo_bin (fun _ _ => rfl) x y⟩⟩

/-- C31.  Sizes that do not match are never accepted. -/
theorem C31_size_mismatch (a b : List (Expr K)) (hl : a.length ≠ b.length) :
    vecAdd a b = .ub ∧ vecSub a b = .ub ∧ dot a b = .ub := by
  refine ⟨by simp [vecAdd, hl], by simp [vecSub, hl], ?_⟩
  cases a <;> cases b <;> simp_all [dot]

/-- C31.  `s * a` and `a * s`. -/
theorem C31_scale (s : Expr K) (a : List (Expr K)) :
    ∃ c d, vecScaleL s a = .ok c ∧ vecScaleR a s = .ok d ∧ c.length = a.length ∧ d.length = a.length ∧
      ∀ (i : Nat) (x : Expr K), a[i]? = some x → ∃ z w, c[i]? = some z ∧ d[i]? = some w ∧
        EvalsTo Num.mul s x z ∧ EvalsTo Num.mul x s w :=
  ⟨_, _, vecScaleL_eq, vecScaleR_eq, by simp, by simp, fun i x hx =>
    ⟨.bin .mult s x, .bin .mult x s, by simp [hx], by simp [hx], evalsTo_bin (fun _ _ => rfl) s x,
      evalsTo_bin (fun _ _ => rfl) x s⟩⟩

/-- C31.  `a / s` and `s / a`. -/
theorem C31_div (s : Expr K) (a : List (Expr K)) :
    ∃ c d, vecDivR a s = .ok c ∧ vecDivL s a = .ok d ∧ c.length = a.length ∧ d.length = a.length ∧
      ∀ (i : Nat) (x : Expr K), a[i]? = some x → ∃ z w, c[i]? = some z ∧ d[i]? = some w ∧
        EvalsTo Num.div x s z ∧ EvalsTo Num.div s x w :=
  ⟨_, _, vecDivR_eq, vecDivL_eq, by simp, by simp, fun i x hx =>
    ⟨.bin .div x s, .bin .div s x, by simp [hx], by simp [hx], evalsTo_bin (fun _ _ => rfl) x s,
      evalsTo_bin (fun _ _ => rfl) s x⟩⟩

/-- C31.  The dot product of two vectors with values `x :: xs` and `y :: ys` is the sum, from the left, of the
products. -/
theorem C31_dot (o : Order K) (v : List K) (a b : List (Expr K)) (x y : K) (xs ys : List K)
    (ha : a.map (eval o v) = (x :: xs).map .ok) (hb : b.map (eval o v) = (y :: ys).map .ok)
    (hl : a.length = b.length) :
    ∃ e, dot a b = .ok e ∧
      eval o v e = .ok ((List.zipWith Num.mul xs ys).foldl Num.add (Num.mul x y)) := by
  cases a with
  | nil => simp at ha
  | cons l ls => cases b with
    | nil => simp at hb
    | cons r rs =>
      simp only [List.map_cons, List.cons.injEq] at ha hb
      have hl' : ls.length = rs.length := by simpa using hl
      exact ⟨_, by rw [dot, if_pos hl'], dotFrom_eval (eval_bin_ok ha.1 hb.1 rfl) ha.2 hb.2⟩

/-- C31.  In real arithmetic: the dot product evaluates to the sum of the products. -/
theorem C31_dot_real (o : Order XReal) (v : List XReal) (a b : List (Expr XReal)) (xs ys : List ℝ)
    (ha : a.map (eval o v) = xs.map fun x => .ok (some x)) (hb : b.map (eval o v) = ys.map fun y => .ok (some y))
    (hl : a.length = b.length) (hp : 0 < a.length) :
    ∃ e, dot a b = .ok e ∧ eval o v e = .ok (some (List.zipWith (· * ·) xs ys).sum) := by
  have la : a.length = xs.length := by simpa using congrArg List.length ha
  have lb : b.length = ys.length := by simpa using congrArg List.length hb
  cases xs with
  | nil => simp at la; simp [la] at hp
  | cons x xs => cases ys with
    | nil => simp at lb; simp [hl, lb] at hp
    | cons y ys =>
      obtain ⟨e, h1, h2⟩ := C31_dot o v a b (some x) (some y) (xs.map some) (ys.map some)
        (by rw [ha]; simp) (by rw [hb]; simp) hl
      refine ⟨e, h1, ?_⟩
      rw [h2]
      have key : ∀ (zs : List ℝ) (s : ℝ), (zs.map some).foldl Num.add (some s : XReal) = some (s + zs.sum) := by
        intro zs
        induction zs with
        | nil => intro s; simp
        | cons z zs ih =>
          intro s
          have : (Num.add (some s) (some z) : XReal) = some (s + z) := rfl
          simp only [List.map_cons, List.foldl_cons, this, ih, List.sum_cons, add_assoc]
      have hz : List.zipWith Num.mul (xs.map some) (ys.map some : List XReal) =
          (List.zipWith (· * ·) xs ys).map some := by
        rw [List.zipWith_map, List.map_zipWith]; rfl
      have hm : (Num.mul (some x) (some y) : XReal) = some (x * y) := rfl
      rw [hz, hm, key]
      simp

/-- C31.  A copy has the same entries; a new vector of size `n` has `n` entries evaluating to 0. -/
theorem C31_copy (a : List (Expr K)) : vecClone a = .ok a := vecClone_eq a

theorem C31_zeros (n : Nat) : ∃ a : List (Expr K), vecNew n = .ok a ∧ a.length = n ∧
    ∀ e ∈ a, ∀ o v, eval o v e = .ok (Num.lit 0) :=
  ⟨_, vecNew_ok n, by simp, fun e he o v => by simp at he; simp [he.2, eval]⟩

/-! ### The hypotheses can be met -/

example : ([.var 0, .const (some 2)] : List (Expr XRat)).length =
    ([.var 1, .bin .plus (.var 0) (.var 1)] : List (Expr XRat)).length := rfl

/-- `(x, 2) * (y, x + y)` at `x = 3, y = 4`: `3*4 + 2*7`. -/
example : ∃ e, dot [.var 0, .const (some 2)] [.var 1, .bin .plus (.var 0) (.var 1)] = .ok e ∧
    eval leftFirst [some 3, some 4] e = .ok (some 26 : XRat) := by
  obtain ⟨e, h1, h2⟩ := C31_dot leftFirst [some 3, some 4] [.var 0, .const (some 2)]
    [.var 1, .bin .plus (.var 0) (.var 1)] (some 3 : XRat) (some 4) [some 2] [some 7]
    (by decide +kernel) (by decide +kernel) rfl
  exact ⟨e, h1, h2.trans (by decide +kernel)⟩

end VM.Props
