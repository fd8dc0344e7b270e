import Verif.Rt.Vector
/-
Lemmas about vector expressions.
-/
namespace VM
variable {K : Type}

/-- The loop fills positions `i .. i + n - 1`. -/
theorem vecLoop_ok {body : Nat → Res (Expr K)} (f : Nat → Expr K) {n : Nat} :
    ∀ {i : Nat} {acc : List (Expr K)}, (∀ j, i ≤ j → j < i + n → body j = .ok (f j)) → i + n ≤ acc.length →
    ∃ r, vecLoop body i n acc = .ok r ∧ r.length = acc.length ∧
      ∀ j, r[j]? = if i ≤ j ∧ j < i + n then some (f j) else acc[j]? := by
  induction n with
  | zero => exact fun {i acc} _ _ => ⟨acc, rfl, rfl, fun j => by rw [if_neg (by omega)]⟩
  | succ n ih =>
    intro i acc hb hl
    obtain ⟨r, h1, h2, h3⟩ := ih (i := i + 1) (acc := acc.set i (f i)) (fun j h h' => hb j (by omega) (by omega))
      (by simp; omega)
    refine ⟨r, ?_, by simpa using h2, fun j => ?_⟩
    · simp [vecLoop, hb i (Nat.le_refl _) (by omega), vecSet, show i < acc.length by omega, h1]
    · rw [h3]
      by_cases hj : j = i
      · subst hj
        rw [if_neg (by omega), if_pos (by omega), List.getElem?_set_self (by omega)]
      · rw [List.getElem?_set_ne (by omega)]
        by_cases hh : i + 1 ≤ j ∧ j < i + 1 + n
        · rw [if_pos hh, if_pos (by omega)]
        · rw [if_neg hh, if_neg (by omega)]

theorem vecGet_ok {v : List (Expr K)} {i : Nat} (h : i < v.length) : vecGet v i = .ok v[i] := by
  simp [vecGet, h]

variable [Num K]

theorem vecNew_ok (n : Nat) : vecNew (K := K) n = .ok (List.replicate n (.const (Num.lit 0))) := by
  obtain ⟨r, h1, h2, h3⟩ := vecLoop_ok (body := fun _ => .ok (.const (Num.lit 0)))
    (fun _ => (.const (Num.lit 0) : Expr K)) (n := n) (i := 0) (acc := List.replicate n (.vec []))
    (fun _ _ _ => rfl) (by simp)
  rw [vecNew, h1]
  congr 1
  apply List.ext_getElem?
  intro j
  rw [h3]
  by_cases h : j < n
  · simp [h]
  · simp [h]

/-- Filling a new vector of the size of `a`. -/
theorem vecFill_ok {body : Nat → Res (Expr K)} (g : Nat → Expr K) {n : Nat}
    (h : ∀ j, j < n → body j = .ok (g j)) :
    (vecNew n).bind (vecLoop body 0 n) = .ok ((List.range n).map g) := by
  obtain ⟨r, h1, h2, h3⟩ := vecLoop_ok g (body := body) (n := n) (i := 0)
    (acc := List.replicate n (.const (Num.lit 0))) (fun j _ hj => h j (by omega)) (by simp)
  rw [vecNew_ok, Res.bind_ok, h1]
  congr 1
  apply List.ext_getElem?
  intro j
  rw [h3]
  by_cases h : j < n
  · simp [h]
  · simp [h]

omit [Num K] in
theorem map_range_eq {g : Nat → Expr K} {f : Expr K → Expr K} {a : List (Expr K)}
    (h : ∀ j (hj : j < a.length), g j = f a[j]) : (List.range a.length).map g = a.map f := by
  apply List.ext_getElem (by simp)
  intro j h1 h2
  simp at h1 h2
  simp [h j h2]

theorem vecClone_eq (a : List (Expr K)) : vecClone a = .ok a := by
  have h := vecFill_ok (body := fun i => vecGet a i) (fun j => a.getD j (.vec [])) (n := a.length)
    (fun j hj => by simp [vecGet_ok hj, hj])
  rw [vecNew_ok, Res.bind_ok] at h
  rw [vecClone, vecNew_ok, Res.bind_ok, List.length_replicate, h,
    map_range_eq (f := id) (by intro j hj; simp [hj])]
  simp

section
variable {s : Expr K} {a : List (Expr K)}

theorem vecMap_eq {body : Nat → Res (Expr K)} {f : Expr K → Expr K}
    (h : ∀ i, body i = (vecGet a i).map f) : (vecNew a.length).bind (vecLoop body 0 a.length) = .ok (a.map f) := by
  rw [vecFill_ok (fun j => f (a.getD j (.vec []))) (fun j hj => by simp [h, vecGet_ok hj, hj]),
    map_range_eq (f := f) (by intro j hj; simp [hj])]

theorem vecZip_eq {b : List (Expr K)} (hl : a.length = b.length) {body : Nat → Res (Expr K)}
    {f : Expr K → Expr K → Expr K} (h : ∀ i, body i = (vecGet a i).bind fun x => (vecGet b i).map (f x)) :
    (vecNew b.length).bind (vecLoop body 0 b.length) = .ok (List.zipWith f a b) := by
  rw [vecFill_ok (fun j => f (a.getD j (.vec [])) (b.getD j (.vec [])))
    (fun j hj => by simp [h, vecGet_ok hj, vecGet_ok (hl ▸ hj : j < a.length), hj, hl])]
  congr 1
  apply List.ext_getElem (by simp [hl])
  intro j h1 h2
  simp at h1
  simp [h1, show j < a.length by omega]

theorem vecScaleR_eq : vecScaleR a s = .ok (a.map fun x => .bin .mult x s) := vecMap_eq fun _ => rfl
theorem vecScaleL_eq : vecScaleL s a = .ok (a.map fun x => .bin .mult s x) := vecMap_eq fun _ => rfl
theorem vecDivR_eq : vecDivR a s = .ok (a.map fun x => .bin .div x s) := vecMap_eq fun _ => rfl
theorem vecDivL_eq : vecDivL s a = .ok (a.map fun x => .bin .div s x) := vecMap_eq fun _ => rfl

theorem vecAdd_eq {b : List (Expr K)} (hl : a.length = b.length) :
    vecAdd a b = .ok (List.zipWith (.bin .plus) a b) := by
  rw [vecAdd, if_pos hl]; exact vecZip_eq hl fun _ => rfl

theorem vecSub_eq {b : List (Expr K)} (hl : a.length = b.length) :
    vecSub a b = .ok (List.zipWith (.bin .minus) a b) := by
  rw [vecSub, if_pos hl]; exact vecZip_eq hl fun _ => rfl

end

/-! ### Values -/

theorem eval_bin_ok {o : Order K} {v : List K} {op : BOp} {x y : Expr K} {p q c : K} (hx : eval o v x = .ok p)
    (hy : eval o v y = .ok q) (hc : applyB op p q = .ok c) : eval o v (.bin op x y) = .ok c := by
  simp [eval, hx, hy, hc]

theorem dotFrom_eval {o : Order K} {v : List K} {acc : Expr K} {s : K} (hs : eval o v acc = .ok s)
    {ls rs : List (Expr K)} {xs ys : List K} (hl : ls.map (eval o v) = xs.map .ok)
    (hr : rs.map (eval o v) = ys.map .ok) :
    eval o v (dotFrom acc ls rs) = .ok ((List.zipWith Num.mul xs ys).foldl Num.add s) := by
  induction ls generalizing acc s rs xs ys with
  | nil =>
    cases xs with
    | nil => cases rs <;> simpa [dotFrom] using hs
    | cons => simp at hl
  | cons l ls ih =>
    cases xs with
    | nil => simp at hl
    | cons x xs =>
    simp only [List.map_cons, List.cons.injEq] at hl
    cases rs with
    | nil =>
      cases ys with
      | nil => simpa [dotFrom] using hs
      | cons => simp at hr
    | cons r rs => cases ys with
      | nil => simp at hr
      | cons y ys =>
        simp only [List.map_cons, List.cons.injEq] at hr
        exact ih (s := Num.add s (Num.mul x y)) (eval_bin_ok hs (eval_bin_ok hl.1 hr.1 rfl) rfl) hl.2 hr.2

end VM
