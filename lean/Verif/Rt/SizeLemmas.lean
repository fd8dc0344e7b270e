import Verif.Spec.Size
import Verif.Rt.SimplifyLemmas
import Verif.Rt.DiffLemmas
import Verif.Rt.SubstLemmas
/-
How large results are.
-/
namespace VM
open Spec
variable {K : Type}

theorem size_pos (e : Expr K) : 1 ≤ size e := by cases e <;> simp [size]

theorem size_dotFrom (acc : Expr K) (ls rs : List (Expr K)) (h : ls.length = rs.length) :
    size (dotFrom acc ls rs) = size acc + sizes ls + sizes rs := by
  induction ls generalizing acc rs with
  | nil => cases rs with
    | nil => simp [dotFrom, sizes]
    | cons r rs => simp at h
  | cons l ls ih => cases rs with
    | nil => simp at h
    | cons r rs =>
      rw [dotFrom, ih _ _ (by simpa using h)]
      simp only [size, sizes]; omega

theorem Pass.size_le [Num K] {e e' : Expr K} (h : Pass e e') : size e' ≤ size e := by
  induction h with
  | const | var | fsym | vec | uid => exact Nat.le_refl _
  | unFold | fold | multZeroL | multZeroR | divZeroL => exact size_pos _
  | @unConst _ e => have := size_pos e; simp only [size]; omega
  | @integConst _ _ _ e => have := size_pos e; simp only [size]; omega
  | un _ _ ih | integ _ _ ih => simp only [size]; omega
  | plusZeroL _ _ _ _ _ ih | plusZeroR _ _ _ _ _ ih | minusZeroR _ _ _ _ _ ih | multOneL _ _ _ _ _ ih
  | multOneR _ _ _ _ _ ih | divOneR _ _ _ _ _ ih => simp only [size]; omega
  | @minusZeroL l _ _ _ _ _ _ _ _ ih => have := size_pos l; simp only [size]; omega
  | @constL _ l _ _ _ _ _ _ _ _ _ ih => have := size_pos l; simp only [size]; omega
  | @constR _ _ r _ _ _ _ _ _ _ _ ih => have := size_pos r; simp only [size]; omega
  | dotp h =>
    obtain ⟨l, ls', r, rs', rfl, rfl, hl, rfl⟩ := dot_eq_ok h
    rw [size_dotFrom _ _ _ hl]; simp only [size, sizes]; omega
  | cong _ _ _ _ _ _ ihl ihr => simp only [size]; omega

theorem size_simplified [Num K] {e e' : Expr K} (h : simplified e = .ok e') : size e' ≤ size e :=
  (simplified_induct (P := fun x => size x ≤ size e) (fun _ _ hp h => Nat.le_trans hp.size_le h) h (Nat.le_refl _)).1

theorem weight_size : ∀ e : Expr K, weight e + 1 ≤ 2 * size e := by
  have hl : ∀ es : List (Expr K), (∀ e ∈ es, weight e + 1 ≤ 2 * size e) → weightL es ≤ 2 * sizes es := by
    intro es
    induction es with
    | nil => intro _; simp [weightL, sizes]
    | cons e es ih =>
      intro h
      have h1 := h e (by simp)
      have h2 := ih fun e he => h e (by simp [he])
      simp only [weightL, sizes]; omega
  refine Expr.ind ?_ ?_ ?_ ?_ ?_ ?_ ?_
  · intros; simp [weight, size]
  · intros; simp [weight, size]
  · intros; simp [weight, size]
  · intro op e ih; simp only [weight, size]; omega
  · intro lo hi x e _ _ ih; simp only [weight, size]; omega
  · intro op l r hl hr
    cases op <;> simp only [weight, size] <;> omega
  · intro es h
    have := hl es h
    simp only [weight, size]; omega

section
variable [Num K]

theorem size_diffFn {f : Fn} {e d e' : Expr K} (h : diffFn f e (.ok d) = .ok e') :
    size e' ≤ size d + 2 * size e + 4 := by
  cases f <;> simp only [diffFn, Res.map_ok, Res.ok.injEq, reduceCtorEq] at h <;>
    first | contradiction | (subst h; (try simp only [size]); omega)

omit [Num K] in
theorem size_diffBin {op : BOp} {l r dl dr e' : Expr K} (h : diffBin op l r (.ok dl) (.ok dr) = .ok e') :
    size e' ≤ size dl + size dr + size l + 3 * size r + 5 := by
  cases op <;> simp only [diffBin, Res.bind_ok, Res.map_ok, Res.ok.injEq, reduceCtorEq] at h <;>
    first | contradiction | (subst h; (try simp only [size]); omega)

theorem diffFn_ok {f : Fn} {e e' : Expr K} {d : Res (Expr K)} (h : diffFn f e d = .ok e') : ∃ d', d = .ok d' := by
  cases d with
  | ok d => exact ⟨d, rfl⟩
  | throw x => cases f <;> simp [diffFn] at h
  | ub => cases f <;> simp [diffFn] at h

omit [Num K] in
theorem diffBin_ok {op : BOp} {l r e' : Expr K} {dl dr : Res (Expr K)} (h : diffBin op l r dl dr = .ok e') :
    ∃ a b, dl = .ok a ∧ dr = .ok b := by
  cases dl with
  | ok a =>
    cases dr with
    | ok b => exact ⟨a, b, rfl, rfl⟩
    | throw x => cases op <;> simp [diffBin] at h
    | ub => cases op <;> simp [diffBin] at h
  | throw x => cases op <;> simp [diffBin] at h
  | ub => cases op <;> simp [diffBin] at h

theorem size_diffE (x : DVar) : ∀ (e e' : Expr K), diffE x e = .ok e' → size e' ≤ 2 * size e ^ 2 := by
  refine Expr.ind ?_ ?_ ?_ ?_ ?_ ?_ ?_
  · intro c e' h; simp only [diffE, Res.ok.injEq] at h; subst h; simp [size]
  · intro c e' h; simp only [diffE, Res.ok.injEq] at h; subst h; simp [size]
  · intro i t e' h
    cases x with
    | var => simp [diffE] at h
    | fsym => simp only [diffE, Res.ok.injEq] at h; subst h; simp [size]
  · intro op e ih e' h
    have h1 := size_pos e
    cases op with
    | fn f =>
      rw [diffE] at h
      obtain ⟨d, hd⟩ := diffFn_ok h
      rw [hd] at h
      have h2 := size_diffFn h
      have h3 := ih d hd
      simp only [size]; ring_nf at h3 ⊢; nlinarith
    | grad =>
      cases x with
      | var => simp [diffE] at h
      | fsym j t =>
        simp only [diffE] at h
        obtain ⟨d, hd, h⟩ := Res.bind_eq_ok.1 h
        obtain ⟨b, _, h⟩ := Res.map_eq_ok.1 h
        have h3 := ih d hd
        have : size e' ≤ size d + 1 := by
          subst h; split
          · simp [size]
          · simp [size]
        simp only [size]; ring_nf at h3 ⊢; nlinarith
    | divg => simp [diffE] at h
    | pd => simp [diffE] at h
    | symInt => simp [diffE] at h
  · intro lo hi x e _ _ _ e' h; simp [diffE] at h
  · intro op l r hl hr e' h
    rw [diffE] at h
    obtain ⟨a, b, ha, hb⟩ := diffBin_ok h
    rw [ha, hb] at h
    have h1 := size_diffBin h
    have h2 := hl a ha
    have h3 := hr b hb
    have h4 := size_pos l
    have h5 := size_pos r
    simp only [size]; ring_nf at h2 h3 ⊢; nlinarith
  · intro es ih e' h
    rw [diffE] at h
    obtain ⟨ds, hd, rfl⟩ := Res.map_eq_ok.1 h
    have : sizes ds ≤ 2 * sizes es ^ 2 := by
      clear h
      induction es generalizing ds with
      | nil => simp only [diffEL, Res.ok.injEq] at hd; subst hd; simp [sizes]
      | cons e es ih2 =>
        rw [diffEL] at hd
        obtain ⟨d, hd1, hd⟩ := Res.bind_eq_ok.1 hd
        obtain ⟨ds', hd2, rfl⟩ := Res.map_eq_ok.1 hd
        have h1 := ih e (by simp) d hd1
        have h2 := ih2 (fun e he => ih e (by simp [he])) ds' hd2
        have h3 := size_pos e
        simp only [sizes]; ring_nf at h1 h2 ⊢; nlinarith
    simp only [size]; ring_nf at this ⊢; nlinarith

theorem size_substM (ss rs : List (Expr K)) (m : Nat) (hm : 1 ≤ m) (hr : ∀ r ∈ rs, size r ≤ m) :
    ∀ e e' : Expr K, substM ss rs e = .ok e' → size e' ≤ m * size e := by
  have hf : ∀ (e r : Expr K) ss rs, (∀ r ∈ rs, size r ≤ m) → findRepl e ss rs = .ok (some r) → size r ≤ m := by
    intro e r ss
    induction ss with
    | nil => intro rs _ h; simp [findRepl] at h
    | cons s ss ih =>
      intro rs hr h
      cases rs with
      | nil =>
        simp only [findRepl] at h
        obtain ⟨b, _, h⟩ := Res.bind_eq_ok.1 h
        cases b
        · exact ih [] hr (by simpa using h)
        · simp at h
      | cons r' rs =>
        simp only [findRepl] at h
        obtain ⟨b, _, h⟩ := Res.bind_eq_ok.1 h
        cases b
        · exact ih rs (fun r hr' => hr r (by simp [hr'])) (by simpa using h)
        · simp only [if_true, Res.ok.injEq, Option.some.injEq] at h
          subst h; exact hr _ (by simp)
  have hleaf : ∀ e e' : Expr K, size e = 1 → (findRepl e ss rs).map (fun o => o.getD e) = .ok e' → size e' ≤ m * 1 := by
    intro e e' he h
    obtain ⟨o, ho, rfl⟩ := Res.map_eq_ok.1 h
    cases o with
    | none => simp [he]; omega
    | some r => simpa using hf e r ss rs hr ho
  have hL : ∀ es ds : List (Expr K), (∀ e ∈ es, ∀ e', substM ss rs e = .ok e' → size e' ≤ m * size e) →
      substML ss rs es = .ok ds → sizes ds ≤ m * sizes es := by
    intro es
    induction es with
    | nil => intro ds _ hd; simp only [substML, Res.ok.injEq] at hd; subst hd; simp [sizes]
    | cons e es ih2 =>
      intro ds ih hd
      rw [substML] at hd
      obtain ⟨d, hd1, hd⟩ := Res.bind_eq_ok.1 hd
      obtain ⟨ds', hd2, rfl⟩ := Res.map_eq_ok.1 hd
      have h1 := ih e (by simp) d hd1
      have h2 := ih2 ds' (fun e he => ih e (by simp [he])) hd2
      simp only [sizes]; nlinarith
  have hmul : ∀ n, 1 ≤ n → m ≤ m * n := fun n hn => Nat.le_mul_of_pos_right m hn
  refine Expr.ind ?_ ?_ ?_ ?_ ?_ ?_ ?_
  · intro c e' h; exact hleaf _ _ rfl h
  · intro c e' h; exact hleaf _ _ rfl h
  · intro i t e' h; exact hleaf _ _ rfl h
  · intro op e ih e' h
    rw [substM] at h
    obtain ⟨o, ho, h⟩ := Res.bind_eq_ok.1 h
    cases o with
    | some r => simp only [Res.ok.injEq] at h; subst h; exact (hf _ _ _ _ hr ho).trans (hmul _ (size_pos _))
    | none =>
      obtain ⟨d, hd, rfl⟩ := Res.map_eq_ok.1 h
      have := ih d hd
      simp only [size]; ring_nf at this ⊢; omega
  · intro lo hi x e _ _ ih e' h
    rw [substM] at h
    obtain ⟨o, ho, h⟩ := Res.bind_eq_ok.1 h
    cases o with
    | some r => simp only [Res.ok.injEq] at h; subst h; exact (hf _ _ _ _ hr ho).trans (hmul _ (size_pos _))
    | none =>
      obtain ⟨d, hd, rfl⟩ := Res.map_eq_ok.1 h
      have := ih d hd
      simp only [size]; nlinarith
  · intro op l r hl hr' e' h
    rw [substM] at h
    obtain ⟨o, ho, h⟩ := Res.bind_eq_ok.1 h
    cases o with
    | some r => simp only [Res.ok.injEq] at h; subst h; exact (hf _ _ _ _ hr ho).trans (hmul _ (size_pos _))
    | none =>
      obtain ⟨a, ha, h⟩ := Res.bind_eq_ok.1 h
      obtain ⟨b, hb, rfl⟩ := Res.map_eq_ok.1 h
      have h1 := hl a ha
      have h2 := hr' b hb
      simp only [size]; nlinarith
  · intro es ih e' h
    rw [substM] at h
    obtain ⟨o, ho, h⟩ := Res.bind_eq_ok.1 h
    cases o with
    | some r => simp only [Res.ok.injEq] at h; subst h; exact (hf _ _ _ _ hr ho).trans (hmul _ (size_pos _))
    | none =>
      obtain ⟨ds, hd, rfl⟩ := Res.map_eq_ok.1 h
      have := hL es ds ih hd
      simp only [size]; nlinarith

end
end VM
