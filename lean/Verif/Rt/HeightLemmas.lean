import Verif.Spec.Height
import Verif.Rt.SizeLemmas
import Verif.Rt.Traverse
/-
How deep results are nested.
-/
namespace VM
open Spec
variable {K : Type}

theorem reach_pos (e : Expr K) : 1 ≤ reach e := by cases e <;> simp [reach]

theorem reach_dotFrom (acc : Expr K) (ls rs : List (Expr K)) (h : ls.length = rs.length) :
    reach (dotFrom acc ls rs) ≤ max (reach acc) (max (reaches ls) (reaches rs) + 1) + ls.length := by
  induction ls generalizing acc rs with
  | nil => cases rs with
    | nil => simp only [dotFrom, reaches, List.length_nil]; omega
    | cons r rs => simp at h
  | cons l ls ih => cases rs with
    | nil => simp at h
    | cons r rs =>
      rw [dotFrom]
      refine (ih _ _ (by simpa using h)).trans ?_
      simp only [reach, reaches, List.length_cons]; omega

theorem Pass.reach_le [Num K] {e e' : Expr K} (h : Pass e e') : reach e' ≤ reach e := by
  induction h with
  | const | var | fsym | vec | uid => exact Nat.le_refl _
  | unFold | fold | multZeroL | multZeroR | divZeroL => exact reach_pos _
  | @unConst _ e => have := reach_pos e; simp only [reach]; omega
  | @integConst _ _ _ e => have := reach_pos e; simp only [reach]; omega
  | un _ _ ih | integ _ _ ih => simp only [reach]; omega
  | plusZeroL _ _ _ _ _ ih | plusZeroR _ _ _ _ _ ih | minusZeroR _ _ _ _ _ ih | multOneL _ _ _ _ _ ih
  | multOneR _ _ _ _ _ ih | divOneR _ _ _ _ _ ih => simp only [reach]; omega
  | @minusZeroL l _ _ _ _ _ _ _ _ ih => have := reach_pos l; simp only [reach]; omega
  | @constL _ l _ _ _ _ _ _ _ _ _ ih => have := reach_pos l; simp only [reach]; omega
  | @constR _ _ r _ _ _ _ _ _ _ _ ih => have := reach_pos r; simp only [reach]; omega
  | dotp h =>
    obtain ⟨l, ls', r, rs', rfl, rfl, hl, rfl⟩ := dot_eq_ok h
    refine (reach_dotFrom _ _ _ hl).trans ?_
    simp only [reach, reaches, List.length_cons]; omega
  | cong _ _ _ _ _ _ ihl ihr => simp only [reach]; omega

theorem reach_simplified [Num K] {e e' : Expr K} (h : simplified e = .ok e') : reach e' ≤ reach e :=
  (simplified_induct (P := fun x => reach x ≤ reach e) (fun _ _ hp h => Nat.le_trans hp.reach_le h) h (Nat.le_refl _)).1

theorem height_le_reach : ∀ e : Expr K, height e ≤ reach e := by
  refine Expr.ind ?_ ?_ ?_ ?_ ?_ ?_ ?_
  · intros; exact Nat.le_refl _
  · intros; exact Nat.le_refl _
  · intros; exact Nat.le_refl _
  · intro op e ih; simp only [height, reach]; omega
  · intro lo hi x e h1 h2 h3; simp only [height, reach]; omega
  · intro op l r hl hr; simp only [height, reach]; omega
  · intro es h
    have : heights es ≤ reaches es := by
      induction es with
      | nil => exact Nat.le_refl _
      | cons e es ih =>
        have h1 := h e (by simp)
        have h2 := ih fun e he => h e (by simp [he])
        simp only [heights, reaches]; omega
    simp only [height, reach]; omega

theorem reach_vectorFree : ∀ e : Expr K, VectorFree e → reach e = height e := by
  refine Expr.ind ?_ ?_ ?_ ?_ ?_ ?_ ?_
  · intros; rfl
  · intros; rfl
  · intros; rfl
  · intro op e ih h; simp only [height, reach, ih h]
  · intro lo hi x e h1 h2 h3 h; simp only [height, reach, h1 h.1, h2 h.2.1, h3 h.2.2]
  · intro op l r hl hr h; simp only [height, reach, hl h.1, hr h.2]
  · intro es _ h; exact h.elim

section
variable [Num K]

theorem reach_diffFn {f : Fn} {e d e' : Expr K} (h : diffFn f e (.ok d) = .ok e') :
    reach e' ≤ max (reach d + 2) (reach e + 3) := by
  cases f <;> simp only [diffFn, Res.map_ok, Res.ok.injEq, reduceCtorEq] at h <;>
    first | contradiction | (subst h; (try simp only [reach]); omega)

omit [Num K] in
theorem reach_diffBin {op : BOp} {l r dl dr e' : Expr K} (h : diffBin op l r (.ok dl) (.ok dr) = .ok e') :
    reach e' ≤ max (max (reach dl) (reach dr)) (max (reach l) (reach r)) + 3 := by
  cases op <;> simp only [diffBin, Res.bind_ok, Res.map_ok, Res.ok.injEq, reduceCtorEq] at h <;>
    first | contradiction | (subst h; (try simp only [reach]); omega)

theorem reach_diffE (x : DVar) : ∀ (e e' : Expr K), diffE x e = .ok e' → reach e' ≤ 3 * reach e := by
  refine Expr.ind ?_ ?_ ?_ ?_ ?_ ?_ ?_
  · intro c e' h; simp only [diffE, Res.ok.injEq] at h; subst h; simp [reach]
  · intro c e' h; simp only [diffE, Res.ok.injEq] at h; subst h; simp [reach]
  · intro i t e' h
    cases x with
    | var => simp [diffE] at h
    | fsym => simp only [diffE, Res.ok.injEq] at h; subst h; simp [reach]
  · intro op e ih e' h
    have h1 := reach_pos e
    cases op with
    | fn f =>
      rw [diffE] at h
      obtain ⟨d, hd⟩ := diffFn_ok h
      rw [hd] at h
      have h2 := reach_diffFn h
      have h3 := ih d hd
      simp only [reach]; omega
    | grad =>
      cases x with
      | var => simp [diffE] at h
      | fsym j t =>
        simp only [diffE] at h
        obtain ⟨d, hd, h⟩ := Res.bind_eq_ok.1 h
        obtain ⟨b, _, h⟩ := Res.map_eq_ok.1 h
        have h3 := ih d hd
        have : reach e' ≤ reach d + 1 := by
          subst h; split
          · simp [reach]
          · simp [reach]
        simp only [reach]; omega
    | divg => simp [diffE] at h
    | pd => simp [diffE] at h
    | symInt => simp [diffE] at h
  · intro lo hi x e _ _ _ e' h; simp [diffE] at h
  · intro op l r hl hr e' h
    rw [diffE] at h
    obtain ⟨a, b, ha, hb⟩ := diffBin_ok h
    rw [ha, hb] at h
    have h1 := reach_diffBin h
    have h2 := hl a ha
    have h3 := hr b hb
    simp only [reach]; omega
  · intro es ih e' h
    rw [diffE] at h
    obtain ⟨ds, hd, rfl⟩ := Res.map_eq_ok.1 h
    have : ds.length = es.length ∧ reaches ds ≤ 3 * reaches es := by
      clear h
      induction es generalizing ds with
      | nil => simp only [diffEL, Res.ok.injEq] at hd; subst hd; simp [reaches]
      | cons e es ih2 =>
        rw [diffEL] at hd
        obtain ⟨d, hd1, hd⟩ := Res.bind_eq_ok.1 hd
        obtain ⟨ds', hd2, rfl⟩ := Res.map_eq_ok.1 hd
        have h1 := ih e (by simp) d hd1
        have h2 := ih2 (fun e he => ih e (by simp [he])) ds' hd2
        refine ⟨by simp [h2.1], ?_⟩
        simp only [reaches]; omega
    simp only [reach]; omega

theorem findRepl_mem (e r : Expr K) : ∀ ss rs : List (Expr K), findRepl e ss rs = .ok (some r) → r ∈ rs := by
  intro ss
  induction ss with
  | nil => intro rs h; simp [findRepl] at h
  | cons s ss ih =>
    intro rs h
    cases rs with
    | nil =>
      simp only [findRepl] at h
      obtain ⟨b, _, h⟩ := Res.bind_eq_ok.1 h
      cases b
      · exact ih [] (by simpa using h)
      · simp at h
    | cons r' rs =>
      simp only [findRepl] at h
      obtain ⟨b, _, h⟩ := Res.bind_eq_ok.1 h
      cases b
      · exact List.mem_cons_of_mem _ (ih rs (by simpa using h))
      · simp only [if_true, Res.ok.injEq, Option.some.injEq] at h
        subst h; exact List.mem_cons_self

theorem reach_substM (ss rs : List (Expr K)) (m : Nat) (hr : ∀ r ∈ rs, reach r ≤ m + 1) :
    ∀ e e' : Expr K, substM ss rs e = .ok e' → reach e' ≤ reach e + m := by
  have hf : ∀ e r, findRepl e ss rs = .ok (some r) → reach r ≤ reach e + m := by
    intro e r h
    have h1 := hr r (findRepl_mem e r ss rs h)
    have h2 := reach_pos e
    omega
  have hleaf : ∀ e e' : Expr K, (findRepl e ss rs).map (fun o => o.getD e) = .ok e' → reach e' ≤ reach e + m := by
    intro e e' h
    obtain ⟨o, ho, rfl⟩ := Res.map_eq_ok.1 h
    cases o with
    | none => simp
    | some r => simpa using hf e r ho
  have hL : ∀ es ds : List (Expr K), (∀ e ∈ es, ∀ e', substM ss rs e = .ok e' → reach e' ≤ reach e + m) →
      substML ss rs es = .ok ds → ds.length = es.length ∧ reaches ds ≤ reaches es + m := by
    intro es
    induction es with
    | nil => intro ds _ hd; simp only [substML, Res.ok.injEq] at hd; subst hd; simp [reaches]
    | cons e es ih2 =>
      intro ds ih hd
      rw [substML] at hd
      obtain ⟨d, hd1, hd⟩ := Res.bind_eq_ok.1 hd
      obtain ⟨ds', hd2, rfl⟩ := Res.map_eq_ok.1 hd
      have h1 := ih e (by simp) d hd1
      have h2 := ih2 ds' (fun e he => ih e (by simp [he])) hd2
      refine ⟨by simp [h2.1], ?_⟩
      simp only [reaches]; omega
  refine Expr.ind ?_ ?_ ?_ ?_ ?_ ?_ ?_
  · intro c e' h; exact hleaf _ _ h
  · intro c e' h; exact hleaf _ _ h
  · intro i t e' h; exact hleaf _ _ h
  · intro op e ih e' h
    rw [substM] at h
    obtain ⟨o, ho, h⟩ := Res.bind_eq_ok.1 h
    cases o with
    | some r => simp only [Res.ok.injEq] at h; subst h; exact hf _ _ ho
    | none =>
      obtain ⟨d, hd, rfl⟩ := Res.map_eq_ok.1 h
      have := ih d hd
      simp only [reach]; omega
  · intro lo hi x e _ _ ih e' h
    rw [substM] at h
    obtain ⟨o, ho, h⟩ := Res.bind_eq_ok.1 h
    cases o with
    | some r => simp only [Res.ok.injEq] at h; subst h; exact hf _ _ ho
    | none =>
      obtain ⟨d, hd, rfl⟩ := Res.map_eq_ok.1 h
      have := ih d hd
      simp only [reach]; omega
  · intro op l r hl hr' e' h
    rw [substM] at h
    obtain ⟨o, ho, h⟩ := Res.bind_eq_ok.1 h
    cases o with
    | some r => simp only [Res.ok.injEq] at h; subst h; exact hf _ _ ho
    | none =>
      obtain ⟨a, ha, h⟩ := Res.bind_eq_ok.1 h
      obtain ⟨b, hb, rfl⟩ := Res.map_eq_ok.1 h
      have h1 := hl a ha
      have h2 := hr' b hb
      simp only [reach]; omega
  · intro es ih e' h
    rw [substM] at h
    obtain ⟨o, ho, h⟩ := Res.bind_eq_ok.1 h
    cases o with
    | some r => simp only [Res.ok.injEq] at h; subst h; exact hf _ _ ho
    | none =>
      obtain ⟨ds, hd, rfl⟩ := Res.map_eq_ok.1 h
      have := hL es ds ih hd
      simp only [reach]; omega

end

/-- A manipulation that adds at most `m` to what its functor gets. -/
theorem reach_manipulate (F : Manip K) (m : Nat) (hF : ∀ e e', F.apply e = .ok e' → reach e' ≤ reach e + m) :
    ∀ e e' : Expr K, manipulate F e = .ok e' → reach e' ≤ reach e + m := by
  refine Expr.ind ?_ ?_ ?_ ?_ ?_ ?_ ?_
  · intro c e' h; exact hF _ _ h
  · intro c e' h; exact hF _ _ h
  · intro i t e' h; exact hF _ _ h
  · intro op e ih e' h
    rw [manipulate] at h
    split at h
    · exact hF _ _ h
    · obtain ⟨d, hd, rfl⟩ := Res.map_eq_ok.1 h
      have := ih d hd
      simp only [reach]; omega
  · intro lo hi x e _ _ ih e' h
    rw [manipulate] at h
    split at h
    · exact hF _ _ h
    · obtain ⟨d, hd, rfl⟩ := Res.map_eq_ok.1 h
      have := ih d hd
      simp only [reach]; omega
  · intro op l r hl hr e' h
    rw [manipulate] at h
    split at h
    · exact hF _ _ h
    · obtain ⟨a, ha, h⟩ := Res.bind_eq_ok.1 h
      obtain ⟨b, hb, rfl⟩ := Res.map_eq_ok.1 h
      have h1 := hl a ha
      have h2 := hr b hb
      simp only [reach]; omega
  · intro es _ e' h; exact hF _ _ h

end VM
