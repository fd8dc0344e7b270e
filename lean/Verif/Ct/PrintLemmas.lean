import Verif.Ct.Print
import Verif.Rt.PrintLemmas
import Verif.Spec.CtPrint
/-
The text of a compile-time expression can be read back in one way only.
-/
namespace VM.Ct
open VM VM.Spec
variable {K : Type} {S : K → Prop} {fmt : K → Txt}

theorem longTxt_inj {m n : Int} (h : longTxt m = longTxt n) : m = n := by
  have hm : ∀ i, '-' ∉ idTxt i := fun i => not_mem_idTxt (by decide) i
  unfold longTxt at h
  split at h <;> split at h
  · have := idTxt_inj (List.cons.inj h).2; omega
  · exact absurd (h ▸ List.mem_cons_self) (hm _)
  · exact absurd (h.symm ▸ List.mem_cons_self) (hm _)
  · have := idTxt_inj h; omega

theorem angle_longTxt (n : Int) : '>' ∉ longTxt n := by
  unfold longTxt
  split
  · simpa using not_mem_idTxt (by decide) n.natAbs
  · exact not_mem_idTxt (by decide) _

theorem COp.str_cut {op op' : COp} {r s : Txt} (h : op.str ++ r = op'.str ++ s) : op = op' ∧ r = s := by
  cases op <;> cases op' <;> simp [COp.str] at h ⊢ <;> exact h

/-- An expression is read back from any text that begins with it. -/
theorem ctRead (hfmt : TellsApart S fmt) : ∀ {e f : MixExpr K} {t u r s : Txt}, ConstantsIn S e → ConstantsIn S f →
    ctStr fmt e = some t → ctStr fmt f = some u → t ++ r = u ++ s → e = f ∧ r = s
  | .const m, .const n, t, u, r, s, _, _, he, hf, h => by
    simp only [ctStr, Option.some.injEq] at he hf; subst he hf
    simp only [List.cons_append, List.nil_append, List.append_assoc, List.cons.injEq, true_and] at h
    have := cut (angle_longTxt m) (angle_longTxt n) h
    exact ⟨by rw [longTxt_inj this.1], this.2⟩
  | .var m, .var n, t, u, r, s, _, _, he, hf, h => by
    simp only [ctStr, Option.some.injEq] at he hf; subst he hf
    simp only [List.cons_append, List.nil_append, List.append_assoc, List.cons.injEq, true_and] at h
    have := cut_angle h
    exact ⟨by rw [this.1], this.2⟩
  | .rc a, .rc b, t, u, r, s, ha, hb, he, hf, h => by
    simp only [ctStr, Option.some.injEq] at he hf; subst he hf
    simp only [List.cons_append, List.nil_append, List.append_assoc, List.cons.injEq, true_and] at h
    have := cut (hfmt.noParen a ha) (hfmt.noParen b hb) h
    exact ⟨by rw [hfmt.inj a b ha hb this.1], this.2⟩
  | .bin l op x, .bin l' op' x', t, u, r, s, ha, hb, he, hf, h => by
    simp only [ctStr, Option.bind_eq_some_iff, Option.map_eq_some_iff] at he hf
    obtain ⟨t1, h1, t2, h2, rfl⟩ := he
    obtain ⟨u1, g1, u2, g2, rfl⟩ := hf
    simp only [List.cons_append, List.nil_append, List.append_assoc, List.cons.injEq, true_and] at h
    obtain ⟨rfl, k1⟩ := ctRead hfmt ha.1 hb.1 h1 g1 h
    obtain ⟨rfl, k2⟩ := COp.str_cut k1
    obtain ⟨rfl, k3⟩ := ctRead hfmt ha.2 hb.2 h2 g2 k2
    exact ⟨rfl, (List.cons.inj k3).2⟩
  | .fsym _, f, t, u, r, s, _, _, he, hf, h => by simp [ctStr] at he
  | .const _, .fsym _, t, u, r, s, _, _, he, hf, h => by simp [ctStr] at hf
  | .var _, .fsym _, t, u, r, s, _, _, he, hf, h => by simp [ctStr] at hf
  | .rc _, .fsym _, t, u, r, s, _, _, he, hf, h => by simp [ctStr] at hf
  | .bin _ _ _, .fsym _, t, u, r, s, _, _, he, hf, h => by simp [ctStr] at hf
  | .const m, .var n, t, u, r, s, _, _, he, hf, h => by
    simp only [ctStr, Option.some.injEq] at he hf; subst he hf; simp at h
  | .const m, .rc n, t, u, r, s, _, _, he, hf, h => by
    simp only [ctStr, Option.some.injEq] at he hf; subst he hf; simp at h
  | .var m, .const n, t, u, r, s, _, _, he, hf, h => by
    simp only [ctStr, Option.some.injEq] at he hf; subst he hf; simp at h
  | .var m, .rc n, t, u, r, s, _, _, he, hf, h => by
    simp only [ctStr, Option.some.injEq] at he hf; subst he hf; simp at h
  | .rc m, .const n, t, u, r, s, _, _, he, hf, h => by
    simp only [ctStr, Option.some.injEq] at he hf; subst he hf; simp at h
  | .rc m, .var n, t, u, r, s, _, _, he, hf, h => by
    simp only [ctStr, Option.some.injEq] at he hf; subst he hf; simp at h
  | .bin _ _ _, .const _, t, u, r, s, _, _, he, hf, h => by
    simp only [ctStr, Option.some.injEq, Option.bind_eq_some_iff, Option.map_eq_some_iff] at he hf
    obtain ⟨t1, h1, t2, h2, rfl⟩ := he; subst hf; simp at h
  | .bin _ _ _, .var _, t, u, r, s, _, _, he, hf, h => by
    simp only [ctStr, Option.some.injEq, Option.bind_eq_some_iff, Option.map_eq_some_iff] at he hf
    obtain ⟨t1, h1, t2, h2, rfl⟩ := he; subst hf; simp at h
  | .bin _ _ _, .rc _, t, u, r, s, _, _, he, hf, h => by
    simp only [ctStr, Option.some.injEq, Option.bind_eq_some_iff, Option.map_eq_some_iff] at he hf
    obtain ⟨t1, h1, t2, h2, rfl⟩ := he; subst hf; simp at h
  | .const _, .bin _ _ _, t, u, r, s, _, _, he, hf, h => by
    simp only [ctStr, Option.some.injEq, Option.bind_eq_some_iff, Option.map_eq_some_iff] at he hf
    obtain ⟨t1, h1, t2, h2, rfl⟩ := hf; subst he; simp at h
  | .var _, .bin _ _ _, t, u, r, s, _, _, he, hf, h => by
    simp only [ctStr, Option.some.injEq, Option.bind_eq_some_iff, Option.map_eq_some_iff] at he hf
    obtain ⟨t1, h1, t2, h2, rfl⟩ := hf; subst he; simp at h
  | .rc _, .bin _ _ _, t, u, r, s, _, _, he, hf, h => by
    simp only [ctStr, Option.some.injEq, Option.bind_eq_some_iff, Option.map_eq_some_iff] at he hf
    obtain ⟨t1, h1, t2, h2, rfl⟩ := hf; subst he; simp at h

theorem ctStr_isSome (e : MixExpr K) : (ctStr fmt e).isSome ↔ NoSymbol e := by
  induction e with
  | bin l op r hl hr =>
    simp only [NoSymbol, ← hl, ← hr, ctStr]
    cases ctStr fmt l <;> cases ctStr fmt r <;> simp
  | _ => simp [ctStr, NoSymbol]

theorem defaultable_iff (e : MixExpr K) : e.defaultable ↔ NoRunTimeConstant e := by
  induction e with
  | bin l op r hl hr => simp [NoRunTimeConstant, ← hl, ← hr, MixExpr.defaultable]
  | _ => simp [NoRunTimeConstant, MixExpr.defaultable]

theorem noConstant_in {e : MixExpr K} (h : NoRunTimeConstant e) : ConstantsIn (fun _ => False) e := by
  induction e with
  | bin l op r hl hr => exact ⟨hl h.1, hr h.2⟩
  | rc c => exact h
  | _ => trivial

theorem tells_none (fmt : K → Txt) : TellsApart (fun _ => False) fmt := ⟨fun _ h => h.elim, fun _ _ h => h.elim⟩

theorem defaultStr_eq {e : MixExpr K} {t : Txt} (h : defaultStr fmt e = some t) :
    ctStr fmt e = some t ∧ ConstantsIn (fun _ => False) e := by
  unfold defaultStr at h
  split at h
  · rename_i hd; exact ⟨h, noConstant_in ((defaultable_iff e).1 hd)⟩
  · cases h

theorem defaultStr_isSome (e : MixExpr K) : (defaultStr fmt e).isSome ↔ NoSymbol e ∧ NoRunTimeConstant e := by
  rw [← ctStr_isSome (fmt := fmt), ← defaultable_iff, defaultStr]
  split <;> simp_all

theorem entriesRead (hfmt : TellsApart S fmt) : ∀ {es fs : List (MixExpr K)} {t u r s : Txt}, es ≠ [] → fs ≠ [] →
    (∀ e ∈ es, ConstantsIn S e) → (∀ f ∈ fs, ConstantsIn S f) →
    ctEntriesStr fmt es = some t → ctEntriesStr fmt fs = some u → t ++ '>' :: r = u ++ '>' :: s → es = fs ∧ r = s
  | [], _, _, _, _, _, h, _, _, _, _, _, _ => absurd rfl h
  | _ :: _, [], _, _, _, _, _, h, _, _, _, _, _ => absurd rfl h
  | [e], [f], t, u, r, s, _, _, he, hf, h1, h2, h => by
    obtain ⟨rfl, h⟩ := ctRead hfmt (he e (by simp)) (hf f (by simp)) h1 h2 h
    exact ⟨rfl, (List.cons.inj h).2⟩
  | [e], f :: f' :: fs, t, u, r, s, _, _, he, hf, h1, h2, h => by
    simp only [ctEntriesStr, Option.bind_eq_some_iff, Option.map_eq_some_iff] at h1 h2
    obtain ⟨u1, g1, u2, g2, rfl⟩ := h2
    rw [List.append_assoc] at h
    obtain ⟨rfl, h⟩ := ctRead hfmt (he e (by simp)) (hf f (by simp)) h1 g1 h
    simp at h
  | e :: e' :: es, [f], t, u, r, s, _, _, he, hf, h1, h2, h => by
    simp only [ctEntriesStr, Option.bind_eq_some_iff, Option.map_eq_some_iff] at h1 h2
    obtain ⟨u1, g1, u2, g2, rfl⟩ := h1
    rw [List.append_assoc] at h
    obtain ⟨rfl, h⟩ := ctRead hfmt (he e (by simp)) (hf f (by simp)) g1 h2 h
    simp at h
  | e :: e' :: es, f :: f' :: fs, t, u, r, s, _, _, he, hf, h1, h2, h => by
    rw [ctEntriesStr, Option.bind_eq_some_iff] at h1 h2
    · obtain ⟨t1, k1, h1⟩ := h1
      obtain ⟨u1, g1, h2⟩ := h2
      rw [Option.map_eq_some_iff] at h1 h2
      obtain ⟨t2, k2, rfl⟩ := h1
      obtain ⟨u2, g2, rfl⟩ := h2
      simp only [List.append_assoc] at h
      obtain ⟨rfl, h⟩ := ctRead hfmt (he e (by simp)) (hf f (by simp)) k1 g1 h
      simp only [List.cons_append, List.nil_append, List.cons.injEq, true_and] at h
      obtain ⟨h3, h4⟩ := entriesRead hfmt (by simp) (by simp) (fun x hx => he x (List.mem_cons_of_mem _ hx))
        (fun x hx => hf x (List.mem_cons_of_mem _ hx)) k2 g2 h
      exact ⟨by rw [h3], h4⟩
    all_goals simp

theorem entries_isSome : ∀ es : List (MixExpr K), (ctEntriesStr fmt es).isSome ↔ ∀ e ∈ es, NoSymbol e
  | [] => by simp [ctEntriesStr]
  | [e] => by simp [ctEntriesStr, ctStr_isSome]
  | e :: f :: es => by
    have := entries_isSome (f :: es)
    rw [List.forall_mem_cons, ← this, ← ctStr_isSome (fmt := fmt), ctEntriesStr]
    · cases ctStr fmt e <;> cases ctEntriesStr fmt (f :: es) <;> simp
    · simp

end VM.Ct
