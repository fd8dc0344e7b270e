import Verif.Rt.SimplifyLemmas
set_option linter.unusedSectionVars false
/-
What one pass of the simplifier preserves.
-/
namespace VM
open Spec
variable {K : Type} [Num K]

/-! ### Well-formedness, dimensions, variables -/

theorem Spec.WellFormed.dotFrom {acc : Expr K} {ls rs : List (Expr K)} (ha : WellFormed acc)
    (hl : ∀ e ∈ ls, WellFormed e) (hr : ∀ e ∈ rs, WellFormed e) : WellFormed (dotFrom acc ls rs) := by
  induction ls generalizing acc rs with
  | nil => cases rs <;> exact ha
  | cons l ls ih => cases rs with
    | nil => exact ha
    | cons r rs =>
      refine ih (.bin (.inl rfl) ha (.bin (.inr (.inr (.inl rfl))) (hl _ ?_) (hr _ ?_)))
        (fun e he => hl e ?_) (fun e he => hr e ?_) <;> simp_all

theorem Pass.wellFormed {e e' : Expr K} (h : Pass e e') (hw : WellFormed e) : WellFormed e' := by
  induction h with
  | const | var | fsym | vec | uid => exact hw
  | unFold | fold | multZeroL | multZeroR | divZeroL => exact .const _
  | unConst => exact .un _ (.const _)
  | un _ _ ih => cases hw with | un _ h => exact .un _ (ih h)
  | integConst => cases hw with | integ _ h1 h2 _ => exact .integ _ h1 h2 (.const _)
  | integ _ _ ih => cases hw with | integ _ h1 h2 h3 => exact .integ _ h1 h2 (ih h3)
  | plusZeroL _ _ _ _ _ ih | multOneL _ _ _ _ _ ih => cases hw with | bin _ _ h => exact ih h
  | plusZeroR _ _ _ _ _ ih | minusZeroR _ _ _ _ _ ih | multOneR _ _ _ _ _ ih
  | divOneR _ _ _ _ _ ih => cases hw with | bin _ h _ => exact ih h
  | minusZeroL _ _ _ _ _ ih =>
    cases hw with | bin _ _ h => exact .bin (.inr (.inr (.inl rfl))) (.const _) (ih h)
  | constL _ _ _ _ _ _ ih => cases hw with | bin ho _ h => exact .bin ho (.const _) (ih h)
  | constR _ _ _ _ _ _ ih => cases hw with | bin ho h _ => exact .bin ho (ih h) (.const _)
  | cong _ _ _ _ _ _ ihl ihr => cases hw with | bin ho h h' => exact .bin ho (ihl h) (ihr h')
  | dotp h =>
    obtain ⟨l, ls, r, rs, rfl, rfl, _, rfl⟩ := dot_eq_ok h
    cases hw with
    | bin _ h1 h2 =>
      cases h1 with | vec h1 => cases h2 with | vec h2 =>
        refine WellFormed.dotFrom (.bin (.inr (.inr (.inl rfl))) (h1 _ ?_) (h2 _ ?_))
          (fun e he => h1 e ?_) (fun e he => h2 e ?_) <;> simp_all

theorem Spec.VecDim.dotFrom {n : Nat} {acc : Expr K} {ls rs : List (Expr K)} (ha : VecDim n acc)
    (hl : ∀ e ∈ ls, VecDim n e) (hr : ∀ e ∈ rs, VecDim n e) : VecDim n (dotFrom acc ls rs) := by
  induction ls generalizing acc rs with
  | nil => cases rs <;> exact ha
  | cons l ls ih => cases rs with
    | nil => exact ha
    | cons r rs =>
      refine ih (.bin _ ha (.bin _ (hl _ ?_) (hr _ ?_)))
        (fun e he => hl e ?_) (fun e he => hr e ?_) <;> simp_all

theorem Pass.vecDim {n : Nat} {e e' : Expr K} (h : Pass e e') (hw : VecDim n e) : VecDim n e' := by
  induction h with
  | const | var | fsym | vec | uid => exact hw
  | unFold | fold | multZeroL | multZeroR | divZeroL => exact .const _
  | unConst => exact .un _ (.const _)
  | un _ _ ih => cases hw with | un _ h => exact .un _ (ih h)
  | integConst => cases hw with | integ _ h1 h2 _ => exact .integ _ h1 h2 (.const _)
  | integ _ _ ih => cases hw with | integ _ h1 h2 h3 => exact .integ _ h1 h2 (ih h3)
  | plusZeroL _ _ _ _ _ ih | multOneL _ _ _ _ _ ih => cases hw with | bin _ _ h => exact ih h
  | plusZeroR _ _ _ _ _ ih | minusZeroR _ _ _ _ _ ih | multOneR _ _ _ _ _ ih
  | divOneR _ _ _ _ _ ih => cases hw with | bin _ h _ => exact ih h
  | minusZeroL _ _ _ _ _ ih => cases hw with | bin _ _ h => exact .bin _ (.const _) (ih h)
  | constL _ _ _ _ _ _ ih => cases hw with | bin _ _ h => exact .bin _ (.const _) (ih h)
  | constR _ _ _ _ _ _ ih => cases hw with | bin _ h _ => exact .bin _ (ih h) (.const _)
  | cong _ _ _ _ _ _ ihl ihr => cases hw with | bin _ h h' => exact .bin _ (ihl h) (ihr h')
  | dotp h =>
    obtain ⟨l, ls, r, rs, rfl, rfl, _, rfl⟩ := dot_eq_ok h
    cases hw with
    | bin _ h1 h2 =>
      cases h1 with | vec _ h1 => cases h2 with | vec _ h2 =>
        refine VecDim.dotFrom (.bin _ (h1 _ ?_) (h2 _ ?_))
          (fun e he => h1 e ?_) (fun e he => h2 e ?_) <;> simp_all

theorem Spec.Occurs.of_dotFrom {i : Nat} {acc : Expr K} {ls rs : List (Expr K)}
    (h : Occurs i (dotFrom acc ls rs)) :
    Occurs i acc ∨ (∃ e ∈ ls, Occurs i e) ∨ ∃ e ∈ rs, Occurs i e := by
  induction ls generalizing acc rs with
  | nil => cases rs <;> exact .inl h
  | cons l ls ih => cases rs with
    | nil => exact .inl h
    | cons r rs =>
      rcases ih h with h | ⟨e, he, h⟩ | ⟨e, he, h⟩
      · cases h with
        | binL h => exact .inl h
        | binR h => cases h with
          | binL h => exact .inr (.inl ⟨l, by simp, h⟩)
          | binR h => exact .inr (.inr ⟨r, by simp, h⟩)
      · exact .inr (.inl ⟨e, by simp [he], h⟩)
      · exact .inr (.inr ⟨e, by simp [he], h⟩)

theorem not_occurs_const {i : Nat} {c : K} : ¬ Occurs i (.const c) := nofun

theorem Pass.occurs {i : Nat} {e e' : Expr K} (h : Pass e e') (ho : Occurs i e') : Occurs i e := by
  induction h with
  | const | var | fsym | vec | uid => exact ho
  | unFold | fold | multZeroL | multZeroR | divZeroL => cases ho
  | unConst => cases ho with | un h => cases h
  | un _ _ ih => cases ho with | un h => exact .un (ih h)
  | integConst =>
    cases ho with
    | integLo h => exact .integLo h
    | integHi h => exact .integHi h
    | integVar => exact .integVar
    | integBody h => cases h
  | integ _ _ ih =>
    cases ho with
    | integLo h => exact .integLo h
    | integHi h => exact .integHi h
    | integVar => exact .integVar
    | integBody h => exact .integBody (ih h)
  | plusZeroL _ _ _ _ _ ih | multOneL _ _ _ _ _ ih => exact .binR (ih ho)
  | plusZeroR _ _ _ _ _ ih | minusZeroR _ _ _ _ _ ih | multOneR _ _ _ _ _ ih
  | divOneR _ _ _ _ _ ih => exact .binL (ih ho)
  | minusZeroL _ _ _ _ _ ih | constL _ _ _ _ _ _ ih =>
    cases ho with
    | binL h => cases h
    | binR h => exact .binR (ih h)
  | constR _ _ _ _ _ _ ih =>
    cases ho with
    | binL h => exact .binL (ih h)
    | binR h => cases h
  | cong _ _ _ _ _ _ ihl ihr =>
    cases ho with
    | binL h => exact .binL (ihl h)
    | binR h => exact .binR (ihr h)
  | dotp h =>
    obtain ⟨l, ls, r, rs, rfl, rfl, _, rfl⟩ := dot_eq_ok h
    rcases Occurs.of_dotFrom ho with h | ⟨e, he, h⟩ | ⟨e, he, h⟩
    · cases h with
      | binL h => exact .binL (.vec (by simp) h)
      | binR h => exact .binR (.vec (by simp) h)
    · exact .binL (.vec (by simp [he]) h)
    · exact .binR (.vec (by simp [he]) h)

theorem Pass.arith {e e' : Expr K} (h : Pass e e') (ha : Arith e) : Arith e' := by
  induction h with
  | const | var | fsym | vec | uid => exact ha
  | unFold | fold | multZeroL | multZeroR | divZeroL => exact .const _
  | unConst => cases ha with | fn _ h => exact .fn _ (.const _)
  | un _ _ ih => cases ha with | fn _ h => exact .fn _ (ih h)
  | integConst => cases ha
  | integ _ _ ih => cases ha
  | plusZeroL _ _ _ _ _ ih | multOneL _ _ _ _ _ ih => cases ha with | bin _ _ h => exact ih h
  | plusZeroR _ _ _ _ _ ih | minusZeroR _ _ _ _ _ ih | multOneR _ _ _ _ _ ih
  | divOneR _ _ _ _ _ ih => cases ha with | bin _ h _ => exact ih h
  | minusZeroL _ _ _ _ _ ih =>
    cases ha with | bin _ _ h => exact .bin (.inr (.inr (.inl rfl))) (.const _) (ih h)
  | constL _ _ _ _ _ _ ih => cases ha with | bin ho _ h => exact .bin ho (.const _) (ih h)
  | constR _ _ _ _ _ _ ih => cases ha with | bin ho h _ => exact .bin ho (ih h) (.const _)
  | cong _ _ _ _ _ _ ihl ihr => cases ha with | bin ho h h' => exact .bin ho (ihl h) (ihr h')
  | dotp h => cases ha with | bin _ h _ => cases h

theorem Spec.Arith.wellFormed {e : Expr K} (h : Arith e) : WellFormed e := by
  induction h with
  | const c => exact .const c
  | var i => exact .var i
  | fn f _ ih => exact .un _ ih
  | bin ho _ _ ihl ihr => exact .bin ho ihl ihr

theorem Spec.Arith.of_eval {o : Order K} {v : List K} {e : Expr K} {a : K} (h : eval o v e = .ok a) :
    Arith e := by
  induction e using Expr.ind generalizing a with
  | const c => exact .const c
  | var i => exact .var i
  | fsym i t => simp [eval] at h
  | un op e ih =>
    obtain ⟨b, hb, h⟩ := Res.bind_eq_ok.1 h
    cases op with
    | fn f => exact .fn f (ih hb)
    | _ => simp [applyU] at h
  | integ lo hi x e _ _ ih =>
    obtain ⟨b, hb, h⟩ := Res.bind_eq_ok.1 h
    cases h
  | bin op l r ihl ihr =>
    obtain ⟨x, y, hx, hy, h⟩ := Res.both_eq_ok.1 h
    refine .bin ?_ (ihl hx) (ihr hy)
    cases op <;> simp [IsArithOp]
    simp [applyB] at h
  | vec es _ => simp [eval] at h

/-! ### No exceptions -/

theorem isConst_unwrap {e : Expr K} (hw : WellFormed e) (hc : isConst e = true) :
    ∃ c, unwrap leftFirst e = .ok c := by
  obtain ⟨c, h, _⟩ := isConst_value hw hc
  exact ⟨c, h _⟩

theorem constCheck_ok {e : Expr K} {p : K → Bool} {rest : Res Bool} (hw : WellFormed e)
    (h : ∃ b, rest = .ok b) : ∃ b, constCheck e p rest = .ok b := by
  simp only [constCheck]
  split
  · obtain ⟨c, hc⟩ := isConst_unwrap hw ‹_›
    simp only [hc, Res.bind_ok]
    split
    · exact ⟨_, rfl⟩
    · exact h
  · exact h

theorem canSimplify_ok {e : Expr K} (hw : WellFormed e) : ∃ b, canSimplify e = .ok b := by
  induction hw with
  | const | var | fsym | vec => exact ⟨_, rfl⟩
  | un _ _ ih => exact ih
  | integ _ _ _ _ _ _ ih => exact ih
  | @bin op l r ho hl hr ihl ihr =>
    simp only [canSimplify]
    split
    · exact ⟨_, rfl⟩
    · obtain ⟨b, hb⟩ := ihl
      obtain ⟨b', hb'⟩ := ihr
      have he : ∃ c, ((Res.ok b).bind fun x => if x then .ok true else Res.ok b') = .ok c := by
        cases b <;> exact ⟨_, rfl⟩
      rw [hb, hb']
      rcases ho with rfl | rfl | rfl | rfl <;> simp only [canBin]
      · exact constCheck_ok hl (constCheck_ok hr he)
      · exact constCheck_ok hl (constCheck_ok hr he)
      · refine constCheck_ok hl (constCheck_ok hr ?_)
        split
        · exact ⟨_, rfl⟩
        · exact he
      · exact constCheck_ok hl (constCheck_ok hr he)

theorem simplify_ok {n : Nat} (hn : 0 < n) {e : Expr K} (hw : WellFormed e) (hd : VecDim n e) :
    ∃ e', simplify e = .ok e' := by
  induction hw with
  | const | var | fsym | vec => exact ⟨_, rfl⟩
  | @un op e hw ih =>
    cases hd with | un _ hd =>
    simp only [simplify]
    split
    · obtain ⟨c, hc⟩ := isConst_unwrap hw ‹_›
      simp only [hc, Res.bind_ok]
      split
      · next h =>
        cases op <;> simp [UOp.canSimplify] at h
        exact ⟨_, rfl⟩
      · exact ⟨_, rfl⟩
    · obtain ⟨e', he⟩ := ih hd
      exact ⟨_, by rw [he]; rfl⟩
  | @integ lo hi x e _ _ hw _ _ ih =>
    cases hd with | integ _ _ _ hd =>
    simp only [simplify]
    split
    · obtain ⟨c, hc⟩ := isConst_unwrap hw ‹_›
      exact ⟨_, by rw [hc]; rfl⟩
    · obtain ⟨e', he⟩ := ih hd
      exact ⟨_, by rw [he]; rfl⟩
  | @bin op l r ho hl hr ihl ihr =>
    cases hd with | bin _ hdl hdr =>
    simp only [simplify]
    split
    · next hc =>
      obtain ⟨c, hc⟩ := isConst_unwrap (.bin ho hl hr) (by simpa [isConst] using hc)
      exact ⟨_, by rw [hc]; rfl⟩
    · obtain ⟨l', hl'⟩ := ihl hdl
      obtain ⟨r', hr'⟩ := ihr hdr
      rw [hl', hr']
      have key : ∀ (e e' : Expr K) (f : K → Res (Expr K)), WellFormed e →
          (∀ c, ∃ e', f c = .ok e') → isConst e = true →
          ∃ e', (unwrap leftFirst e).bind f = .ok e' := by
        intro e _ f hw hf hc
        obtain ⟨c, hc⟩ := isConst_unwrap hw hc
        rw [hc]; exact hf c
      rcases ho with rfl | rfl | rfl | rfl <;> simp only [simpBin, Res.map_ok, Res.bind_ok]
      case inl =>
        split
        · refine key l l _ hl (fun c => ?_) ‹_›
          split <;> exact ⟨_, rfl⟩
        · split
          · refine key r r _ hr (fun c => ?_) ‹_›
            split <;> exact ⟨_, rfl⟩
          · exact ⟨_, rfl⟩
      case inr.inl =>
        split
        · refine key l l _ hl (fun c => ?_) ‹_›
          split <;> exact ⟨_, rfl⟩
        · split
          · refine key r r _ hr (fun c => ?_) ‹_›
            split <;> exact ⟨_, rfl⟩
          · exact ⟨_, rfl⟩
      case inr.inr.inl =>
        split
        · refine key l l _ hl (fun c => ?_) ‹_›
          split
          · exact ⟨_, rfl⟩
          · split <;> exact ⟨_, rfl⟩
        · split
          · refine key r r _ hr (fun c => ?_) ‹_›
            split
            · exact ⟨_, rfl⟩
            · split <;> exact ⟨_, rfl⟩
          · split
            · rename_i ls rs _ _ _
              cases hdl with | vec hln _ => cases hdr with | vec hrn _ =>
              cases ls with
              | nil => simp at hln; omega
              | cons a ls => cases rs with
                | nil => simp at hrn; omega
                | cons b rs =>
                  simp only [List.length_cons] at hln hrn
                  exact ⟨_, by simp only [dot]; rw [if_pos (by omega)]⟩
            · exact ⟨_, rfl⟩
      case inr.inr.inr =>
        split
        · refine key l l _ hl (fun c => ?_) ‹_›
          split <;> exact ⟨_, rfl⟩
        · split
          · refine key r r _ hr (fun c => ?_) ‹_›
            split <;> exact ⟨_, rfl⟩
          · exact ⟨_, rfl⟩

theorem simplified_ok {n : Nat} (hn : 0 < n) {e : Expr K} (hw : WellFormed e) (hd : VecDim n e) :
    ∃ e', simplified e = .ok e' := by
  have h : ∀ m, ∀ e : Expr K, weight e < m → WellFormed e → VecDim n e →
      ∃ e', simplified e = .ok e' := by
    intro m
    induction m with
    | zero => intro e h; omega
    | succ m ih =>
      intro e hm hw hd
      rw [simplified_eq]
      obtain ⟨b, hb⟩ := canSimplify_ok hw
      rw [hb]
      cases b with
      | false => exact ⟨e, rfl⟩
      | true =>
        obtain ⟨e', he⟩ := simplify_ok hn hw hd
        have hp := Pass.of_simplify he
        simp only [Res.bind_ok, if_true, he]
        exact ih e' (by have := hp.weight_lt hb; omega) (hp.wellFormed hw) (hp.vecDim hd)
  exact h _ e (Nat.lt_succ_self _) hw hd

theorem Spec.Arith.vecDim {e : Expr K} (n : Nat) (h : Arith e) : VecDim n e := by
  induction h with
  | const c => exact .const c
  | var i => exact .var i
  | fn f _ ih => exact .un _ ih
  | bin _ _ _ ihl ihr => exact .bin _ ihl ihr

theorem simplified_ok_arith {e : Expr K} (h : Arith e) : ∃ e', simplified e = .ok e' :=
  simplified_ok Nat.one_pos h.wellFormed (h.vecDim 1)

/-! ### Value -/

variable [SimpLaws K]
open SimpLaws (bad)

theorem bad_applyFn {f : Fn} {x : K} (h : bad x) : bad (applyFn f x) := by
  cases f <;> first | exact h | exact SimpLaws.bad_fn h

theorem bad_applyB {op : BOp} {x y z : K} (h : applyB op x y = .ok z) (hb : bad x ∨ bad y) : bad z := by
  cases op <;> simp only [applyB, Res.ok.injEq, reduceCtorEq] at h <;> subst h
  · exact SimpLaws.bad_add hb
  · exact SimpLaws.bad_sub hb
  · exact SimpLaws.bad_mul hb
  · exact SimpLaws.bad_div hb

end VM
