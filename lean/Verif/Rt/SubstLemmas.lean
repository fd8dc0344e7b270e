import Verif.Rt.Subst
import Verif.Rt.EqualLemmas
import Verif.Rt.ValLemmas
import Verif.Spec.Subst
/-
Helper lemmas about substitution.
-/
namespace VM
open Spec
variable {K : Type} [Num K]

theorem findRepl_single (e s r : Expr K) : findRepl e [s] [r] =
    (deepEq e s).bind fun b => if b then .ok (some r) else .ok none := by
  simp only [findRepl]

theorem substE_eq_substM (s r e : Expr K) : substE s r e = substM [s] [r] e := by
  induction e using Expr.ind with
  | const | var | fsym =>
    simp only [substE, substM, findRepl_single]
    cases deepEq _ s <;> simp
    rename_i b; cases b <;> simp
  | un op e ih | integ _ _ _ e _ _ ih =>
    simp only [substE, substM, findRepl_single, ih]
    cases deepEq _ s <;> simp
    rename_i b; cases b <;> simp
  | bin op e f ih1 ih2 =>
    simp only [substE, substM, findRepl_single, ih1, ih2]
    cases deepEq _ s <;> simp
    rename_i b; cases b <;> simp
  | vec es ih =>
    have hl : substEL s r es = substML [s] [r] es := by
      induction es with
      | nil => rfl
      | cons e es ihl =>
        simp only [substEL, substML, ih e (by simp), ihl fun e h => ih e (by simp [h])]
    simp only [substE, substM, findRepl_single, hl]
    cases deepEq _ s <;> simp
    rename_i b; cases b <;> simp

theorem findRepl_some {e r : Expr K} {ss rs : List (Expr K)} (h : findRepl e ss rs = .ok (some r)) :
    FirstMatch ss rs e r := by
  induction ss generalizing rs with
  | nil => simp [findRepl] at h
  | cons s ss ih =>
    cases rs with
    | nil =>
      simp only [findRepl, Res.bind_eq_ok] at h
      obtain ⟨b, hb, h⟩ := h
      cases b with
      | true => simp at h
      | false =>
        obtain ⟨k, _, _, hr, _⟩ := ih (by simpa using h)
        simp at hr
    | cons r' rs =>
      simp only [findRepl, Res.bind_eq_ok] at h
      obtain ⟨b, hb, h⟩ := h
      cases b with
      | true =>
        simp only [if_true, Res.ok.injEq, Option.some.injEq] at h; subst h
        exact ⟨0, s, rfl, rfl, hb, fun j hj => absurd hj (Nat.not_lt_zero j)⟩
      | false =>
        obtain ⟨k, s', hs, hr, hm, hj⟩ := ih (by simpa using h)
        refine ⟨k + 1, s', hs, hr, hm, fun j hlt t ht => ?_⟩
        cases j with
        | zero => simp only [List.getElem?_cons_zero, Option.some.injEq] at ht; subst ht; exact hb
        | succ j => exact hj j (by omega) t (by simpa using ht)

theorem findRepl_none {e : Expr K} {ss rs : List (Expr K)} (h : findRepl e ss rs = .ok none) :
    ∀ s ∈ ss, deepEq e s = .ok false := by
  induction ss generalizing rs with
  | nil => simp
  | cons s ss ih =>
    cases rs <;> simp only [findRepl, Res.bind_eq_ok] at h <;> obtain ⟨b, hb, h⟩ := h <;>
    cases b <;> simp only [if_true, Res.ok.injEq, reduceCtorEq, Bool.false_eq_true, if_false] at h <;>
    · intro t ht
      rcases List.mem_cons.1 ht with rfl | ht
      · exact hb
      · exact ih h t ht

theorem findRepl_total {n : Nat} {e : Expr K} {ss rs : List (Expr K)} (he : VecDim n e)
    (hss : ∀ s ∈ ss, VecDim n s) (hlen : ss.length = rs.length) :
    ∃ x, findRepl e ss rs = .ok x := by
  induction ss generalizing rs with
  | nil => exact ⟨none, by simp [findRepl]⟩
  | cons s ss ih =>
    cases rs with
    | nil => simp at hlen
    | cons r rs =>
      obtain ⟨b, hb⟩ := deepEq_total he (hss s (by simp))
      simp only [findRepl, hb, Res.bind_ok]
      cases b
      · exact ih (fun s h => hss s (by simp [h])) (by simpa using hlen)
      · exact ⟨some r, rfl⟩

theorem substML_length {ss rs es es' : List (Expr K)} (h : substML ss rs es = .ok es') :
    es.length = es'.length := by
  induction es generalizing es' with
  | nil => simp only [substML, Res.ok.injEq] at h; subst h; rfl
  | cons e es ih =>
    simp only [substML, Res.bind_eq_ok, Res.map_eq_ok] at h
    obtain ⟨e', _, es'', h2, rfl⟩ := h
    simp [ih h2]

/-- What `substM` returns is described by `Replaced`. -/
theorem substM_replaced {ss rs : List (Expr K)} {e : Expr K} : ∀ {e'}, substM ss rs e = .ok e' →
    Replaced (FirstMatch ss rs) (fun t => ∀ s ∈ ss, deepEq t s = .ok false) e e' := by
  induction e using Expr.ind with
  | const | var | fsym =>
    intro e' h
    simp only [substM, Res.map_eq_ok] at h
    obtain ⟨x, hx, rfl⟩ := h
    cases x with
    | some r => exact .hit (findRepl_some hx)
    | none => first
      | exact .const (findRepl_none hx)
      | exact .var (findRepl_none hx)
      | exact .fsym (findRepl_none hx)
  | un op e ih =>
    intro e' h
    simp only [substM, Res.bind_eq_ok] at h
    obtain ⟨x, hx, h⟩ := h
    cases x with
    | some r => cases h; exact .hit (findRepl_some hx)
    | none =>
      obtain ⟨t, ht, rfl⟩ := Res.map_eq_ok.1 h
      exact .un (findRepl_none hx) (ih ht)
  | integ lo hi x e _ _ ih =>
    intro e' h
    simp only [substM, Res.bind_eq_ok] at h
    obtain ⟨x, hx, h⟩ := h
    cases x with
    | some r => cases h; exact .hit (findRepl_some hx)
    | none =>
      obtain ⟨t, ht, rfl⟩ := Res.map_eq_ok.1 h
      exact .integ (findRepl_none hx) (ih ht)
  | bin op e f ih1 ih2 =>
    intro e' h
    simp only [substM, Res.bind_eq_ok] at h
    obtain ⟨x, hx, h⟩ := h
    cases x with
    | some r => cases h; exact .hit (findRepl_some hx)
    | none =>
      obtain ⟨t, ht, h⟩ := Res.bind_eq_ok.1 h
      obtain ⟨u, hu, rfl⟩ := Res.map_eq_ok.1 h
      exact .bin (findRepl_none hx) (ih1 ht) (ih2 hu)
  | vec es ih =>
    intro e' h
    simp only [substM, Res.bind_eq_ok] at h
    obtain ⟨x, hx, h⟩ := h
    cases x with
    | some r => cases h; exact .hit (findRepl_some hx)
    | none =>
      obtain ⟨es', hl, rfl⟩ := Res.map_eq_ok.1 h
      refine .vec (findRepl_none hx) (substML_length hl) ?_
      clear hx h
      induction es generalizing es' with
      | nil => intro k e e' he; simp at he
      | cons e es ihl =>
        simp only [substML, Res.bind_eq_ok, Res.map_eq_ok] at hl
        obtain ⟨t, ht, es'', h2, rfl⟩ := hl
        intro k a a' ha ha'
        cases k with
        | zero =>
          simp only [List.getElem?_cons_zero, Option.some.injEq] at ha ha'
          subst ha ha'
          exact ih _ (by simp) ht
        | succ k =>
          exact ihl (fun e h => ih e (by simp [h])) _ h2 k a a' (by simpa using ha) (by simpa using ha')

theorem substM_total {n : Nat} {ss rs : List (Expr K)} (hss : ∀ s ∈ ss, VecDim n s)
    (hlen : ss.length = rs.length) {e : Expr K} (he : VecDim n e) : ∃ e', substM ss rs e = .ok e' := by
  induction e using Expr.ind with
  | const | var | fsym =>
    obtain ⟨x, hx⟩ := findRepl_total he hss hlen
    simp [substM, hx]
  | un op e ih =>
    obtain ⟨x, hx⟩ := findRepl_total he hss hlen
    cases he with | un _ he =>
    obtain ⟨t, ht⟩ := ih he
    cases x <;> simp [substM, hx, ht]
  | integ lo hi x e _ _ ih =>
    obtain ⟨x, hx⟩ := findRepl_total he hss hlen
    cases he with | integ _ _ _ he =>
    obtain ⟨t, ht⟩ := ih he
    cases x <;> simp [substM, hx, ht]
  | bin op e f ih1 ih2 =>
    obtain ⟨x, hx⟩ := findRepl_total he hss hlen
    cases he with | bin _ he hf =>
    obtain ⟨t, ht⟩ := ih1 he
    obtain ⟨u, hu⟩ := ih2 hf
    cases x <;> simp [substM, hx, ht, hu]
  | vec es ih =>
    obtain ⟨x, hx⟩ := findRepl_total he hss hlen
    cases he with | vec hd he =>
    clear hd
    have : ∃ es', substML ss rs es = .ok es' := by
      clear hx
      induction es with
      | nil => exact ⟨[], rfl⟩
      | cons e es ihl =>
        obtain ⟨t, ht⟩ := ih e (by simp) (he e (by simp))
        obtain ⟨u, hu⟩ := ihl (fun e h => ih e (by simp [h])) (fun e h => he e (by simp [h]))
        exact ⟨t :: u, by simp [substML, ht, hu]⟩
    obtain ⟨es', h⟩ := this
    cases x <;> simp [substM, hx, h]

omit [Num K] in
/-- `Replaced` determines its result, when a match excludes a miss and determines the replacement. -/
theorem Replaced_unique {hit : Expr K → Expr K → Prop} {miss : Expr K → Prop}
    (hex : ∀ t r, hit t r → ¬ miss t) (hun : ∀ t r r', hit t r → hit t r' → r = r') {e e1 : Expr K}
    (h1 : Replaced hit miss e e1) : ∀ {e2}, Replaced hit miss e e2 → e1 = e2 := by
  induction h1 with
  | hit h =>
    intro e2 h2
    cases h2 with
    | hit h' => exact hun _ _ _ h h'
    | _ => exact absurd ‹miss _› (hex _ _ h)
  | const h | var h | fsym h =>
    intro e2 h2
    cases h2 with
    | hit h' => exact absurd h (hex _ _ h')
    | _ => rfl
  | un h _ ih =>
    intro e2 h2
    cases h2 with
    | hit h' => exact absurd h (hex _ _ h')
    | un _ h' => rw [ih h']
  | integ h _ ih =>
    intro e2 h2
    cases h2 with
    | hit h' => exact absurd h (hex _ _ h')
    | integ _ h' => rw [ih h']
  | bin h _ _ ih1 ih2 =>
    intro e2 h2
    cases h2 with
    | hit h' => exact absurd h (hex _ _ h')
    | bin _ ha hb => rw [ih1 ha, ih2 hb]
  | @vec es es1 h hl hk ih =>
    intro e2 h2
    cases h2 with
    | hit h' => exact absurd h (hex _ _ h')
    | @vec _ es2 _ hl2 hk2 =>
      congr 1
      apply List.ext_getElem (by omega)
      intro k hk1 hk2'
      have hlt : k < es.length := by omega
      exact ih k es[k] es1[k] (by simp [hlt]) (by simp [hk1])
        (hk2 k es[k] es2[k] (by simp [hlt]) (by simp [hk2']))

theorem Spec.FirstMatch.unique {ss rs : List (Expr K)} {t r r' : Expr K} (h : FirstMatch ss rs t r)
    (h' : FirstMatch ss rs t r') : r = r' := by
  obtain ⟨k, s, hs, hr, hm, hj⟩ := h
  obtain ⟨k', s', hs', hr', hm', hj'⟩ := h'
  have : k = k' := by
    rcases Nat.lt_trichotomy k k' with h | h | h
    · rw [hj' k h s hs] at hm; cases hm
    · exact h
    · rw [hj k' h s' hs'] at hm'; cases hm'
  subst this
  rw [hr] at hr'; exact Option.some.inj hr'

theorem Spec.FirstMatch.not_miss {ss rs : List (Expr K)} {t r : Expr K} (h : FirstMatch ss rs t r) :
    ¬ ∀ s ∈ ss, deepEq t s = .ok false := by
  obtain ⟨k, s, hs, _, hm, _⟩ := h
  intro hall
  rw [hall s (List.mem_of_getElem? hs)] at hm
  cases hm

/-- Values: `w` is the vector at which the original is evaluated, `v` the one for the result. -/
theorem substM_value {o : Order K} {v w : List K} {ss rs : List (Expr K)}
    (htot : ∀ t, Arith t → ∃ x, findRepl t ss rs = .ok x) {e : Expr K} (ha : Arith e)
    (hhit : ∀ t r a, Arith t → Sub t e → findRepl t ss rs = .ok (some r) → eval o w t = .ok a →
      eval o v r = .ok a)
    (hmiss : ∀ j, Occurs j e → findRepl (.var j) ss rs = .ok none → w[j]? = v[j]?) :
    ∀ {a}, eval o w e = .ok a → ∃ t, substM ss rs e = .ok t ∧ eval o v t = .ok a := by
  induction ha with
  | const c =>
    intro a h
    obtain ⟨x, hx⟩ := htot _ (.const c)
    cases x with
    | some r => exact ⟨r, by simp [substM, hx], hhit _ _ _ (.const c) .refl hx h⟩
    | none => exact ⟨.const c, by simp [substM, hx], by simpa [eval] using h⟩
  | var i =>
    intro a h
    obtain ⟨x, hx⟩ := htot _ (.var i)
    cases x with
    | some r => exact ⟨r, by simp [substM, hx], hhit _ _ _ (.var i) .refl hx h⟩
    | none =>
      refine ⟨.var i, by simp [substM, hx], ?_⟩
      simp only [eval, hmiss i .var hx] at h ⊢
      split at h
      · exact h
      · cases h
  | @fn f e he ih =>
    intro a h
    obtain ⟨x, hx⟩ := htot _ (.fn f he)
    cases x with
    | some r => exact ⟨r, by simp [substM, hx], hhit _ _ _ (.fn f he) .refl hx h⟩
    | none =>
      simp only [eval, Res.bind_eq_ok] at h
      obtain ⟨b, hb, hc⟩ := h
      obtain ⟨t, ht, hv⟩ := ih (fun t r a h1 h2 => hhit t r a h1 (.un h2))
        (fun j hj => hmiss j (.un hj)) hb
      exact ⟨.un (.fn f) t, by simp [substM, hx, ht], by simp [eval, hv, hc]⟩
  | @bin op l r ho hl hr ih1 ih2 =>
    intro a h
    obtain ⟨x, hx⟩ := htot _ (.bin ho hl hr)
    cases x with
    | some r' => exact ⟨r', by simp [substM, hx], hhit _ _ _ (.bin ho hl hr) .refl hx h⟩
    | none =>
      simp only [eval, Res.both_eq_ok] at h
      obtain ⟨x, y, hx', hy', hz⟩ := h
      obtain ⟨t, ht, hv⟩ := ih1 (fun t r a h1 h2 => hhit t r a h1 (.binL h2))
        (fun j hj => hmiss j (.binL hj)) hx'
      obtain ⟨u, hu, hv'⟩ := ih2 (fun t r a h1 h2 => hhit t r a h1 (.binR h2))
        (fun j hj => hmiss j (.binR hj)) hy'
      exact ⟨.bin op t u, by simp [substM, hx, ht, hu], by simp [eval, hv, hv', hz]⟩

/-- Search list of variables. -/
theorem findRepl_vars (is : List Nat) (rs : List (Expr K)) (hlen : is.length = rs.length)
    (t : Expr K) : ∃ x, findRepl t (is.map .var) rs = .ok x := by
  induction is generalizing rs with
  | nil => exact ⟨none, by simp [findRepl]⟩
  | cons i is ih =>
    cases rs with
    | nil => simp at hlen
    | cons r rs =>
      rcases deepEq_var t i with ⟨h, _⟩ | ⟨h, _⟩ <;> simp only [List.map_cons, findRepl, h, Res.bind_ok]
      · exact ⟨some r, rfl⟩
      · exact ih rs (by simpa using hlen)

omit [Num K] in
theorem Spec.Sub.occurs {i : Nat} {e : Expr K} (h : Sub (.var i) e) : Occurs i e := by
  induction h with
  | refl => exact .var
  | un _ ih => exact .un ih
  | integ _ ih => exact .integBody ih
  | binL _ ih => exact .binL ih
  | binR _ ih => exact .binR ih

theorem substM_vars_value {o : Order K} {v w : List K} {is : List Nat} {rs : List (Expr K)}
    (hlen : is.length = rs.length) {e : Expr K} {a : K} (hw : ∀ j, j ∉ is → w[j]? = v[j]?)
    (hr : ∀ (k : Nat) i r, is[k]? = some i → (∀ k' < k, is[k']? ≠ some i) → rs[k]? = some r →
      Occurs i e → ∃ b, eval o v r = .ok b ∧ w[i]? = some b)
    (he : eval o w e = .ok a) : ∃ t, substM (is.map .var) rs e = .ok t ∧ eval o v t = .ok a := by
  refine substM_value (fun t _ => findRepl_vars is rs hlen t) (Arith.of_eval he) ?_ ?_ he
  · intro t r a' _ hsub hf hea
    obtain ⟨k, s, hs, hrk, hm, hlt⟩ := findRepl_some hf
    simp only [List.getElem?_map, Option.map_eq_some_iff] at hs hlt
    obtain ⟨i, hi, rfl⟩ := hs
    rcases deepEq_var t i with ⟨_, rfl⟩ | ⟨h, _⟩
    · obtain ⟨b, hb, hwi⟩ := hr k i r hi (fun k' hk' hi' => by
        have := hlt k' hk' _ ⟨i, hi', rfl⟩
        rw [hm] at this; cases this) hrk hsub.occurs
      simp only [eval, hwi, Res.ok.injEq] at hea
      exact hea ▸ hb
    · rw [h] at hm; cases hm
  · intro j _ hf
    refine hw j fun hj => ?_
    have := findRepl_none hf (.var j) (List.mem_map_of_mem hj)
    simp [deepEq] at this

theorem substM_occurs {i : Nat} {ss rs : List (Expr K)} {e e' : Expr K}
    (h : substM ss rs e = .ok e') (hmem : .var i ∈ ss) (hrs : ∀ r ∈ rs, ¬ Occurs i r)
    (hb : ¬ InInterval i e) : ¬ Occurs i e' := by
  have hr := substM_replaced h
  clear h
  induction hr with
  | hit h =>
    obtain ⟨k, s, _, hr, _⟩ := h
    exact hrs _ (List.mem_of_getElem? hr)
  | const => nofun
  | @var j hm =>
    intro ho
    cases ho
    have := hm _ hmem
    simp [deepEq] at this
  | fsym => nofun
  | un _ _ ih => intro ho; cases ho with | un ho => exact ih (fun h => hb (.un h)) ho
  | integ _ _ ih =>
    intro ho
    cases ho with
    | integLo h => exact hb (.lo h)
    | integHi h => exact hb (.hi h)
    | integVar => exact hb .var
    | integBody ho => exact ih (fun h => hb (.integ h)) ho
  | bin _ _ _ ih1 ih2 =>
    intro ho
    cases ho with
    | binL ho => exact ih1 (fun h => hb (.binL h)) ho
    | binR ho => exact ih2 (fun h => hb (.binR h)) ho
  | @vec es es' _ hl _ ih =>
    intro ho
    cases ho with
    | @vec _ a ha ho =>
      obtain ⟨k, hk, rfl⟩ := List.getElem_of_mem ha
      have hlt : k < es.length := by omega
      exact ih k es[k] es'[k] (by simp [hlt]) (by simp [hk])
        (fun h => hb (.vec (List.getElem_mem hlt) h)) ho

theorem substM_absent {ss rs : List (Expr K)} {e : Expr K}
    (h : ∀ t, SubV t e → ∀ s ∈ ss, deepEq t s = .ok false) : substM ss rs e = .ok e := by
  have hf : ∀ t, SubV t e → findRepl t ss rs = .ok none := by
    intro t ht
    have := h t ht
    clear h
    induction ss generalizing rs with
    | nil => simp [findRepl]
    | cons s ss ih =>
      cases rs <;> simp only [findRepl, this s (by simp), Res.bind_ok] <;>
        exact ih fun s hs => this s (by simp [hs])
  clear h
  induction e using Expr.ind with
  | const | var | fsym => simp [substM, hf _ .refl]
  | un op e ih => simp [substM, hf _ .refl, ih fun t ht => hf t (.un ht)]
  | integ lo hi x e _ _ ih => simp [substM, hf _ .refl, ih fun t ht => hf t (.integ ht)]
  | bin op l r ih1 ih2 =>
    simp [substM, hf _ .refl, ih1 fun t ht => hf t (.binL ht), ih2 fun t ht => hf t (.binR ht)]
  | vec es ih =>
    have : substML ss rs es = .ok es := by
      have hf' : ∀ e ∈ es, ∀ t, SubV t e → findRepl t ss rs = .ok none :=
        fun e he t ht => hf t (.vec he ht)
      clear hf
      induction es with
      | nil => rfl
      | cons e es ihl =>
        simp [substML, ih e (by simp) (hf' e (by simp)),
          ihl (fun e h => ih e (by simp [h])) (fun e h => hf' e (by simp [h]))]
    simp [substM, hf _ .refl, this]

end VM
