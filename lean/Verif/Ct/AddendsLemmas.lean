import Verif.Ct.ExpandLemmas
import Verif.Spec.CtAddends
namespace VM.Ct
open VM.Spec

section
variable {F : Type*}

namespace MonomL

theorem times_comm (a b : Monom F) : a.times b = b.times a := by
  ext1
  · exact Bool.xor_comm ..
  · exact Multiset.add_comm ..
  · exact Multiset.add_comm ..

theorem times_assoc (a b c : Monom F) : (a.times b).times c = a.times (b.times c) := by
  ext1 <;> simp only [Monom.times, Bool.xor_assoc, Multiset.add_assoc]

theorem negate_times (a b : Monom F) : a.negate.times b = (a.times b).negate := by
  ext1 <;> simp [Monom.times, Monom.negate]

variable [Field F]

theorem over_times (a b : Monom F) (d : CtExpr) : (a.over d).times b = (a.times b).over d := by
  ext1 <;> simp [Monom.times, Monom.over]

theorem over_congr {d d' : CtExpr} (h : ∀ v φ : Nat → F, cval v φ d' = cval v φ d) (a : Monom F) :
    a.over d' = a.over d := by
  simp only [Monom.over, h]

end MonomL
open MonomL

/-- All products. -/
def prods (a b : List (Monom F)) : List (Monom F) := a.flatMap fun x => b.map (Monom.times x)

theorem prods_append (a b c : List (Monom F)) : prods (a ++ b) c = prods a c ++ prods b c := by
  simp [prods]

theorem prods_negate (a b : List (Monom F)) :
    prods (a.map Monom.negate) b = (prods a b).map Monom.negate := by
  simp only [prods, List.flatMap_map, List.map_flatMap, List.map_map]
  congr; funext x; congr; funext y
  exact negate_times x y

variable [Field F]

theorem choices_mul (l r : CtExpr) : choices F (l *' r) = prods (choices F l) (choices F r) := rfl

theorem prods_over (a b : List (Monom F)) (d : CtExpr) :
    prods (a.map (Monom.over · d)) b = (prods a b).map (Monom.over · d) := by
  simp only [prods, List.flatMap_map, List.map_flatMap, List.map_map]
  congr; funext x; congr; funext y
  exact over_times x y d

omit [Field F] in
theorem prods_single (a : List (Monom F)) (x : Monom F) : prods [x] a = prods a [x] := by
  simp only [prods, List.flatMap_cons, List.flatMap_nil, List.append_nil, List.map_cons, List.map_nil]
  induction a with
  | nil => rfl
  | cons y a ih => simp [ih, times_comm x y]

theorem choices_noSum {e : CtExpr} (h : NoSum e) : choices F e = [factors F e] := by
  induction e with
  | bin l op r ihl ihr =>
    cases op with
    | plus => exact h.elim
    | minus => exact h.elim
    | mult => rw [choices_mul, ihl h.1, ihr h.2]; rfl
    | div => rw [choices, ihl h]; rfl
  | _ => rfl

theorem expand_choices :
    (∀ e, choices F (expand e) = choices F e) ∧
    ∀ e f, choices F (expandWith e f) = prods (choices F e) (choices F f) := by
  have key := expand_induction
    (P := fun e e' => choices F e' = choices F e ∧ ∀ v φ : Nat → F, cval v φ e' = cval v φ e)
    (Q := fun e f w => choices F w = prods (choices F e) (choices F f) ∧
      ∀ v φ : Nat → F, cval v φ w = cval v φ e * cval v φ f)
    ?_ ?_ ?_ ?_ ?_ ?_ ?_ ?_ ?_ ?_ ?_ ?_ ?_ ?_ ?_
  · exact ⟨fun e => (key.1 e).1, fun e f => (key.2 e f).1⟩
  · exact fun _ => ⟨rfl, fun _ _ => rfl⟩
  · exact fun _ => ⟨rfl, fun _ _ => rfl⟩
  · exact fun _ => ⟨rfl, fun _ _ => rfl⟩
  · exact fun l r l' r' hl hr => ⟨by simp only [choices, hl.1, hr.1], fun v φ => by simp only [cval, hl.2, hr.2]⟩
  · exact fun l r l' r' hl hr => ⟨by simp only [choices, hl.1, hr.1], fun v φ => by simp only [cval, hl.2, hr.2]⟩
  · refine fun l r l' r' hl hr => ⟨?_, fun v φ => by simp only [cval, hl.2, hr.2]⟩
    simp only [choices, hl.1]
    congr; funext a
    exact over_congr hr.2 a
  · exact fun l r _ _ => ⟨rfl, fun _ _ => rfl⟩
  · exact fun l r w _ _ hq => ⟨hq.1, fun v φ => hq.2 v φ⟩
  · intro l r w hl _ hq
    refine ⟨?_, fun v φ => by rw [cval_mul, mul_comm]; exact hq.2 v φ⟩
    rw [hq.1, choices_mul, choices_noSum ((hasPM_noSum l).1 hl), prods_single]
  · exact fun l r w e _ _ hq hp => ⟨hp.1.trans hq.1, fun v φ => (hp.2 v φ).trans (hq.2 v φ)⟩
  · exact fun _ _ _ => ⟨rfl, fun _ _ => rfl⟩
  · refine fun l r f l' r' hl hr => ⟨?_, fun v φ => by simp only [cval, hl.2, hr.2]; ring⟩
    simp only [choices, hl.1, hr.1, prods_append]
  · refine fun l r f l' r' hl hr => ⟨?_, fun v φ => by simp only [cval, hl.2, hr.2]; ring⟩
    simp only [choices, hl.1, hr.1, prods_append, prods_negate]
  · exact fun l r f e w _ hp hq => ⟨by rw [hq.1, hp.1], fun v φ => by rw [hq.2, hp.2]⟩
  · refine fun l r f l' _ hl => ⟨?_, fun v φ => by simp only [cval, hl.2]; ring⟩
    simp only [choices, hl.1, prods_over]

theorem readPiece_negate (p : Bool × CtExpr × List CtExpr) :
    readPiece F (!p.1, p.2) = (readPiece F p).negate := by
  obtain ⟨b, t, ds⟩ := p
  have h : ∀ m m' : Monom F, m' = m.negate → ds.foldr (fun d m => m.over d) m' =
      (ds.foldr (fun d m => m.over d) m).negate := by
    intro m m' hm
    induction ds with
    | nil => exact hm
    | cons d ds ih => rw [List.foldr_cons, List.foldr_cons, ih]; rfl
  refine h _ _ ?_
  cases b
  · rfl
  · simp [Monom.negate]

/-- An expanded expression shows its addends. -/
theorem ctPieces_expanded {e : CtExpr} (h : Expanded e) :
    (ctPieces e).map (readPiece F) = choices F e ∧ ∀ p ∈ ctPieces e, NoSum p.2.1 := by
  induction e with
  | bin l op r ihl ihr =>
    cases op with
    | plus =>
      obtain ⟨h1, h2⟩ := ihl h.1
      obtain ⟨h3, h4⟩ := ihr h.2
      simp only [ctPieces, choices, List.map_append, h1, h3, List.mem_append, true_and]
      exact fun p hp => hp.elim (h2 p) (h4 p)
    | minus =>
      obtain ⟨h1, h2⟩ := ihl h.1
      obtain ⟨h3, h4⟩ := ihr h.2
      simp only [ctPieces, choices, List.map_append, h1, ← h3, List.map_map, List.mem_append, List.mem_map]
      refine ⟨?_, ?_⟩
      · congr 2; funext p; exact readPiece_negate p
      · rintro p (hp | ⟨q, hq, rfl⟩)
        · exact h2 p hp
        · exact h4 q hq
    | mult =>
      refine ⟨?_, ?_⟩
      · rw [choices_noSum (e := l *' r) h]; rfl
      · intro p hp
        simp only [ctPieces, List.mem_singleton] at hp
        subst hp
        exact h
    | div =>
      obtain ⟨h1, h2⟩ := ihl h
      simp only [ctPieces, choices, ← h1, List.map_map, List.mem_map]
      refine ⟨rfl, ?_⟩
      rintro p ⟨q, hq, rfl⟩
      exact h2 q hq
  | _ =>
    refine ⟨rfl, ?_⟩
    intro p hp
    simp only [ctPieces, List.mem_singleton] at hp
    subst hp
    trivial

theorem choices_length (e : CtExpr) : (choices F e).length = addendCount e := by
  induction e with
  | bin l op r ihl ihr =>
    cases op <;> simp [choices, addendCount, ihl, ihr, List.length_flatMap]
  | _ => rfl

end

section

/-- What is expanded everywhere is left as it is. -/
theorem expand_settled {e : CtExpr} (h : ExpandedAll e) : expand e = e := by
  induction e with
  | bin l op r ihl ihr =>
    cases op with
    | plus => rw [expand_add, ihl h.1, ihr h.2]
    | minus => rw [expand_sub, ihl h.1, ihr h.2]
    | div => rw [expand_quot, ihl h.1, ihr h.2]
    | mult =>
      have h1 := (hasPM_noSum l).2 h.1
      have h2 := (hasPM_noSum r).2 h.2.1
      rw [expand_mul]; simp [expandProduct, h1, h2]
  | _ => simp

theorem expand_nest : (∀ e, denNest (expand e) ≤ denNest e) ∧
    ∀ e f, denNest (expandWith e f) ≤ max (denNest e) (denNest f) := by
  refine expand_induction (P := fun e e' => denNest e' ≤ denNest e)
    (Q := fun e f w => denNest w ≤ max (denNest e) (denNest f)) ?_ ?_ ?_ ?_ ?_ ?_ ?_ ?_ ?_ ?_ ?_ ?_ ?_ ?_ ?_
  all_goals intros
  all_goals simp only [denNest] at *
  all_goals omega

theorem iterate_bin (op : COp) (h : ∀ l r, expand (.bin l op r) = .bin (expand l) op (expand r)) (n : Nat)
    (l r : CtExpr) : expand^[n] (.bin l op r) = .bin (expand^[n] l) op (expand^[n] r) := by
  induction n generalizing l r with
  | zero => rfl
  | succ n ih => rw [Function.iterate_succ_apply, h, ih]; rfl

theorem iterate_fixed {e : CtExpr} {n : Nat} (h : expand (expand^[n] e) = expand^[n] e) {m : Nat} (hm : n ≤ m) :
    expand^[m] e = expand^[n] e := by
  induction m, hm using Nat.le_induction with
  | base => rfl
  | succ m _ ih => rw [Function.iterate_succ_apply', ih, h]

theorem expand_settles_aux (n : Nat) : ∀ e, Expanded e → denNest e ≤ n →
    expand (expand^[n] e) = expand^[n] e := by
  induction n using Nat.strong_induction_on with
  | _ n ih =>
    intro e he hn
    induction e with
    | bin l op r ihl ihr =>
      cases op with
      | plus =>
        simp only [denNest] at hn
        rw [iterate_bin _ expand_add, expand_add, ihl he.1 (by omega), ihr he.2 (by omega)]
      | minus =>
        simp only [denNest] at hn
        rw [iterate_bin _ expand_sub, expand_sub, ihl he.1 (by omega), ihr he.2 (by omega)]
      | mult =>
        have h : expand (l *' r) = l *' r := by
          have h1 := (hasPM_noSum l).2 he.1
          have h2 := (hasPM_noSum r).2 he.2
          rw [expand_mul]; simp [expandProduct, h1, h2]
        have h' := iterate_fixed (n := 0) (e := l *' r) h (Nat.zero_le n)
        rw [h']; exact h
      | div =>
        simp only [denNest] at hn
        rw [iterate_bin _ expand_quot, expand_quot, ihl he (by omega)]
        obtain ⟨k, rfl⟩ : ∃ k, n = k + 1 := ⟨n - 1, by omega⟩
        have h := ih k (by omega) (expand r) (expand_shape.1 r) (by have := expand_nest.1 r; omega)
        rw [Function.iterate_succ_apply _ _ r, h]
    | _ => rw [iterate_fixed (n := 0) (by simp) (Nat.zero_le n)]; simp

theorem expand_settles (e : CtExpr) (n : Nat) (hn : denNest e < n) :
    expand (expand^[n] e) = expand^[n] e := by
  obtain ⟨k, rfl⟩ : ∃ k, n = k + 1 := ⟨n - 1, by omega⟩
  rw [Function.iterate_succ_apply]
  exact expand_settles_aux k _ (expand_shape.1 e) (by have := expand_nest.1 e; omega)

theorem noSum_addendCount {e : CtExpr} (h : NoSum e) : addendCount e = 1 := by
  have := choices_length (F := ℚ) e
  rw [choices_noSum h] at this
  exact this.symm

theorem expand_atomCount :
    (∀ e, atomCount (expand e) = atomCount e) ∧
    ∀ e f, atomCount (expandWith e f) = atomCount (e *' f) := by
  have key := expand_induction
    (P := fun e e' => atomCount e' = atomCount e ∧ addendCount e' = addendCount e)
    (Q := fun e f w => atomCount w = atomCount e * addendCount f + addendCount e * atomCount f ∧
      addendCount w = addendCount e * addendCount f)
    ?_ ?_ ?_ ?_ ?_ ?_ ?_ ?_ ?_ ?_ ?_ ?_ ?_ ?_ ?_
  · exact ⟨fun e => (key.1 e).1, fun e f => (key.2 e f).1⟩
  all_goals intros
  all_goals simp only [atomCount, addendCount] at *
  all_goals simp_all
  all_goals (constructor <;> ring)

theorem nodes_expanded {e : CtExpr} (h : Expanded e) (hd : DivFree e) : nodes e + 1 = 2 * atomCount e := by
  induction e with
  | bin l op r ihl ihr =>
    cases op with
    | plus => have := ihl h.1 hd.1; have := ihr h.2 hd.2; simp only [nodes, atomCount]; omega
    | minus => have := ihl h.1 hd.1; have := ihr h.2 hd.2; simp only [nodes, atomCount]; omega
    | mult =>
      have := ihl (NoSum.expanded h.1) hd.1; have := ihr (NoSum.expanded h.2) hd.2
      simp only [nodes, atomCount, noSum_addendCount h.1, noSum_addendCount h.2]; omega
    | div => exact hd.elim
  | _ => rfl

end
end VM.Ct
