import Verif.Rt.Print
import Verif.Rt.LatexLemmas
import Verif.Spec.Print
/-
The plain text of an expression can be read back in one way only.
-/
namespace VM
open Spec
variable {K : Type} {S : K → Prop} {fmt : K → Txt}

def DRead (S : K → Prop) (fmt : K → Txt) (e : Expr K) : Prop :=
  ∀ f r s, Printable S f → deepStr fmt e ++ r = deepStr fmt f ++ s → e = f ∧ r = s

def WRead (S : K → Prop) (fmt : K → Txt) (e : Expr K) : Prop :=
  ∀ f r s, Printable S f → wrapStr e.isUnary (deepStr fmt e) ++ r = wrapStr f.isUnary (deepStr fmt f) ++ s →
    e = f ∧ r = s

theorem cut_paren {i j : Nat} {r s : Txt} (h : idTxt i ++ ')' :: r = idTxt j ++ ')' :: s) : i = j ∧ r = s := by
  have := cut (not_mem_idTxt (by decide) i) (not_mem_idTxt (by decide) j) h
  exact ⟨idTxt_inj this.1, this.2⟩

theorem cut_close {i j : Nat} {r s : Txt} (h : idTxt i ++ ']' :: r = idTxt j ++ ']' :: s) : i = j ∧ r = s := by
  have := cut (not_mem_idTxt (by decide) i) (not_mem_idTxt (by decide) j) h
  exact ⟨idTxt_inj this.1, this.2⟩

theorem cut_angle {i j : Nat} {r s : Txt} (h : idTxt i ++ '>' :: r = idTxt j ++ '>' :: s) : i = j ∧ r = s := by
  have := cut (not_mem_idTxt (by decide) i) (not_mem_idTxt (by decide) j) h
  exact ⟨idTxt_inj this.1, this.2⟩

theorem BOp.str_cases (op : BOp) : op.str = ['+'] ∨ op.str = ['-'] ∨ op.str = ['*'] ∨ op.str = ['/'] ∨
    op.str = ['i', 'd'] := by
  cases op <;> decide

theorem BOp.str_cut {op op' : BOp} {r s : Txt} (h : op.str ++ r = op'.str ++ s) : op = op' ∧ r = s := by
  have hp : BOp.plus.str = ['+'] := by decide
  have hm : BOp.minus.str = ['-'] := by decide
  have ht : BOp.mult.str = ['*'] := by decide
  have hd : BOp.div.str = ['/'] := by decide
  have hu : BOp.uid.str = ['i', 'd'] := by decide
  cases op <;> cases op' <;> simp [hp, hm, ht, hd, hu] at h ⊢ <;> exact h

theorem BOp.str_paren {op : BOp} {r s : Txt} (h : ')' :: r = op.str ++ s) : False := by
  rcases BOp.str_cases op with h' | h' | h' | h' | h' <;> simp [h'] at h

theorem wread_unary {e : Expr K} (hu : e.isUnary = true) (hd : DRead S fmt e) : WRead S fmt e := by
  intro f r s hf h
  rw [hu] at h
  cases f with
  | bin op a b =>
    cases hf with | bin _ ha hb =>
    simp only [wrapStr, if_true, Expr.isUnary, deepStr, Bool.false_eq_true, if_false, List.cons_append,
      List.nil_append, List.append_assoc, List.cons.injEq, true_and] at h
    have := hd a _ _ ha h
    exact (BOp.str_paren this.2).elim
  | _ =>
    simp only [wrapStr, if_true, Expr.isUnary, List.cons_append,
      List.nil_append, List.append_assoc, List.cons.injEq, true_and] at h
    have := hd _ _ _ hf h
    simpa using this

theorem UOp.name_cut {op op' : UOp} {r s : Txt} (h : op.name ++ '(' :: r = op'.name ++ '(' :: s) :
    op = op' ∧ r = s := by
  rcases op with f | _ | _ | i | i <;> rcases op' with g | _ | _ | j | j <;> (try cases f) <;> (try cases g) <;>
    first
    | (simp [UOp.name] at h; done)
    | (simpa [UOp.name] using h)
    | (simp only [UOp.name, List.cons_append, List.nil_append, List.append_assoc, List.cons.injEq, true_and] at h
       obtain ⟨rfl, h2⟩ := cut_angle h
       simpa using h2)
    | (simp only [UOp.name, List.cons_append, List.nil_append, List.append_assoc, List.cons.injEq, true_and] at h
       obtain ⟨rfl, h2⟩ := cut_close h
       simpa using h2)

theorem entries_read {es fs : List (Expr K)} (hW : ∀ e ∈ es, WRead S fmt e) (hf : ∀ e ∈ fs, Printable S e)
    (hl : es.length = fs.length) {r s : Txt}
    (h : entriesStr fmt es ++ ')' :: r = entriesStr fmt fs ++ ')' :: s) : es = fs ∧ r = s := by
  induction es generalizing fs with
  | nil =>
    cases fs with
    | nil => simpa [entriesStr] using h
    | cons => simp at hl
  | cons e es ih =>
    cases fs with
    | nil => simp at hl
    | cons f fs =>
      simp only [entriesStr, List.append_assoc] at h
      replace h := hW e (by simp) f _ _ (hf f (by simp)) h
      obtain ⟨rfl, h⟩ := h
      have hl' : es.length = fs.length := by simpa using hl
      have he : es.isEmpty = fs.isEmpty := by
        cases es <;> cases fs <;> simp at hl' ⊢
      rw [he] at h
      replace h := List.append_cancel_left h
      replace h := ih (fun e he => hW e (by simp [he])) (fun e he => hf e (by simp [he])) hl' h
      obtain ⟨rfl, h⟩ := h
      exact ⟨rfl, h⟩

theorem wread_bin {op : BOp} {l r : Expr K} (hl : DRead S fmt l) (hD : DRead S fmt (.bin op l r)) :
    WRead S fmt (.bin op l r) := by
  intro f u s hf h
  by_cases hu : f.isUnary = true
  · rw [hu] at h
    simp only [wrapStr, if_true, Expr.isUnary, deepStr, Bool.false_eq_true, if_false, List.cons_append,
      List.nil_append, List.append_assoc, List.cons.injEq, true_and] at h
    have := hl f _ _ hf h
    exact (BOp.str_paren this.2.symm).elim
  · rw [Bool.eq_false_iff.2 hu] at h
    simp only [wrapStr, Expr.isUnary, Bool.false_eq_true, if_false, List.cons_append,
      List.nil_append, List.cons.injEq, true_and] at h
    exact hD f _ _ hf h

theorem name_const {op : UOp} {r s : Txt} (h : op.name ++ '(' :: r = t!"constant(" ++ s) : False := by
  rcases op with f | _ | _ | i | i <;> (try cases f) <;> simp [UOp.name] at h

theorem name_var {op : UOp} {r s : Txt} (h : op.name ++ '(' :: r = t!"variable(" ++ s) : False := by
  rcases op with f | _ | _ | i | i <;> (try cases f) <;> simp [UOp.name] at h

theorem name_sym {op : UOp} {r s : Txt} (h : op.name ++ '(' :: r = t!"function_symbol<" ++ s) : False := by
  rcases op with f | _ | _ | i | i <;> (try cases f) <;> simp [UOp.name] at h

theorem name_integ {op : UOp} {r s : Txt} (h : op.name ++ '(' :: r = t!"rt_integral[" ++ s) : False := by
  rcases op with f | _ | _ | i | i <;> (try cases f) <;> simp [UOp.name] at h

theorem name_paren {op : UOp} {r s : Txt} (h : op.name ++ '(' :: r = '(' :: s) : False := by
  rcases op with f | _ | _ | i | i <;> (try cases f) <;> simp [UOp.name] at h

theorem name_bracket {op : UOp} {r s : Txt} (h : op.name ++ '(' :: r = '[' :: s) : False := by
  rcases op with f | _ | _ | i | i <;> (try cases f) <;> simp [UOp.name] at h

theorem read (hf : TellsApart S fmt) (e : Expr K) (he : Printable S e) : DRead S fmt e ∧ WRead S fmt e := by
  induction e using Expr.ind with
  | const c =>
    have hD : DRead S fmt (.const c) := by
      intro f r s hp h
      cases f with
      | const d =>
        cases he with | const hc =>
        cases hp with | const hd =>
        simp only [deepStr, List.cons_append, List.nil_append, List.append_assoc, List.cons.injEq, true_and] at h
        obtain ⟨h1, h2⟩ := cut (hf.noParen _ hc) (hf.noParen _ hd) h
        exact ⟨by rw [hf.inj _ _ hc hd h1], h2⟩
      | un op e =>
        refine (name_const (op := op) (r := deepStr fmt e ++ ')' :: s) (s := fmt c ++ ')' :: r) ?_).elim
        simpa [deepStr] using h.symm
      | _ => simp [deepStr] at h
    exact ⟨hD, wread_unary rfl hD⟩
  | var i =>
    have hD : DRead S fmt (.var i) := by
      intro f r s hp h
      cases f with
      | var j =>
        simp only [deepStr, List.cons_append, List.nil_append, List.append_assoc, List.cons.injEq, true_and] at h
        obtain ⟨rfl, h2⟩ := cut_paren h
        exact ⟨rfl, h2⟩
      | un op e =>
        refine (name_var (op := op) (r := deepStr fmt e ++ ')' :: s) (s := idTxt i ++ ')' :: r) ?_).elim
        simpa [deepStr] using h.symm
      | _ => simp [deepStr] at h
    exact ⟨hD, wread_unary rfl hD⟩
  | fsym i t =>
    have hD : DRead S fmt (.fsym i t) := by
      intro f r s hp h
      cases f with
      | fsym j u =>
        cases he with | fsym _ ht =>
        cases hp with | fsym _ hu =>
        rcases ht with rfl | rfl <;> rcases hu with rfl | rfl <;>
          simp only [deepStr, List.cons_append, List.nil_append, List.append_assoc, List.cons.injEq, true_and,
            if_true, Nat.one_ne_zero, if_false] at h
        · obtain ⟨rfl, h2⟩ := cut_paren h
          simpa using h2
        · simp at h
        · simp at h
        · obtain ⟨rfl, h2⟩ := cut_paren h
          simpa using h2
      | un op e =>
        refine (name_sym (op := op) (r := deepStr fmt e ++ ')' :: s) (s := ?_) ?_).elim
        rotate_left
        · simp only [deepStr, List.append_assoc] at h
          simpa using h.symm
      | _ => simp [deepStr] at h
    exact ⟨hD, wread_unary rfl hD⟩
  | un op e ih =>
    have hD : DRead S fmt (.un op e) := by
      intro f r s hp h
      cases he with | un _ he =>
      have ih := (ih he).1
      simp only [deepStr, List.append_assoc, List.cons_append, List.nil_append] at h
      cases f with
      | un op' e' =>
        cases hp with | un _ hp =>
        simp only [deepStr, List.append_assoc, List.cons_append, List.nil_append] at h
        replace h := UOp.name_cut h
        obtain ⟨rfl, h⟩ := h
        replace h := ih _ _ _ hp h
        obtain ⟨rfl, h⟩ := h
        simpa using h
      | const c =>
        simp only [deepStr, List.append_assoc] at h
        exact (name_const h).elim
      | var c =>
        simp only [deepStr, List.append_assoc] at h
        exact (name_var h).elim
      | fsym i t =>
        simp only [deepStr, List.append_assoc] at h
        exact (name_sym h).elim
      | integ =>
        simp only [deepStr, List.append_assoc] at h
        exact (name_integ h).elim
      | bin =>
        simp only [deepStr, List.cons_append] at h
        exact (name_paren h).elim
      | vec =>
        simp only [deepStr, List.cons_append] at h
        exact (name_bracket h).elim
    exact ⟨hD, wread_unary rfl hD⟩
  | integ lo hi x e ihl ihh ihe =>
    have hD : DRead S fmt (.integ lo hi x e) := by
      intro f r s hp h
      cases he with | integ _ hl hh he =>
      cases f with
      | integ lo' hi' x' e' =>
        cases hp with | integ _ hl' hh' he' =>
        simp only [deepStr, List.cons_append, List.nil_append, List.append_assoc, List.cons.injEq, true_and] at h
        replace h := (ihl hl).2 _ _ _ hl' h
        obtain ⟨rfl, h⟩ := h
        simp only [List.cons.injEq, true_and] at h
        replace h := (ihh hh).2 _ _ _ hh' h
        obtain ⟨rfl, h⟩ := h
        simp only [List.cons.injEq, true_and] at h
        replace h := cut_paren h
        obtain ⟨rfl, h⟩ := h
        simp only [List.cons.injEq, true_and] at h
        replace h := (ihe he).1 _ _ _ he' h
        obtain ⟨rfl, h⟩ := h
        simpa using h
      | un op e =>
        simp only [deepStr, List.append_assoc] at h
        exact (name_integ h.symm).elim
      | _ => simp [deepStr] at h
    exact ⟨hD, wread_unary rfl hD⟩
  | bin op l r ihl ihr =>
    cases he with | bin _ hl hr =>
    have hD : DRead S fmt (.bin op l r) := by
      intro f u s hp h
      cases f with
      | bin op' l' r' =>
        cases hp with | bin _ hl' hr' =>
        simp only [deepStr, List.cons_append, List.nil_append, List.append_assoc, List.cons.injEq, true_and] at h
        replace h := (ihl hl).1 _ _ _ hl' h
        obtain ⟨rfl, h⟩ := h
        replace h := BOp.str_cut h
        obtain ⟨rfl, h⟩ := h
        replace h := (ihr hr).1 _ _ _ hr' h
        obtain ⟨rfl, h⟩ := h
        simpa using h
      | un op e =>
        simp only [deepStr, List.append_assoc, List.cons_append, List.nil_append] at h
        exact (name_paren h.symm).elim
      | _ => simp [deepStr] at h
    exact ⟨hD, wread_bin (ihl hl).1 hD⟩
  | vec es ih =>
    cases he with | vec he =>
    have hD : DRead S fmt (.vec es) := by
      intro f r s hp h
      cases f with
      | vec fs =>
        cases hp with | vec hp =>
        simp only [deepStr, List.cons_append, List.nil_append, List.append_assoc, List.cons.injEq, true_and] at h
        replace h := cut_close h
        obtain ⟨hl, h⟩ := h
        simp only [List.cons.injEq, true_and] at h
        replace h := entries_read (fun e h => (ih e h (he e h)).2) hp hl h
        obtain ⟨rfl, h⟩ := h
        exact ⟨rfl, h⟩
      | un op e =>
        simp only [deepStr, List.append_assoc, List.cons_append, List.nil_append] at h
        exact (name_bracket h.symm).elim
      | _ => simp [deepStr] at h
    exact ⟨hD, wread_unary rfl hD⟩

/-- A number for each first letter (or two letters) of a text. -/
def Shown.mark : Shown K → Nat
  | .const _ => 0
  | .var _ => 1
  | .fsym _ _ => 2
  | .un _ _ => 3
  | .integ _ _ _ _ => 3
  | .bin _ _ _ => 4
  | .expr _ => 4
  | .vec _ => 5
  | .equation _ _ => 6
  | .interval _ _ => 7
  | .symbolic _ => 8

def markTxt : Nat → Txt
  | 0 => ['c'] | 1 => ['v'] | 2 => ['f'] | 3 => ['u'] | 4 => ['e', 'x'] | 5 => ['['] | 6 => ['e', 'q'] | 7 => ['i']
  | _ => ['s']

theorem exprStr_eq (fmt : K → Txt) (e : Expr K) :
    exprStr fmt e = t!"expr" ++ (if e.isUnary then t!"(" ++ (deepStr fmt e ++ t!")") else deepStr fmt e) := by
  unfold exprStr wrapStr; split <;> rfl

theorem Shown.begins (fmt : K → Txt) (a : Shown K) : ∃ t, a.str fmt = markTxt a.mark ++ t := by
  cases a with
  | expr e => rw [Shown.str, exprStr_eq]; exact ⟨_, rfl⟩
  | _ => exact ⟨_, rfl⟩

theorem Shown.mark_eq {a b : Shown K} (h : a.str fmt = b.str fmt) : a.mark = b.mark := by
  obtain ⟨t, ht⟩ := a.begins fmt
  obtain ⟨u, hu⟩ := b.begins fmt
  rw [ht, hu] at h
  cases a <;> cases b <;> first | rfl | simp [Shown.mark, markTxt] at h

/-- The expression a text of mark 0 to 5 shows. -/
def Shown.inner : Shown K → Expr K
  | .const c => .const c
  | .var i => .var i
  | .fsym i t => .fsym i t
  | .un op e => .un op e
  | .integ lo hi x e => .integ lo hi x e
  | .bin op l r => .bin op l r
  | .expr e => e
  | .vec es => .vec es
  | _ => .vec []

theorem PrintableObj.inner {a : Shown K} (h : PrintableObj S a) : Printable S a.inner := by
  cases h with
  | const h => exact .const h
  | var i => exact .var i
  | fsym i h => exact .fsym i h
  | un op h => exact .un op h
  | integ x h1 h2 h3 => exact .integ x h1 h2 h3
  | bin op h1 h2 => exact .bin op h1 h2
  | vec h => exact .vec h
  | expr h => exact h
  | _ => exact .vec (by simp)

theorem Shown.inner_eq (hf : TellsApart S fmt) {a b : Shown K} (ha : PrintableObj S a) (hb : PrintableObj S b)
    (hm : a.mark ≤ 5) (h : a.str fmt = b.str fmt) : a.inner = b.inner := by
  have key := read hf _ (PrintableObj.inner ha)
  have hmark := Shown.mark_eq h
  have deep : deepStr fmt a.inner = deepStr fmt b.inner → a.inner = b.inner := fun h' =>
    (key.1 _ [] [] (PrintableObj.inner hb) (by rw [h'])).1
  have wrap : exprStr fmt a.inner = exprStr fmt b.inner → a.inner = b.inner := fun h' =>
    (key.2 _ [] [] (PrintableObj.inner hb) (by simpa [exprStr] using h')).1
  cases a <;> cases b <;> first
    | (simp [Shown.mark] at hmark; done)
    | (simp [Shown.mark] at hm; done)
    | exact deep h
    | exact deep (List.append_cancel_left h)
    | exact wrap h

end VM
