import Verif.Rt.Latex
import Verif.Spec.Latex
/-
Unique readability of the translator's output.  `LSum` ... `LAtom` is the grammar of the printed text.
-/
namespace VM
variable {K : Type}

inductive PFn where
  | exp | sin | cos | tan | ln | log
  deriving DecidableEq

def PFn.fn : PFn → Fn
  | .exp => .exp | .sin => .sin | .cos => .cos | .tan => .tan | .ln => .log | .log => .log10

def PFn.txt : PFn → Txt
  | .exp => t!" \\exp " | .sin => t!" \\sin " | .cos => t!" \\cos "
  | .tan => t!" \\tan " | .ln => t!" \\ln " | .log => t!" \\log "

mutual
inductive LSum (K : Type) where
  | mk (t : LTerm K) (rest : LTail K)
inductive LTail (K : Type) where
  | nil
  | plus (t : LTerm K) (rest : LTail K)
  | minus (p : LPrim K) (rest : LTail K)
inductive LTerm (K : Type) where
  | prod (a b : LPrim K)
  | frac (a b : LSum K)
  | atom (a : LAtom K)
inductive LPrim (K : Type) where
  | paren (s : LSum K)
  | frac (a b : LSum K)
  | atom (a : LAtom K)
inductive LAtom (K : Type) where
  | const (c : K)
  | var (i : Nat)
  | sym (i : Nat) (test : Bool)
  | fn (f : PFn) (p : LPrim K)
  | abs (s : LSum K)
  | sqrt (s : LSum K)
  | grad (p : LPrim K)
  | divg (p : LPrim K)
  | pd (i : Nat) (p : LPrim K)
  | symInt (id : Nat) (s : LSum K)
  | integ (lo hi : LSum K) (x : Nat) (s : LSum K)
end

section txt
variable (fmt : K → Txt)

mutual
def LSum.txt : LSum K → Txt
  | .mk t r => t.txt ++ r.txt
def LTail.txt : LTail K → Txt
  | .nil => []
  | .plus t r => t!" + " ++ (t.txt ++ r.txt)
  | .minus p r => t!" - " ++ (p.txt ++ r.txt)
def LTerm.txt : LTerm K → Txt
  | .prod a b => a.txt ++ (t!" \\cdot " ++ b.txt)
  | .frac a b => t!" \\frac{" ++ (a.txt ++ (t!"}{" ++ (b.txt ++ t!"} ")))
  | .atom a => a.txt
def LPrim.txt : LPrim K → Txt
  | .paren s => t!"(" ++ (s.txt ++ t!")")
  | .frac a b => t!" \\left(  \\frac{" ++ (a.txt ++ (t!"}{" ++ (b.txt ++ t!"}  \\right) ")))
  | .atom a => a.txt
def LAtom.txt : LAtom K → Txt
  | .const c => t!" " ++ (fmt c ++ t!" ")
  | .var i => t!" x_{" ++ (idTxt i ++ t!"} ")
  | .sym i true => t!" v_{" ++ (idTxt i ++ t!"} ")
  | .sym i false => t!" u_{" ++ (idTxt i ++ t!"} ")
  | .fn f p => f.txt ++ (p.txt ++ t!" ")
  | .abs s => t!" \\left|" ++ (s.txt ++ t!"\\right| ")
  | .sqrt s => t!" \\sqrt{" ++ (s.txt ++ t!"} ")
  | .grad p => t!" \\nabla " ++ (p.txt ++ t!" ")
  | .divg p => t!" \\nabla \\cdot " ++ (p.txt ++ t!" ")
  | .pd i p => t!" \\frac{\\partial " ++ (p.txt ++ (t!"}{\\partial  x_{" ++ (idTxt i ++ t!"} } ")))
  | .symInt id s => t!" \\int_{\\Omega_{" ++ (idTxt id ++ (t!"}} " ++ (s.txt ++ t!"  \\: \\mathrm{d} \\Omega ")))
  | .integ lo hi x s => t!" \\int_{  [ " ++ (lo.txt ++ (t!"; " ++ (hi.txt ++ (t!" ]  } " ++ (s.txt ++
      (t!"  \\: \\mathrm{d}  x_{" ++ (idTxt x ++ t!"}  ")))))))
end

/-- How every text starts. -/
def Opens (s : Txt) : Prop := ∃ c l, s = c :: l ∧ (c = ' ' ∨ c = '(')

variable {fmt}
theorem LAtom.opens (a : LAtom K) (r : Txt) : Opens (a.txt fmt ++ r) := by
  cases a with
  | sym i t => cases t <;> exact ⟨' ', _, rfl, .inl rfl⟩
  | fn f p => cases f <;> exact ⟨' ', _, rfl, .inl rfl⟩
  | _ => exact ⟨' ', _, rfl, .inl rfl⟩

theorem LPrim.opens (p : LPrim K) (r : Txt) : Opens (p.txt fmt ++ r) := by
  cases p with
  | atom a => exact a.opens r
  | paren s => exact ⟨'(', _, rfl, .inr rfl⟩
  | frac a b => exact ⟨' ', _, rfl, .inl rfl⟩

theorem LTerm.opens (t : LTerm K) (r : Txt) : Opens (t.txt fmt ++ r) := by
  cases t with
  | atom a => exact a.opens r
  | prod a b => rw [LTerm.txt, List.append_assoc]; exact a.opens _
  | frac a b => exact ⟨' ', _, rfl, .inl rfl⟩

theorem LSum.opens (s : LSum K) (r : Txt) : Opens (s.txt fmt ++ r) := by
  rcases s with ⟨t, u⟩
  rw [LSum.txt, List.append_assoc]; exact t.opens _

theorem not_opens {c : Char} {l : Txt} (h : Opens (c :: l)) (h1 : c ≠ ' ') (h2 : c ≠ '(') : False := by
  obtain ⟨d, m, h, hd⟩ := h
  cases h
  exact hd.elim h1 h2
end txt

section readability
variable {S : K → Prop}

mutual
def LSum.over (S : K → Prop) : LSum K → Prop
  | .mk t r => t.over S ∧ r.over S
def LTail.over (S : K → Prop) : LTail K → Prop
  | .nil => True
  | .plus t r => t.over S ∧ r.over S
  | .minus p r => p.over S ∧ r.over S
def LTerm.over (S : K → Prop) : LTerm K → Prop
  | .prod a b => a.over S ∧ b.over S
  | .frac a b => a.over S ∧ b.over S
  | .atom a => a.over S
def LPrim.over (S : K → Prop) : LPrim K → Prop
  | .paren s => s.over S
  | .frac a b => a.over S ∧ b.over S
  | .atom a => a.over S
def LAtom.over (S : K → Prop) : LAtom K → Prop
  | .const c => S c
  | .var _ => True
  | .sym _ _ => True
  | .fn _ p => p.over S
  | .abs s => s.over S
  | .sqrt s => s.over S
  | .grad p => p.over S
  | .divg p => p.over S
  | .pd _ p => p.over S
  | .symInt _ s => s.over S
  | .integ lo hi _ s => lo.over S ∧ hi.over S ∧ s.over S
end

theorem idTxt_inj {i j : Nat} (h : idTxt i = idTxt j) : i = j := by
  have := congrArg (fun l => Nat.ofDigitChars 10 l 0) h
  simpa [idTxt, Nat.ofDigitChars_ten_toDigits] using this

/-- A text without the character `d`, followed by `d`, can be cut off in one way only. -/
theorem cut {d : Char} : ∀ {a b r s : Txt}, d ∉ a → d ∉ b → a ++ d :: r = b ++ d :: s → a = b ∧ r = s
  | [], [], _, _, _, _, h => by simpa using h
  | [], c :: b, r, s, _, hb, h => by
    simp only [List.nil_append, List.cons_append, List.cons.injEq] at h
    exact absurd (by rw [h.1]; exact List.mem_cons_self) hb
  | c :: a, [], r, s, ha, _, h => by
    simp only [List.nil_append, List.cons_append, List.cons.injEq] at h
    exact absurd (by rw [← h.1]; exact List.mem_cons_self) ha
  | c :: a, c' :: b, r, s, ha, hb, h => by
    simp only [List.cons_append, List.cons.injEq] at h
    have := cut (List.not_mem_of_not_mem_cons ha) (List.not_mem_of_not_mem_cons hb) h.2
    exact ⟨by rw [h.1, this.1], this.2⟩

theorem not_mem_idTxt {c : Char} (hc : c.isDigit = false) (i : Nat) : c ∉ idTxt i := by
  intro h
  have := Nat.isDigit_of_mem_toDigits (by decide) (by decide) h
  simp [hc] at this

theorem cut_id {i j : Nat} {r s : Txt} (h : idTxt i ++ '}' :: r = idTxt j ++ '}' :: s) : i = j ∧ r = s := by
  have := cut (not_mem_idTxt (by decide) i) (not_mem_idTxt (by decide) j) h
  exact ⟨idTxt_inj this.1, this.2⟩

/-- What may follow a sum. -/
def NoSp (r : Txt) : Prop := ∀ r', r ≠ ' ' :: '+' :: r' ∧ r ≠ ' ' :: '-' :: r' ∧ r ≠ ' ' :: '\\' :: r'
def NoDot (r : Txt) : Prop := ∀ r', r ≠ ' ' :: '\\' :: r'

theorem LTail.noDot {fmt : K → Txt} (t : LTail K) {r : Txt} (h : NoSp r) : NoDot (t.txt fmt ++ r) := by
  intro r' h'
  cases t with
  | nil => exact (h _).2.2 (by simpa [LTail.txt] using h')
  | plus t rest => simp [LTail.txt] at h'
  | minus t rest => simp [LTail.txt] at h'

variable {fmt : K → Txt} (hfmt : Spec.ShowsNumbers S fmt)
include hfmt

theorem fmt_cons (c : K) : ∃ d ds, fmt c = d :: ds ∧ d ≠ 'x' ∧ d ≠ 'u' ∧ d ≠ 'v' ∧ d ≠ '\\' := by
  have h1 := hfmt.ne c
  have h2 := hfmt.start c
  cases h : fmt c with
  | nil => exact absurd h h1
  | cons d ds =>
    rw [h] at h2
    exact ⟨d, ds, rfl, by simpa using h2⟩

theorem const_readable {c c' : K} {r s : Txt} (hc : S c) (hc' : S c')
    (h : (LAtom.const c).txt fmt ++ r = (LAtom.const c').txt fmt ++ s) : c = c' ∧ r = s := by
  have h' : fmt c ++ ' ' :: r = fmt c' ++ ' ' :: s := by simpa [LAtom.txt] using h
  obtain ⟨h1, h2⟩ := cut (hfmt.noBlank c) (hfmt.noBlank c') h'
  exact ⟨hfmt.inj _ _ hc hc' h1, h2⟩

/-- A number does not look like another atom. -/
theorem const_ne {c : K} {a : LAtom K} {r s : Txt} (ha : ∀ c', a ≠ .const c') :
    (LAtom.const c).txt fmt ++ r ≠ a.txt fmt ++ s := by
  obtain ⟨d, ds, he, h1, h2, h3, h4⟩ := fmt_cons hfmt c
  intro h
  cases a with
  | const c' => exact ha _ rfl
  | var i => simp [LAtom.txt, he, h1] at h
  | sym i t => cases t <;> simp [LAtom.txt, he, h2, h3] at h
  | fn f p => cases f <;> simp [LAtom.txt, PFn.txt, he, h4] at h
  | abs s => simp [LAtom.txt, he, h4] at h
  | sqrt s => simp [LAtom.txt, he, h4] at h
  | grad s => simp [LAtom.txt, he, h4] at h
  | divg s => simp [LAtom.txt, he, h4] at h
  | pd i s => simp [LAtom.txt, he, h4] at h
  | symInt i s => simp [LAtom.txt, he, h4] at h
  | integ lo hi x s => simp [LAtom.txt, he, h4] at h

/-- An atom starts with a blank; what follows is neither a fraction nor `\\left(`. -/
theorem atom_start (a : LAtom K) (r : Txt) : (∀ r', a.txt fmt ++ r ≠ '(' :: r') ∧
    (∀ u, Opens u → a.txt fmt ++ r ≠ t!" \\frac{" ++ u) ∧
    (∀ r', a.txt fmt ++ r ≠ ' ' :: '\\' :: 'l' :: 'e' :: 'f' :: 't' :: '(' :: r') := by
  cases a with
  | const c =>
    obtain ⟨d, ds, he, h1, h2, h3, h4⟩ := fmt_cons hfmt c
    simp [LAtom.txt, he, h4]
  | var i => simp [LAtom.txt]
  | sym i t => cases t <;> simp [LAtom.txt]
  | fn f p => cases f <;> simp [LAtom.txt, PFn.txt]
  | abs s => simp [LAtom.txt]
  | sqrt s => simp [LAtom.txt]
  | grad s => simp [LAtom.txt]
  | divg s => simp [LAtom.txt]
  | pd i s =>
    refine ⟨by simp [LAtom.txt], ?_, by simp [LAtom.txt]⟩
    intro u hu h
    simp only [LAtom.txt, List.cons_append, List.nil_append, List.cons.injEq, true_and] at h
    subst h
    exact not_opens hu (by decide) (by decide)
  | symInt i s => simp [LAtom.txt]
  | integ lo hi x s => simp [LAtom.txt]

theorem prim_start (p : LPrim K) (r u : Txt) (hu : Opens u) : p.txt fmt ++ r ≠ t!" \\frac{" ++ u := by
  cases p with
  | atom a => exact (atom_start hfmt a r).2.1 u hu
  | paren s => simp [LPrim.txt]
  | frac a b => simp [LPrim.txt]

set_option linter.unusedSectionVars false in
mutual
theorem LSum.readable : ∀ (a b : LSum K) {r s : Txt}, a.over S → b.over S → NoSp r → NoSp s →
    a.txt fmt ++ r = b.txt fmt ++ s → a = b ∧ r = s
  | .mk t u, .mk t' u', r, s, ha, hb, hr, hs, h => by
    simp only [LSum.txt, List.append_assoc] at h
    obtain ⟨h1, h2⟩ := LTerm.readable t t' ha.1 hb.1 (u.noDot hr) (u'.noDot hs) h
    obtain ⟨h3, h4⟩ := LTail.readable u u' ha.2 hb.2 hr hs h2
    exact ⟨by rw [h1, h3], h4⟩
theorem LTail.readable : ∀ (a b : LTail K) {r s : Txt}, a.over S → b.over S → NoSp r → NoSp s →
    a.txt fmt ++ r = b.txt fmt ++ s → a = b ∧ r = s
  | .nil, .nil, r, s, ha, hb, hr, hs, h => by simpa [LTail.txt] using h
  | .nil, .plus t u, r, s, ha, hb, hr, hs, h => by
    exact absurd (by simpa [LTail.txt] using h) (hr _).1
  | .nil, .minus t u, r, s, ha, hb, hr, hs, h => by
    exact absurd (by simpa [LTail.txt] using h) (hr _).2.1
  | .plus t u, .nil, r, s, ha, hb, hr, hs, h => by
    exact absurd (by simpa [LTail.txt] using h.symm) (hs _).1
  | .minus t u, .nil, r, s, ha, hb, hr, hs, h => by
    exact absurd (by simpa [LTail.txt] using h.symm) (hs _).2.1
  | .plus t u, .minus t' u', r, s, ha, hb, hr, hs, h => by simp [LTail.txt] at h
  | .minus t u, .plus t' u', r, s, ha, hb, hr, hs, h => by simp [LTail.txt] at h
  | .plus t u, .plus t' u', r, s, ha, hb, hr, hs, h => by
    simp only [LTail.txt, List.append_assoc, List.append_cancel_left_eq] at h
    obtain ⟨h1, h2⟩ := LTerm.readable t t' ha.1 hb.1 (u.noDot hr) (u'.noDot hs) h
    obtain ⟨h3, h4⟩ := LTail.readable u u' ha.2 hb.2 hr hs h2
    exact ⟨by rw [h1, h3], h4⟩
  | .minus t u, .minus t' u', r, s, ha, hb, hr, hs, h => by
    simp only [LTail.txt, List.append_assoc, List.append_cancel_left_eq] at h
    obtain ⟨h1, h2⟩ := LPrim.readable t t' ha.1 hb.1 h
    obtain ⟨h3, h4⟩ := LTail.readable u u' ha.2 hb.2 hr hs h2
    exact ⟨by rw [h1, h3], h4⟩
theorem LTerm.readable : ∀ (a b : LTerm K) {r s : Txt}, a.over S → b.over S → NoDot r → NoDot s →
    a.txt fmt ++ r = b.txt fmt ++ s → a = b ∧ r = s
  | .atom a, .atom b, r, s, ha, hb, hr, hs, h => by
    obtain ⟨h1, h2⟩ := LAtom.readable a b ha hb h
    exact ⟨by rw [h1], h2⟩
  | .atom a, .frac x y, r, s, ha, hb, hr, hs, h => by
    simp only [LTerm.txt, List.append_assoc] at h
    exact absurd h ((atom_start hfmt a r).2.1 _ (x.opens _))
  | .frac x y, .atom a, r, s, ha, hb, hr, hs, h => by
    simp only [LTerm.txt, List.append_assoc] at h
    exact absurd h.symm ((atom_start hfmt a s).2.1 _ (x.opens _))
  | .prod x y, .frac u v, r, s, ha, hb, hr, hs, h => by
    simp only [LTerm.txt, List.append_assoc] at h
    exact absurd h (prim_start hfmt x _ _ (u.opens _))
  | .frac u v, .prod x y, r, s, ha, hb, hr, hs, h => by
    simp only [LTerm.txt, List.append_assoc] at h
    exact absurd h.symm (prim_start hfmt x _ _ (u.opens _))
  | .frac x y, .frac u v, r, s, ha, hb, hr, hs, h => by
    simp only [LTerm.txt, List.append_assoc, List.append_cancel_left_eq] at h
    obtain ⟨h1, h2⟩ := LSum.readable x u ha.1 hb.1 (by simp [NoSp]) (by simp [NoSp]) h
    simp only [List.append_cancel_left_eq] at h2
    obtain ⟨h3, h4⟩ := LSum.readable y v ha.2 hb.2 (by simp [NoSp]) (by simp [NoSp]) h2
    exact ⟨by rw [h1, h3], by simpa using h4⟩
  | .prod x y, .prod u v, r, s, ha, hb, hr, hs, h => by
    simp only [LTerm.txt, List.append_assoc] at h
    obtain ⟨h1, h2⟩ := LPrim.readable x u ha.1 hb.1 h
    simp only [List.append_cancel_left_eq] at h2
    obtain ⟨h3, h4⟩ := LPrim.readable y v ha.2 hb.2 h2
    exact ⟨by rw [h1, h3], h4⟩
  | .atom a, .prod (.atom b) y, r, s, ha, hb, hr, hs, h => by
    simp only [LTerm.txt, LPrim.txt, List.append_assoc] at h
    obtain ⟨h1, h2⟩ := LAtom.readable a b ha hb.1 h
    exact absurd h2 (hr _)
  | .prod (.atom b) y, .atom a, r, s, ha, hb, hr, hs, h => by
    simp only [LTerm.txt, LPrim.txt, List.append_assoc] at h
    obtain ⟨h1, h2⟩ := LAtom.readable b a ha.1 hb h
    exact absurd h2.symm (hs _)
  | .atom a, .prod (.paren b) y, r, s, ha, hb, hr, hs, h => by
    simp only [LTerm.txt, LPrim.txt, List.append_assoc, List.cons_append] at h
    exact absurd h ((atom_start hfmt a r).1 _)
  | .prod (.paren b) y, .atom a, r, s, ha, hb, hr, hs, h => by
    simp only [LTerm.txt, LPrim.txt, List.append_assoc, List.cons_append] at h
    exact absurd h.symm ((atom_start hfmt a s).1 _)
  | .atom a, .prod (.frac u v) y, r, s, ha, hb, hr, hs, h => by
    simp only [LTerm.txt, LPrim.txt, List.append_assoc, List.cons_append] at h
    exact absurd h ((atom_start hfmt a r).2.2 _)
  | .prod (.frac u v) y, .atom a, r, s, ha, hb, hr, hs, h => by
    simp only [LTerm.txt, LPrim.txt, List.append_assoc, List.cons_append] at h
    exact absurd h.symm ((atom_start hfmt a s).2.2 _)
theorem LPrim.readable : ∀ (a b : LPrim K) {r s : Txt}, a.over S → b.over S →
    a.txt fmt ++ r = b.txt fmt ++ s → a = b ∧ r = s
  | .atom a, .atom b, r, s, ha, hb, h => by
    obtain ⟨h1, h2⟩ := LAtom.readable a b ha hb h
    exact ⟨by rw [h1], h2⟩
  | .paren a, .paren b, r, s, ha, hb, h => by
    simp only [LPrim.txt, List.append_assoc, List.append_cancel_left_eq] at h
    obtain ⟨h1, h2⟩ := LSum.readable a b ha hb (by simp [NoSp]) (by simp [NoSp]) h
    exact ⟨by rw [h1], by simpa using h2⟩
  | .frac x y, .frac u v, r, s, ha, hb, h => by
    simp only [LPrim.txt, List.append_assoc, List.append_cancel_left_eq] at h
    obtain ⟨h1, h2⟩ := LSum.readable x u ha.1 hb.1 (by simp [NoSp]) (by simp [NoSp]) h
    simp only [List.append_cancel_left_eq] at h2
    obtain ⟨h3, h4⟩ := LSum.readable y v ha.2 hb.2 (by simp [NoSp]) (by simp [NoSp]) h2
    exact ⟨by rw [h1, h3], by simpa using h4⟩
  | .atom a, .paren b, r, s, ha, hb, h => by
    simp only [LPrim.txt, List.append_assoc, List.cons_append] at h
    exact absurd h ((atom_start hfmt a r).1 _)
  | .paren b, .atom a, r, s, ha, hb, h => by
    simp only [LPrim.txt, List.append_assoc, List.cons_append] at h
    exact absurd h.symm ((atom_start hfmt a s).1 _)
  | .atom a, .frac u v, r, s, ha, hb, h => by
    simp only [LPrim.txt, List.append_assoc, List.cons_append] at h
    exact absurd h ((atom_start hfmt a r).2.2 _)
  | .frac u v, .atom a, r, s, ha, hb, h => by
    simp only [LPrim.txt, List.append_assoc, List.cons_append] at h
    exact absurd h.symm ((atom_start hfmt a s).2.2 _)
  | .paren b, .frac u v, r, s, ha, hb, h => by simp [LPrim.txt] at h
  | .frac u v, .paren b, r, s, ha, hb, h => by simp [LPrim.txt] at h
theorem LAtom.readable : ∀ (a b : LAtom K) {r s : Txt}, a.over S → b.over S →
    a.txt fmt ++ r = b.txt fmt ++ s → a = b ∧ r = s
  | .const c, b, r, s, ha, hb, h => by
    by_cases hc : ∃ c', b = .const c'
    · obtain ⟨c', rfl⟩ := hc
      obtain ⟨h1, h2⟩ := const_readable hfmt ha hb h
      exact ⟨by rw [h1], h2⟩
    · exact absurd h (const_ne hfmt fun c' h' => hc ⟨c', h'⟩)
  | .var i, b, r, s, ha, hb, h => by
    cases b with
    | const c' => exact absurd h.symm (const_ne hfmt (by simp))
    | var j =>
      obtain ⟨h1, h2⟩ := cut_id (i := i) (j := j) (r := ' ' :: r) (s := ' ' :: s)
        (by simpa [LAtom.txt] using h)
      exact ⟨by rw [h1], by simpa using h2⟩
    | sym j t => cases t <;> simp [LAtom.txt] at h
    | fn f p => cases f <;> simp [LAtom.txt, PFn.txt] at h
    | abs y => simp [LAtom.txt] at h
    | sqrt y => simp [LAtom.txt] at h
    | grad q => simp [LAtom.txt] at h
    | divg q => simp [LAtom.txt] at h
    | pd j q => simp [LAtom.txt] at h
    | symInt j y => simp [LAtom.txt] at h
    | integ lo' hi' j y => simp [LAtom.txt] at h
  | .sym i t', b, r, s, ha, hb, h => by
    cases b with
    | const c' => exact absurd h.symm (const_ne hfmt (by simp))
    | var j => cases t' <;> simp [LAtom.txt] at h
    | sym j t =>
      have : t' = t := by cases t <;> cases t' <;> first | rfl | simp [LAtom.txt] at h
      subst this
      obtain ⟨h1, h2⟩ := cut_id (i := i) (j := j) (r := ' ' :: r) (s := ' ' :: s)
        (by cases t' <;> simpa [LAtom.txt] using h)
      exact ⟨by rw [h1], by simpa using h2⟩
    | fn f p => cases t' <;> cases f <;> simp [LAtom.txt, PFn.txt] at h
    | abs y => cases t' <;> simp [LAtom.txt] at h
    | sqrt y => cases t' <;> simp [LAtom.txt] at h
    | grad q => cases t' <;> simp [LAtom.txt] at h
    | divg q => cases t' <;> simp [LAtom.txt] at h
    | pd j q => cases t' <;> simp [LAtom.txt] at h
    | symInt j y => cases t' <;> simp [LAtom.txt] at h
    | integ lo' hi' j y => cases t' <;> simp [LAtom.txt] at h
  | .fn f' p', b, r, s, ha, hb, h => by
    cases b with
    | const c' => exact absurd h.symm (const_ne hfmt (by simp))
    | var j => cases f' <;> simp [LAtom.txt, PFn.txt] at h
    | sym j t => cases f' <;> cases t <;> simp [LAtom.txt, PFn.txt] at h
    | fn f p =>
      have : f' = f := by
        cases f <;> cases f' <;> first | rfl | simp [LAtom.txt, PFn.txt] at h
      subst this
      simp only [LAtom.txt, List.append_assoc, List.append_cancel_left_eq] at h
      obtain ⟨h1, h2⟩ := LPrim.readable p' p ha hb h
      exact ⟨by rw [h1], by simpa using h2⟩
    | abs y => cases f' <;> simp [LAtom.txt, PFn.txt] at h
    | sqrt y => cases f' <;> simp [LAtom.txt, PFn.txt] at h
    | grad q => cases f' <;> simp [LAtom.txt, PFn.txt] at h
    | divg q => cases f' <;> simp [LAtom.txt, PFn.txt] at h
    | pd j q => cases f' <;> simp [LAtom.txt, PFn.txt] at h
    | symInt j y => cases f' <;> simp [LAtom.txt, PFn.txt] at h
    | integ lo' hi' j y => cases f' <;> simp [LAtom.txt, PFn.txt] at h
  | .abs x, b, r, s, ha, hb, h => by
    cases b with
    | const c' => exact absurd h.symm (const_ne hfmt (by simp))
    | var j => simp [LAtom.txt] at h
    | sym j t => cases t <;> simp [LAtom.txt] at h
    | fn f p => cases f <;> simp [LAtom.txt, PFn.txt] at h
    | abs y =>
      simp only [LAtom.txt, List.append_assoc, List.append_cancel_left_eq] at h
      obtain ⟨h1, h2⟩ := LSum.readable x y ha hb (by simp [NoSp]) (by simp [NoSp]) h
      exact ⟨by rw [h1], by simpa using h2⟩
    | sqrt y => simp [LAtom.txt] at h
    | grad q => simp [LAtom.txt] at h
    | divg q => simp [LAtom.txt] at h
    | pd j q => simp [LAtom.txt] at h
    | symInt j y => simp [LAtom.txt] at h
    | integ lo' hi' j y => simp [LAtom.txt] at h
  | .sqrt x, b, r, s, ha, hb, h => by
    cases b with
    | const c' => exact absurd h.symm (const_ne hfmt (by simp))
    | var j => simp [LAtom.txt] at h
    | sym j t => cases t <;> simp [LAtom.txt] at h
    | fn f p => cases f <;> simp [LAtom.txt, PFn.txt] at h
    | abs y => simp [LAtom.txt] at h
    | sqrt y =>
      simp only [LAtom.txt, List.append_assoc, List.append_cancel_left_eq] at h
      obtain ⟨h1, h2⟩ := LSum.readable x y ha hb (by simp [NoSp]) (by simp [NoSp]) h
      exact ⟨by rw [h1], by simpa using h2⟩
    | grad q => simp [LAtom.txt] at h
    | divg q => simp [LAtom.txt] at h
    | pd j q => simp [LAtom.txt] at h
    | symInt j y => simp [LAtom.txt] at h
    | integ lo' hi' j y => simp [LAtom.txt] at h
  | .grad p, b, r, s, ha, hb, h => by
    cases b with
    | const c' => exact absurd h.symm (const_ne hfmt (by simp))
    | var j => simp [LAtom.txt] at h
    | sym j t => cases t <;> simp [LAtom.txt] at h
    | fn f p => cases f <;> simp [LAtom.txt, PFn.txt] at h
    | abs y => simp [LAtom.txt] at h
    | sqrt y => simp [LAtom.txt] at h
    | grad q =>
      simp only [LAtom.txt, List.append_assoc, List.append_cancel_left_eq] at h
      obtain ⟨h1, h2⟩ := LPrim.readable p q ha hb h
      exact ⟨by rw [h1], by simpa using h2⟩
    | divg q =>
      simp only [LAtom.txt, List.append_assoc, List.cons_append, List.nil_append, List.cons.injEq, true_and] at h
      exact (not_opens (by rw [← h]; exact p.opens _) (by decide) (by decide)).elim
    | pd j q => simp [LAtom.txt] at h
    | symInt j y => simp [LAtom.txt] at h
    | integ lo' hi' j y => simp [LAtom.txt] at h
  | .divg p, b, r, s, ha, hb, h => by
    cases b with
    | const c' => exact absurd h.symm (const_ne hfmt (by simp))
    | var j => simp [LAtom.txt] at h
    | sym j t => cases t <;> simp [LAtom.txt] at h
    | fn f p => cases f <;> simp [LAtom.txt, PFn.txt] at h
    | abs y => simp [LAtom.txt] at h
    | sqrt y => simp [LAtom.txt] at h
    | grad q =>
      simp only [LAtom.txt, List.append_assoc, List.cons_append, List.nil_append, List.cons.injEq, true_and] at h
      exact (not_opens (by rw [h]; exact q.opens _) (by decide) (by decide)).elim
    | divg q =>
      simp only [LAtom.txt, List.append_assoc, List.append_cancel_left_eq] at h
      obtain ⟨h1, h2⟩ := LPrim.readable p q ha hb h
      exact ⟨by rw [h1], by simpa using h2⟩
    | pd j q => simp [LAtom.txt] at h
    | symInt j y => simp [LAtom.txt] at h
    | integ lo' hi' j y => simp [LAtom.txt] at h
  | .pd i p, b, r, s, ha, hb, h => by
    cases b with
    | const c' => exact absurd h.symm (const_ne hfmt (by simp))
    | var j => simp [LAtom.txt] at h
    | sym j t => cases t <;> simp [LAtom.txt] at h
    | fn f p => cases f <;> simp [LAtom.txt, PFn.txt] at h
    | abs y => simp [LAtom.txt] at h
    | sqrt y => simp [LAtom.txt] at h
    | grad q => simp [LAtom.txt] at h
    | divg q => simp [LAtom.txt] at h
    | pd j q =>
      simp only [LAtom.txt, List.append_assoc, List.append_cancel_left_eq] at h
      obtain ⟨h1, h2⟩ := LPrim.readable p q ha hb h
      simp only [List.append_cancel_left_eq] at h2
      obtain ⟨h3, h4⟩ := cut_id (i := i) (j := j) h2
      exact ⟨by rw [h1, h3], by simpa using h4⟩
    | symInt j y => simp [LAtom.txt] at h
    | integ lo' hi' j y => simp [LAtom.txt] at h
  | .symInt i x, b, r, s, ha, hb, h => by
    cases b with
    | const c' => exact absurd h.symm (const_ne hfmt (by simp))
    | var j => simp [LAtom.txt] at h
    | sym j t => cases t <;> simp [LAtom.txt] at h
    | fn f p => cases f <;> simp [LAtom.txt, PFn.txt] at h
    | abs y => simp [LAtom.txt] at h
    | sqrt y => simp [LAtom.txt] at h
    | grad q => simp [LAtom.txt] at h
    | divg q => simp [LAtom.txt] at h
    | pd j q => simp [LAtom.txt] at h
    | symInt j y =>
      simp only [LAtom.txt, List.append_assoc, List.append_cancel_left_eq] at h
      simp only [List.cons_append, List.nil_append] at h
      obtain ⟨h1, h2⟩ := cut_id (i := i) (j := j) h
      simp only [List.cons.injEq, true_and] at h2
      obtain ⟨h3, h4⟩ := LSum.readable x y ha hb (by simp [NoSp]) (by simp [NoSp]) h2
      exact ⟨by rw [h1, h3], by simpa using h4⟩
    | integ lo' hi' j y => simp [LAtom.txt] at h
  | .integ lo hi i x, b, r, s, ha, hb, h => by
    cases b with
    | const c' => exact absurd h.symm (const_ne hfmt (by simp))
    | var j => simp [LAtom.txt] at h
    | sym j t => cases t <;> simp [LAtom.txt] at h
    | fn f p => cases f <;> simp [LAtom.txt, PFn.txt] at h
    | abs y => simp [LAtom.txt] at h
    | sqrt y => simp [LAtom.txt] at h
    | grad q => simp [LAtom.txt] at h
    | divg q => simp [LAtom.txt] at h
    | pd j q => simp [LAtom.txt] at h
    | symInt j y => simp [LAtom.txt] at h
    | integ lo' hi' j y =>
      simp only [LAtom.txt, List.append_assoc, List.append_cancel_left_eq] at h
      obtain ⟨h1, h2⟩ := LSum.readable lo lo' ha.1 hb.1 (by simp [NoSp]) (by simp [NoSp]) h
      simp only [List.append_cancel_left_eq] at h2
      obtain ⟨h3, h4⟩ := LSum.readable hi hi' ha.2.1 hb.2.1 (by simp [NoSp]) (by simp [NoSp]) h2
      simp only [List.append_cancel_left_eq] at h4
      obtain ⟨h5, h6⟩ := LSum.readable x y ha.2.2 hb.2.2 (by simp [NoSp]) (by simp [NoSp]) h4
      simp only [List.append_cancel_left_eq] at h6
      obtain ⟨h7, h8⟩ := cut_id (i := i) (j := j) h6
      exact ⟨by rw [h1, h3, h5, h7], by simpa using h8⟩
end
end readability

/-! ### From expressions to the grammar -/

def LTail.append : LTail K → LTail K → LTail K
  | .nil, u => u
  | .plus t r, u => .plus t (r.append u)
  | .minus p r, u => .minus p (r.append u)

/-- What is printed when parentheses are asked for. -/
def LSum.prim : LSum K → LPrim K
  | .mk (.atom a) .nil => .atom a
  | .mk (.frac a b) .nil => .frac a b
  | s => .paren s

def lsum : Expr K → LSum K
  | .const c => .mk (.atom (.const c)) .nil
  | .var i => .mk (.atom (.var i)) .nil
  | .fsym i t => .mk (.atom (.sym i (t = 1))) .nil
  | .un (.fn .id) e => lsum e
  | .un (.fn .exp) e => .mk (.atom (.fn .exp (lsum e).prim)) .nil
  | .un (.fn .sin) e => .mk (.atom (.fn .sin (lsum e).prim)) .nil
  | .un (.fn .cos) e => .mk (.atom (.fn .cos (lsum e).prim)) .nil
  | .un (.fn .tan) e => .mk (.atom (.fn .tan (lsum e).prim)) .nil
  | .un (.fn .log) e => .mk (.atom (.fn .ln (lsum e).prim)) .nil
  | .un (.fn .log10) e => .mk (.atom (.fn .log (lsum e).prim)) .nil
  | .un (.fn .fabs) e => .mk (.atom (.abs (lsum e))) .nil
  | .un (.fn .sqrt) e => .mk (.atom (.sqrt (lsum e))) .nil
  | .bin .plus l r => match lsum l, lsum r with
    | .mk t u, .mk t' u' => .mk t (u.append (.plus t' u'))
  | .bin .minus l r => match lsum l with
    | .mk t u => .mk t (u.append (.minus (lsum r).prim .nil))
  | .bin .mult l r => .mk (.prod (lsum l).prim (lsum r).prim) .nil
  | .bin .div l r => .mk (.frac (lsum l) (lsum r)) .nil
  | .un .grad e => .mk (.atom (.grad (lsum e).prim)) .nil
  | .un .divg e => .mk (.atom (.divg (lsum e).prim)) .nil
  | .un (.pd i) e => .mk (.atom (.pd i (lsum e).prim)) .nil
  | .un (.symInt i) e => .mk (.atom (.symInt i (lsum e))) .nil
  | .integ lo hi x e => .mk (.atom (.integ (lsum lo) (lsum hi) x (lsum e))) .nil
  | _ => .mk (.atom (.var 0)) .nil

theorem LTail.txt_append {fmt : K → Txt} : ∀ t u : LTail K, (t.append u).txt fmt = t.txt fmt ++ u.txt fmt
  | .nil, u => by simp [LTail.append, LTail.txt]
  | .plus t r, u => by simp [LTail.append, LTail.txt, LTail.txt_append r u]
  | .minus p r, u => by simp [LTail.append, LTail.txt, LTail.txt_append r u]

theorem LTail.over_append {S : K → Prop} : ∀ t u : LTail K, (t.append u).over S ↔ t.over S ∧ u.over S
  | .nil, u => by simp [LTail.append, LTail.over]
  | .plus t r, u => by simp [LTail.append, LTail.over, LTail.over_append r u, and_assoc]
  | .minus p r, u => by simp [LTail.append, LTail.over, LTail.over_append r u, and_assoc]

theorem LSum.over_prim {S : K → Prop} {s : LSum K} (h : s.over S) : s.prim.over S := by
  unfold LSum.prim
  split
  · exact h.1
  · exact h.1
  · exact h

theorem lsum_over {S : K → Prop} {e : Expr K} (h : Spec.Typeset S e) : (lsum e).over S := by
  induction h with
  | const hc => exact ⟨hc, trivial⟩
  | var i => exact ⟨trivial, trivial⟩
  | fsym i _ => exact ⟨trivial, trivial⟩
  | un op _ ih =>
    cases op with
    | fn f =>
      cases f <;> simp only [lsum, LSum.over, LTerm.over, LAtom.over, LTail.over, and_true] <;>
        first | exact ih | exact LSum.over_prim ih
    | symInt i => exact ⟨ih, trivial⟩
    | _ => exact ⟨LSum.over_prim ih, trivial⟩
  | integ x _ _ _ ih1 ih2 ih3 => exact ⟨⟨ih1, ih2, ih3⟩, trivial⟩
  | @bin op l r ho _ _ ihl ihr =>
    rcases ho with rfl | rfl | rfl | rfl
    · rw [lsum]
      split
      rename_i t u t' u' h1 h2
      rw [h1] at ihl; rw [h2] at ihr
      exact ⟨ihl.1, (LTail.over_append _ _).2 ⟨ihl.2, ihr⟩⟩
    · rw [lsum]
      split
      rename_i t u h1
      rw [h1] at ihl
      exact ⟨ihl.1, (LTail.over_append _ _).2 ⟨ihl.2, LSum.over_prim ihr, trivial⟩⟩
    · exact ⟨⟨LSum.over_prim ihl, LSum.over_prim ihr⟩, trivial⟩
    · exact ⟨⟨ihl, ihr⟩, trivial⟩

theorem orUnknown_cons (c : Char) (s : Txt) : orUnknown (c :: s) = c :: s := rfl

theorem LSum.txt_ne {fmt : K → Txt} (s : LSum K) : s.txt fmt ≠ [] := by
  have ha : ∀ a : LAtom K, a.txt fmt ≠ [] := by
    intro a
    cases a with
    | sym i t => cases t <;> simp [LAtom.txt]
    | fn f p => cases f <;> simp [LAtom.txt, PFn.txt]
    | _ => simp [LAtom.txt]
  rcases s with ⟨t, r⟩
  cases t with
  | atom a => simp [LSum.txt, LTerm.txt, ha]
  | prod a b => simp [LSum.txt, LTerm.txt]
  | frac a b => simp [LSum.txt, LTerm.txt]

theorem LSum.prim_ne {fmt : K → Txt} (s : LSum K) : s.prim.txt fmt ≠ [] := by
  unfold LSum.prim
  split
  · rename_i a
    have := LSum.txt_ne (fmt := fmt) (.mk (.atom a) .nil)
    simpa [LSum.txt, LTerm.txt, LTail.txt, LPrim.txt] using this
  · simp [LPrim.txt]
  · simp [LPrim.txt]

def LTail.long : LTail K → Bool
  | .nil => false
  | _ => true

theorem LTail.long_append : ∀ t u : LTail K, (t.append u).long = (t.long || u.long)
  | .nil, _ => rfl
  | .plus .., _ => rfl
  | .minus .., _ => rfl

theorem LSum.prim_long {t : LTerm K} {u : LTail K} (h : u.long = true) :
    (LSum.mk t u).prim = .paren (.mk t u) := by
  cases u with
  | nil => cases h
  | _ => cases t <;> rfl

theorem orUnknown_of_ne {s : Txt} (h : s ≠ []) : orUnknown s = s := if_neg h

section eqns
variable (fmt : K → Txt) (t : Translator) (p : Bool) (e l r : Expr K)
theorem latex_exp : latex fmt t p (.un (.fn .exp) e) = t!" \\exp " ++ (latex fmt t true e ++ t!" ") := by
  rw [latex]; simp [orUnknown]
theorem latex_sin : latex fmt t p (.un (.fn .sin) e) = t!" \\sin " ++ (latex fmt t true e ++ t!" ") := by
  rw [latex]; simp [orUnknown]
theorem latex_cos : latex fmt t p (.un (.fn .cos) e) = t!" \\cos " ++ (latex fmt t true e ++ t!" ") := by
  rw [latex]; simp [orUnknown]
theorem latex_tan : latex fmt t p (.un (.fn .tan) e) = t!" \\tan " ++ (latex fmt t true e ++ t!" ") := by
  rw [latex]; simp [orUnknown]
theorem latex_log : latex fmt t p (.un (.fn .log) e) = t!" \\ln " ++ (latex fmt t true e ++ t!" ") := by
  rw [latex]; simp [orUnknown]
theorem latex_log10 : latex fmt t p (.un (.fn .log10) e) = t!" \\log " ++ (latex fmt t true e ++ t!" ") := by
  rw [latex]; simp [orUnknown]
theorem latex_fabs : latex fmt t p (.un (.fn .fabs) e) =
    t!" \\left|" ++ (latex fmt t false e ++ t!"\\right| ") := by
  rw [latex]; simp [orUnknown]
theorem latex_sqrt : latex fmt t p (.un (.fn .sqrt) e) = t!" \\sqrt{" ++ (latex fmt t false e ++ t!"} ") := by
  rw [latex]; simp [orUnknown]
theorem latex_id : latex fmt t p (.un (.fn .id) e) = orUnknown (latex fmt t p e) := by
  rw [latex]
theorem latex_plus : latex fmt t p (.bin .plus l r) = (if p then t!"(" else []) ++ (latex fmt t false l ++
    (t!" + " ++ (latex fmt t false r ++ (if p then t!")" else [])))) := by
  rw [latex]
  · simp [orUnknown, BOp.str]
  · simp
theorem latex_minus : latex fmt t p (.bin .minus l r) = (if p then t!"(" else []) ++ (latex fmt t false l ++
    (t!" - " ++ (latex fmt t true r ++ (if p then t!")" else [])))) := by
  rw [latex]
  · simp [orUnknown, BOp.str]
  · simp
theorem latex_mult : latex fmt t p (.bin .mult l r) = (if p then t!"(" else []) ++ (latex fmt t true l ++
    (t!" \\cdot " ++ (latex fmt t true r ++ (if p then t!")" else [])))) := by
  rw [latex]
  · simp [orUnknown]
  · simp
theorem latex_grad : latex fmt t p (.un .grad e) = t!" \\nabla " ++ (latex fmt t true e ++ t!" ") := by
  rw [latex]; simp [orUnknown]
theorem latex_divg : latex fmt t p (.un .divg e) = t!" \\nabla \\cdot " ++ (latex fmt t true e ++ t!" ") := by
  rw [latex]; simp [orUnknown]
theorem latex_pd (i : Nat) : latex fmt .new p (.un (.pd i) e) = t!" \\frac{\\partial " ++ (latex fmt .new true e ++
    (t!"}{\\partial  x_{" ++ (idTxt i ++ t!"} } "))) := by
  rw [latex]; simp [orUnknown, latexVar, Translator.new]
theorem latex_symInt (i : Nat) : latex fmt t p (.un (.symInt i) e) = t!" \\int_{\\Omega_{" ++ (idTxt i ++ (t!"}} " ++
    (latex fmt t false e ++ t!"  \\: \\mathrm{d} \\Omega "))) := by
  rw [latex]; simp [orUnknown]
theorem latex_integ (i : Nat) : latex fmt .new p (.integ l r i e) = t!" \\int_{  [ " ++ (latex fmt .new false l ++
    (t!"; " ++ (latex fmt .new false r ++ (t!" ]  } " ++ (latex fmt .new false e ++
      (t!"  \\: \\mathrm{d}  x_{" ++ (idTxt i ++ t!"}  "))))))) := by
  rw [latex]; simp [orUnknown, latexVar, Translator.new]
theorem latex_div : latex fmt t p (.bin .div l r) = (if p then t!" \\left( " else []) ++ (t!" \\frac{" ++
    (latex fmt t false l ++ (t!"}{" ++ (latex fmt t false r ++ (t!"} " ++
    (if p then t!" \\right) " else [])))))) := by
  rw [latex]
  cases p
  · simp [orUnknown]
  · simp [orUnknown]
end eqns

theorem lsum_txt {S : K → Prop} {fmt : K → Txt} {e : Expr K} (h : Spec.Typeset S e) :
    latex fmt .new false e = (lsum e).txt fmt ∧ latex fmt .new true e = ((lsum e).prim).txt fmt := by
  induction h with
  | const hc => simp [latex, lsum, LSum.txt, LTerm.txt, LAtom.txt, LTail.txt, LSum.prim, LPrim.txt, orUnknown]
  | var i =>
    simp [latex, latexVar, Translator.new, lsum, LSum.txt, LTerm.txt, LAtom.txt, LTail.txt, LSum.prim,
      LPrim.txt, orUnknown]
  | @fsym i t ht =>
    rcases ht with rfl | rfl <;>
    simp [latex, latexSym, Translator.new, lsum, LSum.txt, LTerm.txt, LAtom.txt, LTail.txt, LSum.prim,
      LPrim.txt, orUnknown]
  | @un op e _ ih =>
    have hne := LSum.txt_ne (fmt := fmt) (lsum e)
    have hne' := LSum.prim_ne (fmt := fmt) (lsum e)
    cases op with
    | fn f =>
      cases f
      case id => rw [latex_id, latex_id, ih.1, ih.2, orUnknown_of_ne hne, orUnknown_of_ne hne', lsum]; exact ⟨rfl, rfl⟩
      all_goals
        simp only [latex_exp, latex_sin, latex_cos, latex_tan, latex_fabs, latex_sqrt, latex_log, latex_log10,
          ih.1, ih.2, lsum, LSum.prim, LSum.txt, LTerm.txt, LAtom.txt, LTail.txt, LPrim.txt, PFn.txt,
          List.append_nil, and_self]
    | _ =>
      simp only [latex_grad, latex_divg, latex_pd, latex_symInt,
        ih.1, ih.2, lsum, LSum.prim, LSum.txt, LTerm.txt, LAtom.txt, LTail.txt, LPrim.txt,
        List.append_nil, and_self]
  | integ x _ _ _ ih1 ih2 ih3 =>
    simp only [latex_integ, ih1.1, ih2.1, ih3.1, lsum, LSum.prim, LSum.txt, LTerm.txt, LAtom.txt, LTail.txt, LPrim.txt,
      List.append_nil, and_self]
  | @bin op l r ho _ _ ihl ihr =>
    rcases ho with rfl | rfl | rfl | rfl
    · rcases h1 : lsum l with ⟨t, u⟩
      rcases h2 : lsum r with ⟨t', u'⟩
      rw [h1] at ihl; rw [h2] at ihr
      rw [LSum.txt] at ihl ihr
      have h3 : lsum (.bin .plus l r) = .mk t (u.append (.plus t' u')) := by simp only [lsum, h1, h2]
      rw [h3, LSum.prim_long (by rw [LTail.long_append]; exact Bool.or_true _)]
      simp [latex_plus, LSum.txt, LPrim.txt, LTail.txt_append, LTail.txt, ihl.1, ihr.1]
    · rcases h1 : lsum l with ⟨t, u⟩
      rw [h1] at ihl
      rw [LSum.txt] at ihl
      have h3 : lsum (.bin .minus l r) = .mk t (u.append (.minus (lsum r).prim .nil)) := by
        simp only [lsum, h1]
      rw [h3, LSum.prim_long (by rw [LTail.long_append]; exact Bool.or_true _)]
      simp [latex_minus, LSum.txt, LPrim.txt, LTail.txt_append, LTail.txt, ihl.1, ihr.2]
    · simp [latex_mult, lsum, LSum.txt, LSum.prim, LTerm.txt, LPrim.txt, LTail.txt, ihl.2, ihr.2]
    · simp [latex_div, lsum, LSum.txt, LSum.prim, LTerm.txt, LPrim.txt, LTail.txt, ihl.1, ihr.1]

/-! ### Values -/
section val
variable [Num K] (I : Spec.Interp K) (ρ : Nat → Option K)

mutual
def LSum.val : LSum K → Option K
  | .mk t r => t.val.bind fun a => r.val a
def LTail.val : LTail K → K → Option K
  | .nil, a => some a
  | .plus t r, a => t.val.bind fun b => r.val (Num.add a b)
  | .minus p r, a => p.val.bind fun b => r.val (Num.sub a b)
def LTerm.val : LTerm K → Option K
  | .prod a b => a.val.bind fun x => b.val.map fun y => Num.mul x y
  | .frac a b => a.val.bind fun x => b.val.map fun y => Num.div x y
  | .atom a => a.val
def LPrim.val : LPrim K → Option K
  | .paren s => s.val
  | .frac a b => a.val.bind fun x => b.val.map fun y => Num.div x y
  | .atom a => a.val
def LAtom.val : LAtom K → Option K
  | .const c => some c
  | .var i => ρ i
  | .sym i t => I.sym i (if t then 1 else 0)
  | .fn f p => p.val.map (applyFn f.fn)
  | .abs s => s.val.map (applyFn .fabs)
  | .sqrt s => s.val.map (applyFn .sqrt)
  | _ => none
end

theorem LTail.val_append (a : K) : ∀ t u : LTail K,
    (t.append u).val I ρ a = (t.val I ρ a).bind fun b => u.val I ρ b := by
  intro t
  induction t using LTail.rec (motive_1 := fun _ => True) (motive_3 := fun _ => True)
    (motive_4 := fun _ => True) (motive_5 := fun _ => True) generalizing a with
  | nil => simp [LTail.append, LTail.val]
  | plus t r _ ih =>
    intro u
    simp only [LTail.append, LTail.val, Option.bind_assoc]
    cases t.val I ρ <;> simp [ih]
  | minus t r _ ih =>
    intro u
    simp only [LTail.append, LTail.val, Option.bind_assoc]
    cases t.val I ρ <;> simp [ih]
  | _ => trivial

theorem LTail.val_add (laws : Spec.SumLaws K) (a b : K) : ∀ t : LTail K,
    t.val I ρ (Num.add a b) = (t.val I ρ b).map (Num.add a) := by
  intro t
  induction t using LTail.rec (motive_1 := fun _ => True) (motive_3 := fun _ => True)
    (motive_4 := fun _ => True) (motive_5 := fun _ => True) generalizing b with
  | nil => simp [LTail.val]
  | plus t r _ ih =>
    simp only [LTail.val]
    cases t.val I ρ with
    | none => rfl
    | some c => simp only [Option.bind_some, ← laws.add_add, ih]
  | minus t r _ ih =>
    simp only [LTail.val]
    cases t.val I ρ with
    | none => rfl
    | some c => simp only [Option.bind_some, ← laws.add_sub, ih]
  | _ => trivial

theorem LSum.val_prim (s : LSum K) : s.prim.val I ρ = s.val I ρ := by
  unfold LSum.prim
  split
  · simp [LPrim.val, LSum.val, LTerm.val, LTail.val]
  · simp [LPrim.val, LSum.val, LTerm.val, LTail.val]
  · rfl

theorem LSum.val_atom (a : LAtom K) : (LSum.mk (.atom a) .nil).val I ρ = a.val I ρ := by
  simp [LSum.val, LTerm.val, LTail.val]

variable {I ρ}

theorem val_fn {f : Fn} {e : Expr K} {a : K} :
    Spec.Val I ρ (.un (.fn f) e) a ↔ ∃ b, Spec.Val I ρ e b ∧ applyFn f b = a := by
  constructor
  · intro h; cases h with | fn h => exact ⟨_, h, rfl⟩
  · rintro ⟨b, h, rfl⟩; exact .fn h

theorem val_bin {S : K → Prop} {op : BOp} {l r : Expr K} {a : K} (hl : Spec.Readable S l) :
    Spec.Val I ρ (.bin op l r) a ↔
      ∃ x y, Spec.Val I ρ l x ∧ Spec.Val I ρ r y ∧ Spec.opVal op x y = some a := by
  constructor
  · intro h
    cases h with
    | bin h1 h2 h3 => exact ⟨_, _, h1, h2, h3⟩
    | dotOne => cases hl
    | dotSnoc => cases hl
  · rintro ⟨x, y, h1, h2, h3⟩; exact .bin h1 h2 h3

theorem lsum_val {S : K → Prop} (laws : Spec.SumLaws K) {e : Expr K} (h : Spec.Readable S e) :
    ∀ a, Spec.Val I ρ e a ↔ (lsum e).val I ρ = some a := by
  induction h with
  | const _ =>
    intro a
    rw [lsum, LSum.val_atom, LAtom.val]
    constructor
    · intro h; cases h; rfl
    · intro h; cases h; exact .const
  | var i =>
    intro a
    rw [lsum, LSum.val_atom, LAtom.val]
    constructor
    · intro h; cases h; assumption
    · exact .var
  | @fsym i t ht =>
    intro a
    rw [lsum, LSum.val_atom, LAtom.val]
    have : (if (decide (t = 1)) = true then 1 else 0) = t := by rcases ht with rfl | rfl <;> rfl
    rw [this]
    constructor
    · intro h; cases h; assumption
    · exact .fsym
  | @fn f e _ ih =>
    intro a
    rw [val_fn]
    cases f
    case id =>
      rw [lsum, ← ih]
      exact ⟨fun ⟨b, h1, h2⟩ => by cases h2; exact h1, fun h => ⟨a, h, rfl⟩⟩
    all_goals
      simp only [lsum, LSum.val_atom, LAtom.val, LSum.val_prim, Option.map_eq_some_iff, ih, PFn.fn]
  | @bin op l r ho hl _ ihl ihr =>
    intro a
    rw [val_bin hl]
    simp only [ihl, ihr]
    rcases ho with rfl | rfl | rfl | rfl
    · rcases h1 : lsum l with ⟨t, u⟩
      rcases h2 : lsum r with ⟨t', u'⟩
      simp only [lsum, h1, h2, LSum.val, LTail.val_append, LTail.val, LTail.val_add I ρ laws, Spec.opVal]
      cases t.val I ρ <;> cases t'.val I ρ <;> simp [Option.bind_eq_some_iff]
    · rcases h1 : lsum l with ⟨t, u⟩
      simp only [lsum, h1, LSum.val, LTail.val_append, LTail.val, LSum.val_prim, Spec.opVal]
      cases t.val I ρ <;> simp [Option.bind_eq_some_iff]
    · simp [lsum, LSum.val, LTerm.val, LTail.val, LSum.val_prim, Spec.opVal, Option.bind_eq_some_iff]
    · simp [lsum, LSum.val, LTerm.val, LTail.val, Spec.opVal, Option.bind_eq_some_iff]

end val

/-! ### Back from the text -/

theorem orUnknown_ne (s : Txt) : orUnknown s ≠ [] := by
  unfold orUnknown
  split
  · simp
  · assumption

theorem latex_ne {fmt : K → Txt} {t : Translator} (p : Bool) (e : Expr K) : latex fmt t p e ≠ [] := by
  cases e with
  | un op e =>
    cases op with
    | fn f => cases f <;> (rw [latex]; exact orUnknown_ne _)
    | _ => rw [latex]; exact orUnknown_ne _
  | bin op l r =>
    cases op
    case div => rw [latex]; exact orUnknown_ne _
    all_goals rw [latex]; exact orUnknown_ne _; simp
  | _ => rw [latex]; exact orUnknown_ne _

theorem readable_typeset {S : K → Prop} {e : Expr K} (h : Spec.Readable S e) : Spec.Typeset S e := by
  induction h with
  | const h => exact .const h
  | var i => exact .var i
  | fsym i h => exact .fsym i h
  | fn f _ ih => exact .un _ ih
  | bin ho _ _ ih1 ih2 => exact .bin ho ih1 ih2

mutual
/-- The expression that is read in a text. -/
def LSum.toE : LSum K → Expr K
  | .mk t r => r.toE t.toE
def LTail.toE : LTail K → Expr K → Expr K
  | .nil, a => a
  | .plus t r, a => r.toE (.bin .plus a t.toE)
  | .minus p r, a => r.toE (.bin .minus a p.toE)
def LTerm.toE : LTerm K → Expr K
  | .atom a => a.toE
  | .prod a b => .bin .mult a.toE b.toE
  | .frac a b => .bin .div a.toE b.toE
def LPrim.toE : LPrim K → Expr K
  | .atom a => a.toE
  | .paren s => s.toE
  | .frac a b => .bin .div a.toE b.toE
def LAtom.toE : LAtom K → Expr K
  | .const c => .const c
  | .var i => .var i
  | .sym i t => .fsym i (if t then 1 else 0)
  | .fn f p => .un (.fn f.fn) p.toE
  | .abs s => .un (.fn .fabs) s.toE
  | .sqrt s => .un (.fn .sqrt) s.toE
  | .grad p => .un .grad p.toE
  | .divg p => .un .divg p.toE
  | .pd i p => .un (.pd i) p.toE
  | .symInt i s => .un (.symInt i) s.toE
  | .integ lo hi x s => .integ lo.toE hi.toE x s.toE
end

theorem LSum.toE_prim (s : LSum K) : s.prim.toE = s.toE := by
  rcases s with ⟨t, u⟩
  cases u with
  | nil => cases t <;> simp [LSum.prim, LPrim.toE, LSum.toE, LTail.toE, LTerm.toE]
  | plus t u => simp [LSum.prim, LPrim.toE]
  | minus t u => simp [LSum.prim, LPrim.toE]

theorem LTail.toE_append : ∀ (u v : LTail K) (a : Expr K), (u.append v).toE a = v.toE (u.toE a)
  | .nil, v, a => by simp [LTail.append, LTail.toE]
  | .plus t u, v, a => by simp [LTail.append, LTail.toE, LTail.toE_append u v]
  | .minus t u, v, a => by simp [LTail.append, LTail.toE, LTail.toE_append u v]

theorem LTail.toE_congr : ∀ (u : LTail K) {a b : Expr K}, Spec.Regroup a b → Spec.Regroup (u.toE a) (u.toE b)
  | .nil, a, b, h => by simpa [LTail.toE] using h
  | .plus t u, a, b, h => by simpa [LTail.toE] using LTail.toE_congr u (.bin .plus h (.refl _))
  | .minus t u, a, b, h => by simpa [LTail.toE] using LTail.toE_congr u (.bin .minus h (.refl _))

theorem LTail.toE_add : ∀ (u : LTail K) (a b : Expr K),
    Spec.Regroup (.bin .plus a (u.toE b)) (u.toE (.bin .plus a b))
  | .nil, a, b => by simpa [LTail.toE] using .refl _
  | .plus t u, a, b => by
    simpa [LTail.toE] using (LTail.toE_add u a _).trans (LTail.toE_congr u (.addAdd a b t.toE))
  | .minus t u, a, b => by
    simpa [LTail.toE] using (LTail.toE_add u a _).trans (LTail.toE_congr u (.addSub a b t.toE))

/-- What is read is the expression printed, up to `id` and the grouping of sums. -/
theorem lsum_toE {S : K → Prop} {e : Expr K} (h : Spec.Typeset S e) : Spec.Regroup e (lsum e).toE := by
  induction h with
  | const _ => exact .refl _
  | var i => exact .refl _
  | @fsym i t ht => rcases ht with rfl | rfl <;> exact .refl _
  | @un op e _ ih =>
    cases op with
    | fn f =>
      cases f
      case id => exact (Spec.Regroup.ident e).trans ih
      all_goals
        simpa [lsum, LSum.toE, LTail.toE, LTerm.toE, LAtom.toE, LSum.toE_prim, PFn.fn] using .un _ ih
    | _ => simpa [lsum, LSum.toE, LTail.toE, LTerm.toE, LAtom.toE, LSum.toE_prim] using .un _ ih
  | integ x _ _ _ ih1 ih2 ih3 =>
    simpa [lsum, LSum.toE, LTail.toE, LTerm.toE, LAtom.toE] using .integ x ih1 ih2 ih3
  | @bin op l r ho _ _ ihl ihr =>
    refine (Spec.Regroup.bin op ihl ihr).trans ?_
    rcases ho with rfl | rfl | rfl | rfl
    · rcases h1 : lsum l with ⟨t, u⟩
      rcases h2 : lsum r with ⟨t', u'⟩
      simpa [lsum, h1, h2, LSum.toE, LTail.toE_append, LTail.toE] using LTail.toE_add u' (u.toE t.toE) t'.toE
    · rcases h1 : lsum l with ⟨t, u⟩
      simpa [lsum, h1, LSum.toE, LTail.toE_append, LTail.toE, LSum.toE_prim] using .refl _
    · simpa [lsum, LSum.toE, LTail.toE, LTerm.toE, LSum.toE_prim] using .refl _
    · simpa [lsum, LSum.toE, LTail.toE, LTerm.toE] using .refl _

/-- Expressions that agree up to `id` and the grouping of sums are printed alike, by any translator. -/
theorem regroup_latex {fmt : K → Txt} {t : Translator} {e f : Expr K} (h : Spec.Regroup e f) :
    ∀ p, latex fmt t p e = latex fmt t p f := by
  induction h with
  | refl _ => intro p; rfl
  | symm _ ih => exact fun p => (ih p).symm
  | trans _ _ ih1 ih2 => exact fun p => (ih1 p).trans (ih2 p)
  | ident e => intro p; rw [latex_id, orUnknown_of_ne (latex_ne p e)]
  | addAdd a b c => intro p; cases p <;> simp [latex_plus]
  | addSub a b c => intro p; cases p <;> simp [latex_plus, latex_minus]
  | un op _ ih =>
    intro p
    cases op with
    | fn f => cases f <;> rw [latex, latex, ih]
    | _ => rw [latex, latex, ih]
  | bin op _ _ ih1 ih2 =>
    intro p
    cases op
    case div => rw [latex, latex, ih1, ih2]
    all_goals rw [latex, latex, ih1, ih2] <;> simp
  | integ x _ _ _ ih1 ih2 ih3 => intro p; rw [latex, latex, ih1, ih2, ih3]

/-! ### Customisation -/

theorem customize_vars (t : Translator) (e : Expr K) (s : Txt) (i : Nat) :
    (t.customize e s).vars i = if Spec.isVar i e then some s else t.vars i := by
  cases e with
  | var j => simp [Translator.customize, Spec.isVar, eq_comm (a := i) (b := j)]
  | _ => simp [Translator.customize, Spec.isVar]

theorem customize_syms (t : Translator) (e : Expr K) (s : Txt) (i g : Nat) :
    (t.customize e s).syms i g = if Spec.isSym i g e then some s else t.syms i g := by
  cases e with
  | fsym j h => simp [Translator.customize, Spec.isSym, eq_comm (a := i) (b := j), eq_comm (a := g) (b := h)]
  | _ => simp [Translator.customize, Spec.isSym]

theorem vars_custom (h : List (Expr K × Txt)) (i : Nat) :
    (h.foldl (fun t x => t.customize x.1 x.2) Translator.new).vars i = Spec.lastFor (Spec.isVar i) h := by
  rw [← List.foldr_reverse, Spec.lastFor]
  induction h.reverse with
  | nil => rfl
  | cons x l ih =>
    rw [List.foldr_cons, List.find?_cons, customize_vars, ih]
    cases Spec.isVar i x.1 <;> rfl

theorem syms_custom (h : List (Expr K × Txt)) (i g : Nat) :
    (h.foldl (fun t x => t.customize x.1 x.2) Translator.new).syms i g = Spec.lastFor (Spec.isSym i g) h := by
  rw [← List.foldr_reverse, Spec.lastFor]
  induction h.reverse with
  | nil => rfl
  | cons x l ih =>
    rw [List.foldr_cons, List.find?_cons, customize_syms, ih]
    cases Spec.isSym i g x.1 <;> rfl

theorem infix_orUnknown {s u : Txt} (hs : s ≠ []) (h : s <:+: u) : s <:+: orUnknown u := by
  rw [orUnknown_of_ne]
  · exact h
  · rintro rfl
    exact hs (List.eq_nil_of_infix_nil h)

/-- The text of a leaf is part of the text of any expression it is shown in. -/
theorem latex_infix {fmt : K → Txt} {t : Translator} {l e : Expr K} (h : Spec.Shows l e)
    (hl : ∀ p q, latex fmt t p l = latex fmt t q l) : ∀ p, latex fmt t true l <:+: latex fmt t p e := by
  have hne := latex_ne (fmt := fmt) (t := t) true l
  induction h with
  | self => intro p; rw [hl true p]; exact List.infix_rfl
  | @un op e _ ih =>
    intro p
    cases op with
    | fn f =>
      cases f <;> (rw [latex]; refine infix_orUnknown hne ?_) <;>
      first
      | exact ih _
      | (simp only [List.append_assoc]
         exact List.infix_append_of_infix_right (List.infix_append_of_infix_left (ih _)))
    | _ =>
      rw [latex]; refine infix_orUnknown hne ?_
      simp only [List.append_assoc]
      repeat (first
        | exact List.infix_append_of_infix_left (ih _)
        | refine List.infix_append_of_infix_right ?_)
  | @pdVar x e h =>
    intro p
    subst h
    rw [latex, latex]; refine infix_orUnknown (orUnknown_ne _) ?_
    simp only [List.append_assoc]
    repeat (first
      | exact List.infix_append_of_infix_left List.infix_rfl
      | refine List.infix_append_of_infix_right ?_)
  | @integLo lo hi x e _ ih =>
    intro p
    rw [latex]; refine infix_orUnknown hne ?_
    simp only [List.append_assoc]
    repeat (first
      | exact List.infix_append_of_infix_left (ih _)
      | refine List.infix_append_of_infix_right ?_)
  | @integHi lo hi x e _ ih =>
    intro p
    rw [latex]; refine infix_orUnknown hne ?_
    simp only [List.append_assoc]
    repeat (first
      | exact List.infix_append_of_infix_left (ih _)
      | refine List.infix_append_of_infix_right ?_)
  | @integVar lo hi x e h =>
    intro p
    subst h
    rw [latex, latex]; refine infix_orUnknown (orUnknown_ne _) ?_
    simp only [List.append_assoc]
    repeat (first
      | exact List.infix_append_of_infix_left List.infix_rfl
      | refine List.infix_append_of_infix_right ?_)
  | @integBody lo hi x e _ ih =>
    intro p
    rw [latex]; refine infix_orUnknown hne ?_
    simp only [List.append_assoc]
    repeat (first
      | exact List.infix_append_of_infix_left (ih _)
      | refine List.infix_append_of_infix_right ?_)
  | @binL op a b _ ih =>
    intro p
    cases op
    case div =>
      rw [latex]
      refine infix_orUnknown hne ?_
      simp only [List.append_assoc]
      repeat (first
        | exact List.infix_append_of_infix_left (ih _)
        | refine List.infix_append_of_infix_right ?_)
    all_goals
      rw [latex]
      · refine infix_orUnknown hne ?_
        simp only [List.append_assoc]
        repeat (first
          | exact List.infix_append_of_infix_left (ih _)
          | refine List.infix_append_of_infix_right ?_)
      · simp
  | @binR op a b _ ih =>
    intro p
    cases op
    case div =>
      rw [latex]
      refine infix_orUnknown hne ?_
      simp only [List.append_assoc]
      repeat (first
        | exact List.infix_append_of_infix_left (ih _)
        | refine List.infix_append_of_infix_right ?_)
    all_goals
      rw [latex]
      · refine infix_orUnknown hne ?_
        simp only [List.append_assoc]
        repeat (first
          | exact List.infix_append_of_infix_left (ih _)
          | refine List.infix_append_of_infix_right ?_)
      · simp

/-- Translators that treat the leaves of an expression alike print it alike. -/
theorem latex_congr {fmt : K → Txt} {t t' : Translator} (e : Expr K)
    (hv : ∀ i, Spec.Shows (.var i) e → t.vars i = t'.vars i)
    (hs : ∀ i g, Spec.Shows (.fsym i g) e → t.syms i g = t'.syms i g) :
    ∀ p, latex fmt t p e = latex fmt t' p e := by
  induction e using Expr.ind with
  | const c => intro p; rw [latex, latex]
  | var i => intro p; rw [latex, latex, latexVar, latexVar, hv i .self]
  | fsym i g => intro p; rw [latex, latex, latexSym, latexSym, hs i g .self]
  | un op e ih =>
    have ih := ih (fun i h => hv i (.un h)) (fun i g h => hs i g (.un h))
    intro p
    cases op with
    | fn f => cases f <;> rw [latex, latex, ih]
    | pd x => rw [latex, latex, ih, latexVar, latexVar, hv x (.pdVar rfl)]
    | _ => rw [latex, latex, ih]
  | integ lo hi x e ihl ihh ihe =>
    have ihl := ihl (fun i h => hv i (.integLo h)) (fun i g h => hs i g (.integLo h))
    have ihh := ihh (fun i h => hv i (.integHi h)) (fun i g h => hs i g (.integHi h))
    have ihe := ihe (fun i h => hv i (.integBody h)) (fun i g h => hs i g (.integBody h))
    intro p
    rw [latex, latex, ihl, ihh, ihe, latexVar, latexVar, hv x (.integVar rfl)]
  | bin op l r ihl ihr =>
    have ihl := ihl (fun i h => hv i (.binL h)) (fun i g h => hs i g (.binL h))
    have ihr := ihr (fun i h => hv i (.binR h)) (fun i g h => hs i g (.binR h))
    intro p
    cases op
    case div => rw [latex, latex, ihl, ihr]
    all_goals
      rw [latex, latex, ihl, ihr] <;> simp
  | vec es _ => intro p; rw [latex, latex]

end VM
