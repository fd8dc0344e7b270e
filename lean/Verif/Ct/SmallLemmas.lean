import Verif.Ct.RatLemmas
import Verif.Spec.CtSmall
import Mathlib.Tactic.SplitIfs
/-
No overflow while the numbers of an expression are small.
-/
namespace VM.Ct
open VM.Spec

/-- The absolute value, at least one. -/
def size1 (n : Int) : Nat := max 1 n.natAbs

theorem size1_pos (n : Int) : 1 ≤ size1 n := Nat.le_max_left ..
theorem abs_size1 (n : Int) : n.natAbs ≤ size1 n := Nat.le_max_right ..
theorem size1_mul (a b : Int) : size1 (a * b) ≤ size1 a * size1 b := by
  refine max_le (Nat.mul_pos (size1_pos a) (size1_pos b)) ?_
  rw [Int.natAbs_mul]
  exact Nat.mul_le_mul (abs_size1 a) (abs_size1 b)
theorem size1_add (a b : Int) : size1 (a + b) ≤ size1 a + size1 b := by unfold size1; omega
theorem size1_sub (a b : Int) : size1 (a - b) ≤ size1 a + size1 b := by unfold size1; omega
theorem size1_tdiv (a g : Int) : size1 (a.tdiv g) ≤ size1 a := by
  have : (a.tdiv g).natAbs ≤ a.natAbs := by rw [Int.natAbs_tdiv]; exact Nat.div_le_self ..
  unfold size1; omega

theorem ctMagnitude_pos (e : CtExpr) : 1 ≤ ctMagnitude e := by
  induction e with
  | const n => simp [ctMagnitude]
  | var | fsym => simp [ctMagnitude]
  | bin l op r ihl ihr =>
    have := Nat.mul_pos ihl ihr
    cases op <;> simp only [ctMagnitude]
    case div => split <;> omega
    all_goals omega

theorem strict_ext_small {cv : Conv} (hcv : Conv.Extends strict cv) {a : Int} (h : a.natAbs < 2 ^ 31) :
    cv a = some a := hcv _ _ (strict_small h)

/-- What a rule gives for numbers that are small: the same for all conversions. -/
def SmallResult (f : Conv → Option CtExpr) (m : Nat) (z : Prop) : Prop :=
  (∃ e', (∀ cv, Conv.Extends strict cv → f cv = some e') ∧ ctMagnitude e' ≤ m) ∨
    (∀ cv, Conv.Extends strict cv → f cv = none) ∧ z

theorem frac_small {n d : Int} {m : Nat} (hm : 1 + size1 n + size1 d ≤ m) (hb : m ≤ 2 ^ 31) {z : Prop}
    (hz : n = 0 → d = 0 → z) : SmallResult (fun cv => frac cv (some n) (some d)) m z := by
  have hn : n.natAbs < 2 ^ 31 := by have := abs_size1 n; have := size1_pos d; omega
  have hd : d.natAbs < 2 ^ 31 := by have := abs_size1 d; have := size1_pos n; omega
  by_cases h : n = 0 ∧ d = 0
  · obtain ⟨rfl, rfl⟩ := h
    refine .inr ⟨fun cv hcv => ?_, hz rfl rfl⟩
    simp [frac, strict_ext_small hcv (a := 0) (by decide), gcdC, gcdN]
  · obtain ⟨g, hg, -⟩ := gcdN_total (d.natAbs + 1) n d (Nat.lt_succ_self _) hn hd (by omega)
    have hg0 := (gcdC_exact strict_exact hg).2
    refine .inl ⟨♯(n.tdiv g) /' ♯(d.tdiv g), fun cv hcv => frac_ext hcv ?_, ?_⟩
    · exact frac_some.2 ⟨n, d, n, d, g, _, _, rfl, rfl, strict_small hn, strict_small hd, hg,
        idiv_some.2 ⟨hg0, tdiv_small hn, rfl⟩, idiv_some.2 ⟨hg0, tdiv_small hd, rfl⟩, rfl⟩
    · have h1 := size1_tdiv n g
      have h2 := size1_tdiv d g
      simp only [ctMagnitude, divides, Bool.or_self, Bool.false_eq_true, if_false]
      unfold size1 at *
      omega

/-- A constant expression with value `n`, at most `p`, if `p` is small enough. -/
class Fits (x : CExp) (n : outParam Int) (p : outParam Nat) : Prop where
  fits : 1 ≤ p ∧ (p < 2 ^ 31 → x = some n ∧ size1 n ≤ p)

theorem fit_small {a : Int} (h : size1 a < 2 ^ 31) : fit a = some a :=
  if_pos (by have := abs_size1 a; unfold InLong; omega)

instance (n : Int) : Fits (some n) n (size1 n) := ⟨size1_pos n, fun _ => ⟨rfl, le_rfl⟩⟩

instance {x y : CExp} {a b : Int} {p q : Nat} [h : Fits x a p] [k : Fits y b q] :
    Fits (cmul x y) (a * b) (p * q) := by
  obtain ⟨h⟩ := h
  obtain ⟨k⟩ := k
  refine ⟨⟨Nat.mul_pos h.1 k.1, fun hl => ?_⟩⟩
  obtain ⟨rfl, h2⟩ := h.2 (lt_of_le_of_lt (Nat.le_mul_of_pos_right p k.1) hl)
  obtain ⟨rfl, k2⟩ := k.2 (lt_of_le_of_lt (Nat.le_mul_of_pos_left q h.1) hl)
  have := (size1_mul a b).trans (Nat.mul_le_mul h2 k2)
  exact ⟨fit_small (by omega), this⟩

instance {x y : CExp} {a b : Int} {p q : Nat} [h : Fits x a p] [k : Fits y b q] :
    Fits (cadd x y) (a + b) (p + q) := by
  obtain ⟨h⟩ := h
  obtain ⟨k⟩ := k
  refine ⟨⟨by have := h.1; omega, fun hl => ?_⟩⟩
  obtain ⟨rfl, h2⟩ := h.2 (by omega)
  obtain ⟨rfl, k2⟩ := k.2 (by omega)
  have := size1_add a b
  exact ⟨fit_small (by omega), by omega⟩

instance {x y : CExp} {a b : Int} {p q : Nat} [h : Fits x a p] [k : Fits y b q] :
    Fits (csub x y) (a - b) (p + q) := by
  obtain ⟨h⟩ := h
  obtain ⟨k⟩ := k
  refine ⟨⟨by have := h.1; omega, fun hl => ?_⟩⟩
  obtain ⟨rfl, h2⟩ := h.2 (by omega)
  obtain ⟨rfl, k2⟩ := k.2 (by omega)
  have := size1_sub a b
  exact ⟨fit_small (by omega), by omega⟩

theorem frac_fits {x y : CExp} {n d : Int} {p q m : Nat} [hx : Fits x n p] [hy : Fits y d q] {z : Prop}
    (hz : n = 0 → d = 0 → z) (hm : 1 + p + q ≤ m) (hb : m ≤ 2 ^ 31) : SmallResult (fun cv => frac cv x y) m z := by
  obtain ⟨rfl, h1⟩ := hx.fits.2 (by omega)
  obtain ⟨rfl, h2⟩ := hy.fits.2 (by omega)
  exact frac_small (by omega) hb hz

theorem const_fits {x : CExp} {n : Int} {p m : Nat} [hx : Fits x n p] {z : Prop}
    (hm : 1 + p ≤ m) (hb : m ≤ 2 ^ 31) : SmallResult (fun _ => x.map CtExpr.const) m z := by
  obtain ⟨rfl, h1⟩ := hx.fits.2 (by omega)
  refine .inl ⟨♯n, fun _ _ => rfl, ?_⟩
  simp only [ctMagnitude]
  unfold size1 at h1
  omega

theorem ctMagnitude_const (n : Int) : ctMagnitude ♯n = 1 + size1 n := rfl
theorem ctMagnitude_frac (n d : Int) : ctMagnitude (♯n /' ♯d) = 1 + size1 n + size1 d := by
  simp only [ctMagnitude, divides, size1, Bool.or_self, Bool.false_eq_true, if_false]; omega
theorem ctMagnitude_add (l r : CtExpr) : ctMagnitude (l +' r) = ctMagnitude l * ctMagnitude r := rfl
theorem ctMagnitude_sub (l r : CtExpr) : ctMagnitude (l -' r) = ctMagnitude l * ctMagnitude r := rfl
theorem ctMagnitude_mul (l r : CtExpr) : ctMagnitude (l *' r) = ctMagnitude l * ctMagnitude r := rfl
theorem ctMagnitude_quot (l r : CtExpr) : ctMagnitude (l /' r) =
    if divides l || divides r then ctMagnitude l * ctMagnitude r else ctMagnitude l + ctMagnitude r - 1 := rfl

theorem ctMagnitude_over (l r : CtExpr) (h : (divides l || divides r) = true) :
    ctMagnitude (l /' r) = ctMagnitude l * ctMagnitude r := by rw [ctMagnitude_quot, if_pos h]

theorem zero_here {l : CtExpr} : ZeroDivisor (l /' ♯0) := ⟨l, _, .self, .inl rfl⟩
theorem zero_left {l r : CtExpr} {op : COp} (h : ZeroDivisor l) : ZeroDivisor (.bin l op r) :=
  let ⟨a, b, h1, h2⟩ := h; ⟨a, b, .left h1, h2⟩
theorem zero_right {l r : CtExpr} {op : COp} (h : ZeroDivisor r) : ZeroDivisor (.bin l op r) :=
  let ⟨a, b, h1, h2⟩ := h; ⟨a, b, .right h1, h2⟩
theorem zero_inverse {l : CtExpr} {d : Int} : ZeroDivisor (l /' (♯0 /' ♯d)) := ⟨l, _, .self, .inr ⟨d, rfl⟩⟩

theorem size1_0 : size1 0 = 1 := rfl
theorem size1_1 : size1 1 = 1 := rfl
theorem size1_neg : size1 (-1) = 1 := rfl

/-- Close the goal of a specialisation that computes nothing. -/
macro "moves" : tactic => `(tactic| (
  intro hb
  dsimp only
  refine .inl ⟨_, fun _ _ => rfl, ?_⟩
  clear hb
  simp only [size1_0, size1_1, size1_neg, Nat.reduceAdd, ctMagnitude_const, ctMagnitude_add, ctMagnitude_sub, ctMagnitude_mul,
    ctMagnitude_quot, divides, Bool.or_false, Bool.false_or, Bool.or_true, Bool.true_or, if_true, Bool.or_eq_true,
    Bool.false_eq_true, if_false]
  first
    | done
    | omega
    | (rename_i a b; have ha := ctMagnitude_pos a; have hb := ctMagnitude_pos b
       have := Nat.mul_le_mul ha hb
       generalize ctMagnitude a = x at *; generalize ctMagnitude b = y at *
       (try split_ifs) <;> first | omega | (exfalso; simp_all; done) | nlinarith)
    | (rename_i a; have := ctMagnitude_pos a; (try split_ifs) <;> first | omega | nlinarith)
    | (rename_i a; have := size1_pos a; nlinarith)
    | (rename_i a b; have := size1_pos a; have := size1_pos b; nlinarith)))

/-- Compare the bounds. -/
macro "compared" : tactic => `(tactic| (
  simp only [size1_0, size1_1, size1_neg, Nat.reduceAdd, ctMagnitude_const, ctMagnitude_add, ctMagnitude_sub, ctMagnitude_mul,
    ctMagnitude_frac, ctMagnitude_over, divides, Bool.or_true, Bool.true_or, if_true]
  first
    | (rename_i a b c d _; generalize size1 a = x at *; generalize size1 b = y at *; generalize size1 c = z at *
       generalize size1 d = w at *; nlinarith [Nat.zero_le (x * z), Nat.zero_le (y * w), Nat.zero_le (x * w),
         Nat.zero_le (y * z), Nat.zero_le (x * y), Nat.zero_le (z * w)])
    | (rename_i a b c _; generalize size1 a = x at *; generalize size1 b = y at *; generalize size1 c = z at *
       nlinarith [Nat.zero_le (x * z), Nat.zero_le (x * y), Nat.zero_le (y * z)])
    | (rename_i a b _; generalize size1 a = x at *; generalize size1 b = y at *; nlinarith [Nat.zero_le (x * y)])
    | (rename_i a _; generalize size1 a = x at *; omega)))

/-- Close the goal of a rational specialisation. -/
macro "rationally" : tactic => `(tactic| (
  intro hb
  dsimp only
  refine frac_fits ?h3 ?h4 hb
  case h3 =>
    intro _ h
    (try rcases mul_eq_zero.1 h with h | h) <;> subst h <;>
      first
        | exact zero_here
        | exact zero_inverse
        | exact zero_left zero_here
        | exact zero_right zero_here
  case h4 => compared))

/-- Close the goal of a specialisation that computes an integer. -/
macro "integrally" : tactic => `(tactic| (
  intro hb
  dsimp only
  refine const_fits ?_ hb
  compared))

theorem ctMagnitude_inverse (l r : CtExpr) : ctMagnitude (l /' r) ≤ ctMagnitude l * ctMagnitude (♯1 /' r) := by
  have hl := ctMagnitude_pos l
  have hr := ctMagnitude_pos r
  simp only [ctMagnitude_quot, ctMagnitude_const, size1_1, divides, Bool.false_or]
  cases divides l <;> cases divides r <;>
    simp only [Bool.or_true, Bool.or_false, Bool.or_self, Bool.false_eq_true, if_true, if_false] <;>
    generalize ctMagnitude l = x at * <;> generalize ctMagnitude r = y at *
  · rw [show 1 + 1 + y - 1 = 1 + y by omega]
    have := Nat.mul_le_mul hl hr
    have : x * (1 + y) = x + x * y := by ring
    have : y ≤ x * y := Nat.le_mul_of_pos_left y hl
    omega
  · nlinarith
  · rw [show 1 + 1 + y - 1 = 1 + y by omega]
    nlinarith
  · nlinarith

theorem ctMagnitude_inverses (a b : CtExpr) :
    ctMagnitude (♯1 /' (a *' b)) ≤ ctMagnitude (♯1 /' a) * ctMagnitude (♯1 /' b) := by
  have hl := ctMagnitude_pos a
  have hr := ctMagnitude_pos b
  simp only [ctMagnitude_quot, ctMagnitude_const, ctMagnitude_mul, size1_1, divides, Bool.false_or]
  cases divides a <;> cases divides b <;>
    simp only [Bool.or_true, Bool.or_false, Bool.or_self, Bool.false_eq_true, if_true, if_false] <;>
    generalize ctMagnitude a = x at * <;> generalize ctMagnitude b = y at *
  · rw [show 1 + 1 + y - 1 = 1 + y by omega, show 1 + 1 + x - 1 = 1 + x by omega]
    have : (1 + x) * (1 + y) = 1 + x + y + x * y := by ring
    omega
  · rw [show 1 + 1 + x - 1 = 1 + x by omega]; nlinarith
  · rw [show 1 + 1 + y - 1 = 1 + y by omega]; nlinarith
  · nlinarith [Nat.mul_le_mul hl hr]

theorem plus_small {s : Spz} {e : CtExpr} : s ∈ specsPlus → s.pat.fits e = true → ctMagnitude e ≤ 2 ^ 31 →
    SmallResult (fun cv => s.type cv e) (ctMagnitude e) (ZeroDivisor e) := by
  intro _ _
  per_rule
  all_goals first | moves | rationally | integrally

theorem minus_small {s : Spz} {e : CtExpr} : s ∈ specsMinus → s.pat.fits e = true → ctMagnitude e ≤ 2 ^ 31 →
    SmallResult (fun cv => s.type cv e) (ctMagnitude e) (ZeroDivisor e) := by
  intro _ _
  per_rule
  all_goals first | moves | rationally | integrally

theorem mult_small {s : Spz} {e : CtExpr} : s ∈ specsMult → s.pat.fits e = true → ctMagnitude e ≤ 2 ^ 31 →
    SmallResult (fun cv => s.type cv e) (ctMagnitude e) (ZeroDivisor e) := by
  intro _ _
  per_rule
  all_goals first | moves | rationally | integrally | skip
  all_goals intro _; refine .inl ⟨_, fun _ _ => rfl, ?_⟩
  · exact ctMagnitude_inverse _ _
  · exact (ctMagnitude_inverse _ _).trans (le_of_eq (Nat.mul_comm _ _))
  · exact ctMagnitude_inverses _ _

theorem quotient_small {a b : Int} (hb : ctMagnitude (♯a /' ♯b) ≤ 2 ^ 31) :
    SmallResult (fun cv => (gcdC cv a b).bind fun g => (ldiv a g).bind fun a' => (ldiv b g).bind fun b' =>
      some (♯a' /' ♯b')) (ctMagnitude (♯a /' ♯b)) (ZeroDivisor (♯a /' ♯b)) := by
  rw [ctMagnitude_frac] at *
  have hn : a.natAbs < 2 ^ 31 := by have := abs_size1 a; omega
  have hd : b.natAbs < 2 ^ 31 := by have := abs_size1 b; omega
  by_cases h : a = 0 ∧ b = 0
  · obtain ⟨rfl, rfl⟩ := h
    exact .inr ⟨fun cv _ => by simp [gcdC, gcdN], zero_here⟩
  · obtain ⟨g, hg, -⟩ := gcdN_total (b.natAbs + 1) a b (Nat.lt_succ_self _) hn hd (by omega)
    have hg0 := (gcdC_exact strict_exact hg).2
    have h1 := size1_tdiv a g
    have h2 := size1_tdiv b g
    have k1 := abs_size1 (a.tdiv g)
    have k2 := abs_size1 (b.tdiv g)
    refine .inl ⟨♯(a.tdiv g) /' ♯(b.tdiv g), fun cv hcv => ?_, ?_⟩
    · have := gcdN_ext hcv _ _ _ _ hg
      have l1 : ldiv a g = some (a.tdiv g) := ldiv_some.2 ⟨hg0, by unfold InLong; omega, rfl⟩
      have l2 : ldiv b g = some (b.tdiv g) := ldiv_some.2 ⟨hg0, by unfold InLong; omega, rfl⟩
      unfold gcdC
      simp [this, l1, l2]
    · rw [ctMagnitude_frac]; omega

theorem div_small {s : Spz} {e : CtExpr} : s ∈ specsDiv → s.pat.fits e = true → ctMagnitude e ≤ 2 ^ 31 →
    SmallResult (fun cv => s.type cv e) (ctMagnitude e) (ZeroDivisor e) := by
  intro _ _
  per_rule
  all_goals first
    | moves
    | rationally
    | integrally
    | exact fun _ => .inr ⟨fun _ _ => rfl, zero_here⟩
    | exact quotient_small

theorem spz_small {s : Spz} {e : CtExpr} (hs : s ∈ specs) (hm : s.pat.fits e = true) (hb : ctMagnitude e ≤ 2 ^ 31) :
    SmallResult (fun cv => s.type cv e) (ctMagnitude e) (ZeroDivisor e) := by
  simp only [specs, List.mem_append] at hs
  obtain ((hs | hs) | hs) | hs := hs
  · exact plus_small hs hm hb
  · exact minus_small hs hm hb
  · exact mult_small hs hm hb
  · exact div_small hs hm hb

/-! ### All steps -/

theorem divides_iff (e : CtExpr) : divides e = false ↔ DivFree e := by
  induction e with
  | bin l op r ihl ihr => cases op <;> simp [divides, DivFree, ihl, ihr]
  | _ => simp [divides, DivFree]

theorem ctMagnitude_left (l r : CtExpr) (op : COp) : ctMagnitude l ≤ ctMagnitude (.bin l op r) := by
  have hl := ctMagnitude_pos l
  have hr := ctMagnitude_pos r
  have := Nat.le_mul_of_pos_right (ctMagnitude l) hr
  cases op <;> simp only [ctMagnitude]
  case div => split <;> omega
  all_goals exact this

theorem ctMagnitude_right (l r : CtExpr) (op : COp) : ctMagnitude r ≤ ctMagnitude (.bin l op r) := by
  have hl := ctMagnitude_pos l
  have hr := ctMagnitude_pos r
  have := Nat.le_mul_of_pos_left (ctMagnitude r) hl
  cases op <;> simp only [ctMagnitude]
  case div => split <;> omega
  all_goals exact this

theorem ctMagnitude_mono {l l' r r' : CtExpr} (op : COp) (hl : ctMagnitude l' ≤ ctMagnitude l)
    (hr : ctMagnitude r' ≤ ctMagnitude r) (dl : DivFree l → DivFree l') (dr : DivFree r → DivFree r') :
    ctMagnitude (.bin l' op r') ≤ ctMagnitude (.bin l op r) := by
  have pl := ctMagnitude_pos l'
  have pr := ctMagnitude_pos r'
  have hm := Nat.mul_le_mul hl hr
  have hs : ctMagnitude l' + ctMagnitude r' - 1 ≤ ctMagnitude l' * ctMagnitude r' := by
    obtain ⟨x, hx⟩ : ∃ x, ctMagnitude l' = x + 1 := ⟨ctMagnitude l' - 1, by omega⟩
    obtain ⟨y, hy⟩ : ∃ y, ctMagnitude r' = y + 1 := ⟨ctMagnitude r' - 1, by omega⟩
    rw [hx, hy]
    have : (x + 1) * (y + 1) = x * y + x + y + 1 := by ring
    omega
  cases op <;> simp only [ctMagnitude]
  case div =>
    by_cases h : divides l || divides r
    · rw [if_pos h]
      split <;> omega
    · rw [if_neg h]
      simp only [Bool.or_eq_true, not_or, Bool.not_eq_true, divides_iff] at h
      have h1 := (divides_iff l').2 (dl h.1)
      have h2 := (divides_iff r').2 (dr h.2)
      simp only [h1, h2, Bool.or_self, Bool.false_eq_true, if_false]
      omega
  all_goals exact hm

theorem implAny_small {cv : Conv} (hcv : Conv.Extends strict cv) {e e' : CtExpr} {n : Nat} (h : ImplAny cv e n e')
    (hb : ctMagnitude e ≤ 2 ^ 31) : ImplAny strict e n e' ∧ ctMagnitude e' ≤ ctMagnitude e := by
  induction h with
  | const n => exact ⟨.const n, le_rfl⟩
  | var n => exact ⟨.var n, le_rfl⟩
  | fsym n => exact ⟨.fsym n, le_rfl⟩
  | @general l r l' r' n m op hl hr ihl ihr =>
    have h1 := ihl ((ctMagnitude_left l r op).trans hb)
    have h2 := ihr ((ctMagnitude_right l r op).trans hb)
    exact ⟨.general op h1.1 h2.1, ctMagnitude_mono op h1.2 h2.2 (fun h => (implAny_divFree (cv' := cv) hl h).2)
      (fun h => (implAny_divFree (cv' := cv) hr h).2)⟩
  | @special e e' s hs hm ht =>
    obtain ⟨e₁, h1, h2⟩ | ⟨h1, -⟩ := spz_small hs hm hb
    · have this : s.type cv e = some e₁ := h1 cv hcv
      rw [ht] at this
      cases this
      exact ⟨.special hs hm (h1 strict fun _ _ h => h), h2⟩
    · have this : s.type cv e = none := h1 cv hcv
      rw [ht] at this; cases this

theorem simplifyAny_small {cv : Conv} (hcv : Conv.Extends strict cv) {e e' : CtExpr} (h : SimplifyAny cv e e')
    (hb : ctMagnitude e ≤ 2 ^ 31) : SimplifyAny strict e e' ∧ ctMagnitude e' ≤ ctMagnitude e := by
  induction h with
  | stop h => exact ⟨.stop (implAny_small hcv h hb).1, le_rfl⟩
  | turn h _ ih =>
    obtain ⟨h1, h2⟩ := implAny_small hcv h hb
    obtain ⟨h3, h4⟩ := ih (h2.trans hb)
    exact ⟨.turn h1 h3, h4.trans h2⟩

/-- What is selected does not depend on the conversion, and a failure has one of two reasons. -/
theorem impl_small {cv : Conv} (hcv : Conv.Extends strict cv) (e : CtExpr) (hb : ctMagnitude e ≤ 2 ^ 31) :
    simplifyImpl cv e = simplifyImpl strict e ∧
      (simplifyImpl cv e = none → (∃ t, Part t e ∧ Ambiguous t) ∨ ZeroDivisor e) := by
  induction e with
  | const | var | fsym => simp [simplifyImpl]
  | bin l op r ihl ihr =>
    obtain ⟨l1, l2⟩ := ihl ((ctMagnitude_left l r op).trans hb)
    obtain ⟨r1, r2⟩ := ihr ((ctMagnitude_right l r op).trans hb)
    unfold simplifyImpl
    by_cases hc : cands (.bin l op r) = []
    · rw [if_pos hc, if_pos hc, ← l1, ← r1]
      refine ⟨rfl, fun h => ?_⟩
      cases hl : simplifyImpl cv l with
      | none =>
        obtain ⟨t, h1, h2⟩ | h1 := l2 hl
        · exact .inl ⟨t, .left h1, h2⟩
        · exact .inr (zero_left h1)
      | some p =>
        cases hr : simplifyImpl cv r with
        | none =>
          obtain ⟨t, h1, h2⟩ | h1 := r2 hr
          · exact .inl ⟨t, .right h1, h2⟩
          · exact .inr (zero_right h1)
        | some q => rw [hl, hr] at h; cases h
    · rw [if_neg hc, if_neg hc]
      cases hs : best (cands (.bin l op r)) with
      | none =>
        refine ⟨rfl, fun _ => .inl ⟨_, .self, ?_, fun s hs' hf => ?_⟩⟩
        · obtain ⟨s, hs'⟩ := List.exists_mem_of_ne_nil _ hc
          simp only [cands, List.mem_filter] at hs'
          exact ⟨s, hs'⟩
        · have := List.find?_eq_none.1 hs s (by simp [cands, hs', hf])
          simp only [Bool.not_eq_true, List.all_eq_false, cands, List.mem_filter] at this
          obtain ⟨t, ⟨h1, h2⟩, h3⟩ := this
          exact ⟨t, h1, h2, by simpa using h3⟩
      | some s =>
        obtain ⟨h1, h2, -⟩ := best_spec hs
        obtain ⟨e', h3, -⟩ | ⟨h3, h4⟩ := spz_small h1 h2 hb
        · simp only [Option.bind_some, h3 cv hcv, h3 strict fun _ _ h => h]
          exact ⟨trivial, fun h => by cases h⟩
        · simp only [Option.bind_some, h3 cv hcv, h3 strict fun _ _ h => h]
          exact ⟨trivial, fun _ => .inr h4⟩

theorem ctSimplify_small {cv : Conv} (hcv : Conv.Extends strict cv) : ∀ (k : Nat) (e : CtExpr), weight e ≤ k →
    ctMagnitude e ≤ 2 ^ 31 → ctSimplify cv e = ctSimplify strict e ∧
      (ctSimplify cv e = none → ∃ e₁, Turned cv e e₁ ∧ ((∃ t, Part t e₁ ∧ Ambiguous t) ∨ ZeroDivisor e₁)) := by
  intro k
  induction k with
  | zero => intro e h; have := weight_pos e; omega
  | succ k ih =>
    intro e hk hb
    obtain ⟨h1, h2⟩ := impl_small hcv e hb
    rw [ctSimplify_eq cv, ctSimplify_eq strict, ← h1]
    cases h : simplifyImpl cv e with
    | none => exact ⟨rfl, fun _ => ⟨e, .none e, h2 h⟩⟩
    | some p =>
      obtain ⟨n, e'⟩ := p
      have hw := simplifyImpl_weight h
      simp only [Option.bind_some]
      by_cases hn : n = 0
      · simp [hn]
      · obtain ⟨n, rfl⟩ : ∃ n', n = n' + 1 := ⟨n - 1, by omega⟩
        rw [if_neg hn, if_neg hn]
        obtain ⟨h3, h4⟩ := ih e' (by omega) ((implAny_small hcv (simplifyImpl_any h) hb).2.trans hb)
        refine ⟨h3, fun hx => ?_⟩
        obtain ⟨e₁, h5, h6⟩ := h4 hx
        exact ⟨e₁, .turn h h5, h6⟩

end VM.Ct
