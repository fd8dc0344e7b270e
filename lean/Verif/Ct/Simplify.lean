import Verif.Ct.Expr
/-
`result_of::simplify` for compile-time expressions, manipulation/simplify.hpp 36-879: a set of partial
specialisations of `simplify_impl` and a loop.
-/
namespace VM.Ct

/-- The argument of a partial specialisation: `any` is a type parameter, `anyC` is `ct_constant<v>` with a
parameter `v`, `lit v` is `ct_constant<v>` with a fixed number. -/
inductive Pat
  | any
  | anyC
  | lit (v : Int)
  | bin (l : Pat) (op : COp) (r : Pat)
  deriving DecidableEq, Repr

/-- The argument matches the specialisation. -/
def Pat.fits : Pat → CtExpr → Bool
  | .any, _ => true
  | .anyC, .const _ => true
  | .lit v, .const w => v = w
  | .bin p o q, .bin l o' r => o = o' && p.fits l && q.fits r
  | _, _ => false

/-- `p` is at least as specialised as `q` (C++ [temp.class.order]): `q` can be deduced from `p`. -/
def Pat.le : Pat → Pat → Bool
  | _, .any => true
  | .anyC, .anyC => true
  | .lit _, .anyC => true
  | .lit v, .lit w => v = w
  | .bin p o q, .bin p' o' q' => o = o' && p.le p' && q.le q'
  | _, _ => false

/-- One partial specialisation: argument, member `value`, member `type` (none: compile error). -/
structure Spz where
  pat : Pat
  value : Nat
  type : Conv → CtExpr → Option CtExpr

namespace Pat
abbrev X : Pat := .any
abbrev C : Pat := .anyC
abbrev k (v : Int) : Pat := .lit v
instance : Add Pat := ⟨fun p q => .bin p .plus q⟩
instance : Sub Pat := ⟨fun p q => .bin p .minus q⟩
instance : Mul Pat := ⟨fun p q => .bin p .mult q⟩
instance : Div Pat := ⟨fun p q => .bin p .div q⟩
end Pat

open Pat in
/-- The partial specialisations for sums. -/
def specsPlus : List Spz := [
  -- 66-71
  ⟨X + k 0, 1, fun _ e => match e with | l +' _ => some l | _ => none⟩,
  -- 74-79
  ⟨k 0 + X, 1, fun _ e => match e with | _ +' r => some r | _ => none⟩,
  -- 82-87
  ⟨k 0 + k 0, 1, fun _ _ => some ♯0⟩,
  -- 103-115
  ⟨X + (k 0 - X), 1, fun _ e => match e with | l +' (_ -' r) => some (l -' r) | _ => none⟩,
  -- 131-143
  ⟨(k 0 - X) + X, 1, fun _ e => match e with | (_ -' a) +' b => some (b -' a) | _ => none⟩,
  -- 163-180
  ⟨(k 0 - X) + (k 0 - X), 1, fun _ e => match e with
    | (_ -' a) +' (_ -' b) => some (♯(-1) *' (a +' b)) | _ => none⟩,
  -- 355-374
  ⟨(C / C) + (C / C), 1, fun cv e => match e with
    | (♯n₁ /' ♯d₁) +' (♯n₂ /' ♯d₂) =>
      frac cv (cadd (cmul (some n₁) (some d₂)) (cmul (some n₂) (some d₁))) (cmul (some d₁) (some d₂))
    | _ => none⟩,
  -- 376-393
  ⟨C + (C / C), 1, fun cv e => match e with
    | ♯v +' (♯n /' ♯d) => frac cv (cadd (cmul (some v) (some d)) (some n)) (some d) | _ => none⟩,
  -- 395-412
  ⟨(C / C) + C, 1, fun cv e => match e with
    | (♯n /' ♯d) +' ♯v => frac cv (cadd (some n) (cmul (some v) (some d))) (some d) | _ => none⟩,
  -- 607-615
  ⟨C + C, 1, fun _ e => match e with | ♯a +' ♯b => (cadd (some a) (some b)).map .const | _ => none⟩,
  -- 617-625
  ⟨C + k 0, 1, fun _ e => match e with | ♯a +' _ => some ♯a | _ => none⟩,
  -- 627-635
  ⟨k 0 + C, 1, fun _ e => match e with | _ +' ♯b => some ♯b | _ => none⟩]

open Pat in
/-- The partial specialisations for differences. -/
def specsMinus : List Spz := [
  -- 95-100
  ⟨X - k 0, 1, fun _ e => match e with | l -' _ => some l | _ => none⟩,
  -- 117-129
  ⟨X - (k 0 - X), 1, fun _ e => match e with | l -' (_ -' r) => some (l +' r) | _ => none⟩,
  -- 145-160
  ⟨(k 0 - X) - X, 1, fun _ e => match e with
    | (_ -' a) -' b => some (♯(-1) *' (a +' b)) | _ => none⟩,
  -- 183-197
  ⟨(k 0 - X) - (k 0 - X), 1, fun _ e => match e with
    | (_ -' a) -' (_ -' b) => some (b -' a) | _ => none⟩,
  -- 417-435
  ⟨(C / C) - (C / C), 1, fun cv e => match e with
    | (♯n₁ /' ♯d₁) -' (♯n₂ /' ♯d₂) =>
      frac cv (csub (cmul (some n₁) (some d₂)) (cmul (some n₂) (some d₁))) (cmul (some d₁) (some d₂))
    | _ => none⟩,
  -- 437-453
  ⟨C - (C / C), 1, fun cv e => match e with
    | ♯v -' (♯n /' ♯d) => frac cv (csub (cmul (some v) (some d)) (some n)) (some d) | _ => none⟩,
  -- 455-471
  ⟨(C / C) - C, 1, fun cv e => match e with
    | (♯n /' ♯d) -' ♯v => frac cv (csub (some n) (cmul (some v) (some d))) (some d) | _ => none⟩,
  -- 474-489
  ⟨(C / C) - k 0, 1, fun cv e => match e with
    | (♯n /' ♯d) -' _ => frac cv (some n) (some d) | _ => none⟩,
  -- 637-645
  ⟨C - C, 1, fun _ e => match e with | ♯a -' ♯b => (csub (some a) (some b)).map .const | _ => none⟩,
  -- 648-656
  ⟨k 1 - k 0, 1, fun _ _ => some ♯1⟩,
  -- 658-666
  ⟨k (-1) - k 0, 1, fun _ _ => some ♯(-1)⟩]

open Pat in
/-- The partial specialisations for products. -/
def specsMult : List Spz := [
  -- 204-209
  ⟨X * k 0, 1, fun _ _ => some ♯0⟩,
  -- 212-217
  ⟨k 0 * X, 1, fun _ _ => some ♯0⟩,
  -- 220-225
  ⟨k 0 * k 0, 1, fun _ _ => some ♯0⟩,
  -- 231-236
  ⟨X * k 1, 1, fun _ e => match e with | l *' _ => some l | _ => none⟩,
  -- 239-244
  ⟨k 1 * X, 1, fun _ e => match e with | _ *' r => some r | _ => none⟩,
  -- 247-252
  ⟨k 1 * k 1, 1, fun _ _ => some ♯1⟩,
  -- 255-260
  ⟨k 1 * k 0, 1, fun _ _ => some ♯0⟩,
  -- 262-267
  ⟨k 0 * k 1, 1, fun _ _ => some ♯0⟩,
  -- 310-320
  ⟨X * (k 1 / X), 1, fun _ e => match e with | l *' (_ /' r) => some (l /' r) | _ => none⟩,
  -- 322-332
  ⟨(k 1 / X) * X, 1, fun _ e => match e with | (_ /' a) *' b => some (b /' a) | _ => none⟩,
  -- 335-346
  ⟨(k 1 / X) * (k 1 / X), 1, fun _ e => match e with
    | (_ /' a) *' (_ /' b) => some (♯1 /' (a *' b)) | _ => none⟩,
  -- 493-511
  ⟨(C / C) * (C / C), 1, fun cv e => match e with
    | (♯n₁ /' ♯d₁) *' (♯n₂ /' ♯d₂) =>
      frac cv (cmul (some n₁) (some n₂)) (cmul (some d₁) (some d₂))
    | _ => none⟩,
  -- 513-529
  ⟨C * (C / C), 1, fun cv e => match e with
    | ♯v *' (♯n /' ♯d) => frac cv (cmul (some v) (some n)) (some d) | _ => none⟩,
  -- 531-547
  ⟨(C / C) * C, 1, fun cv e => match e with
    | (♯n /' ♯d) *' ♯v => frac cv (cmul (some n) (some v)) (some d) | _ => none⟩,
  -- 671-679
  ⟨C * C, 1, fun _ e => match e with | ♯a *' ♯b => (cmul (some a) (some b)).map .const | _ => none⟩,
  -- 682-690
  ⟨k 1 * C, 1, fun _ e => match e with | _ *' ♯b => some ♯b | _ => none⟩,
  -- 692-700
  ⟨C * k 1, 1, fun _ e => match e with | ♯a *' _ => some ♯a | _ => none⟩,
  -- 702-710
  ⟨C * k 0, 1, fun _ _ => some ♯0⟩,
  -- 712-720
  ⟨k 0 * C, 1, fun _ _ => some ♯0⟩]

open Pat in
/-- The partial specialisations for quotients.  Note the member `value` of 726-737. -/
def specsDiv : List Spz := [
  -- 273-278
  ⟨k 0 / X, 1, fun _ _ => some ♯0⟩,
  -- 281-286
  ⟨X / k 0, 1, fun _ _ => none⟩,
  -- 290-295
  ⟨k 0 / k 0, 1, fun _ _ => none⟩,
  -- 301-306
  ⟨X / k 1, 1, fun _ e => match e with | l /' _ => some l | _ => none⟩,
  -- 550-568
  ⟨(C / C) / (C / C), 1, fun cv e => match e with
    | (♯n₁ /' ♯d₁) /' (♯n₂ /' ♯d₂) =>
      frac cv (cmul (some n₁) (some d₂)) (cmul (some d₁) (some n₂))
    | _ => none⟩,
  -- 570-586
  ⟨C / (C / C), 1, fun cv e => match e with
    | ♯v /' (♯n /' ♯d) => frac cv (cmul (some v) (some d)) (some n) | _ => none⟩,
  -- 588-604
  ⟨(C / C) / C, 1, fun cv e => match e with
    | (♯n /' ♯d) /' ♯v => frac cv (some n) (cmul (some d) (some v)) | _ => none⟩,
  -- 726-737
  ⟨C / C, 0, fun cv e => match e with
    | ♯a /' ♯b => (gcdC cv a b).bind fun g => (ldiv a g).bind fun a' => (ldiv b g).bind fun b' =>
      some (♯a' /' ♯b')
    | _ => none⟩,
  -- 739-747
  ⟨k 0 / C, 1, fun _ _ => some ♯0⟩,
  -- 749-757
  ⟨k 0 / k 1, 1, fun _ _ => some ♯0⟩,
  -- 759-767
  ⟨C / k 1, 1, fun _ e => match e with | ♯a /' _ => some ♯a | _ => none⟩,
  -- 770-778
  ⟨C / k (-1), 1, fun _ e => match e with
    | ♯a /' _ => (csub (some 0) (some a)).map .const | _ => none⟩]

/-- All partial specialisations of `simplify_impl` except the general one for a binary expression
(simplify.hpp 51-60). -/
def specs : List Spz := specsPlus ++ specsMinus ++ specsMult ++ specsDiv

/-- The specialisations that match. -/
def cands (e : CtExpr) : List Spz := specs.filter (fun s => s.pat.fits e)

/-- The most specialised one among the matching specialisations, if there is one.  If there is none the
use is ambiguous, a compile error. -/
def best (c : List Spz) : Option Spz := c.find? fun s => c.all fun t => s.pat.le t.pat

/-- `simplify_impl<E>`: the members `value` and `type`, simplify.hpp 43-60 and the specialisations above. -/
def simplifyImpl (cv : Conv) : CtExpr → Option (Nat × CtExpr)
  | .bin l op r =>
    if cands (.bin l op r) = [] then
      (simplifyImpl cv l).bind fun p => (simplifyImpl cv r).bind fun q =>
        some (p.1 + q.1, .bin p.2 op q.2)
    else
      (best (cands (.bin l op r))).bind fun s =>
        (s.type cv (.bin l op r)).bind fun e' => some (s.value, e')
  | .const n => some (0, .const n)
  | .var i => some (0, .var i)
  | .fsym t => some (0, .fsym t)

/-- `result_of::simplify<E>`, simplify.hpp 795-879, at most so many times around the loop
(see `ctSimplify_eq`: the bound is never reached). -/
def simplifyN (cv : Conv) : Nat → CtExpr → Option CtExpr
  | 0, _ => none
  | k + 1, e => (simplifyImpl cv e).bind fun p => if p.1 = 0 then some e else simplifyN cv k p.2

/-- A bound on the number of turns of the loop. -/
def weight : CtExpr → Nat
  | .bin l .minus r => weight l + weight r + 2
  | .bin l _ r => weight l + weight r + 1
  | _ => 1

/-- `result_of::simplify<E>::type`; none: compile error. -/
def ctSimplify (cv : Conv) (e : CtExpr) : Option CtExpr := simplifyN cv (weight e) e

/-! ### The same with an arbitrary choice among the matching specialisations -/

/-- `simplify_impl<E>` where any matching specialisation, the general one included, may be taken. -/
inductive ImplAny (cv : Conv) : CtExpr → Nat → CtExpr → Prop
  | const (n) : ImplAny cv (.const n) 0 (.const n)
  | var (i) : ImplAny cv (.var i) 0 (.var i)
  | fsym (t) : ImplAny cv (.fsym t) 0 (.fsym t)
  | general {l r l' r' : CtExpr} {n m : Nat} (op : COp) : ImplAny cv l n l' → ImplAny cv r m r' →
      ImplAny cv (.bin l op r) (n + m) (.bin l' op r')
  | special {e e' : CtExpr} {s : Spz} : s ∈ specs → s.pat.fits e = true → s.type cv e = some e' →
      ImplAny cv e s.value e'

/-- The loop of `simplify<E>` over such choices. -/
inductive SimplifyAny (cv : Conv) : CtExpr → CtExpr → Prop
  | stop {e e' : CtExpr} : ImplAny cv e 0 e' → SimplifyAny cv e e
  | turn {e e₁ e' : CtExpr} {n : Nat} : ImplAny cv e (n + 1) e₁ → SimplifyAny cv e₁ e' →
      SimplifyAny cv e e'

end VM.Ct
