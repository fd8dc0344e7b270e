import Verif.Rt.QuadThrowLemmas
import Verif.Rt.QuadratureLemmas
import Verif.Rt.Dec
import Verif.NumRat
/-
C97: a failing numerical integration tells what went wrong.

The full claim: whenever it throws, the thrown object can be caught as `std::exception`, and what() is true.  It fails for
integrands with formal derivatives only, as for evaluation (C58).
-/
namespace VM.Props
open VM.Spec
variable {K : Type} [Num K]

/-- An object of class `y`: of the class `integration_without_integral_exception`, or thrown at one of the other places. -/
def Thrown (y : Exc) (off : Offer) : Prop := (y = .noIntegral ∧ off = noIntegralOffer) ∨ ∃ s : Site, s.exc = y ∧ s.offer = off

/-- The call throws the object, or nothing. -/
def Offers (r : Res K) : Option Offer → Prop
  | none => ∀ y, r ≠ .throw y
  | some off => ∃ y, r = .throw y ∧ Thrown y off

theorem gauss_offers (o : Order K) {lo hi e : Expr K} {x : Nat} (hw : WellFormed (.integ lo hi x e)) :
    Offers (gaussQuad1 o lo hi x e) (gaussOffer o lo hi x e) := by
  cases hw with | integ _ hlo hhi he =>
  simp only [gaussQuad1, gaussOffer]
  split
  · next hc =>
    obtain ⟨a, ha, ha'⟩ := isConst_value hlo (Bool.and_eq_true_iff.1 hc).1
    obtain ⟨b, hb, hb'⟩ := isConst_value hhi (Bool.and_eq_true_iff.1 hc).2
    simp only [evalS_eq_eval, ha', hb', Res.both_ok, Res.bind_ok]
    cases hs : substitute (.var x) (.const (Num.div (Num.add a b) (Num.lit 2))) e with
    | ub => exact nofun
    | throw y =>
      simp only [substitute, substE_var, Res.bind_ok] at hs
      exact absurd hs (Quiet.simplified (rp_wf x _ he) y)
    | ok tmp =>
      have hm : eval o [Num.lit 0] (.bin .minus hi lo) = .ok (Num.sub b a) := by simp [eval, ha', hb', applyB]
      have hu := unwrapSite_spec o tmp
      simp only [Res.bind_ok, hm]
      cases hsite : unwrapSite o tmp with
      | none =>
        rw [hsite] at hu
        obtain ⟨u, hu⟩ := hu
        simp [hu, Offers]
      | some s =>
        rw [hsite] at hu
        rw [show unwrap o tmp = _ from hu]
        refine ⟨s.exc, ?_, .inr ⟨s, rfl, rfl⟩⟩
        cases o tmp (.bin .minus hi lo) <;> rfl
  · exact nofun

theorem zero_offers (o : Order K) {e : Expr K} (hw : WellFormed e) {rest : Res K} {off : Option Offer}
    (h : Offers rest off) : Offers (zeroCheck o e rest) (zeroOffer o e off) := by
  simp only [zeroCheck, zeroOffer]
  split
  · next hc =>
    obtain ⟨c, -, hc⟩ := isConst_value hw hc
    simp only [evalS_eq_eval, hc, Res.bind_ok]
    split
    · exact nofun
    · exact h
  · exact h

omit [Num K] in
theorem Offers.second {r q : Res K} {s t : Option Offer} {f : K → K → K} :
    Offers r s → Offers q t → Offers (r.bind fun a => q.bind fun b => .ok (f a b)) (match r with | .ok _ => t | _ => s) := by
  intro h h'
  cases r with
  | ok a =>
    cases q with
    | ok b =>
      cases t with
      | none => exact nofun
      | some off => obtain ⟨y, hy, _⟩ := h'; cases hy
    | throw y => exact h'
    | ub => exact h'
  | throw y => exact h
  | ub => exact h

theorem quad_offers (o : Order K) {e : Expr K} (hw : WellFormed e) :
    Offers (quadOf o (gaussQuad1 o) e) (quadOffer o e) := by
  have hn : Offers (K := K) (.throw .noIntegral) (some noIntegralOffer) := ⟨_, rfl, .inl ⟨rfl, rfl⟩⟩
  induction e using Expr.ind with
  | integ lo hi x e _ _ _ => exact gauss_offers o hw
  | un op e _ =>
    cases op with
    | symInt => exact nofun
    | _ => exact hn
  | bin op l r ihl ihr =>
    cases hw with | bin ho hl hr =>
    refine zero_offers o (.bin ho hl hr) ?_
    have h1 := ihl hl
    have h2 := ihr hr
    have key : ∀ f : K → K → K,
        Offers (Res.both (o l r) (quadOf o (gaussQuad1 o) l) (quadOf o (gaussQuad1 o) r) fun a b => .ok (f a b))
          (if o l r then
            match quadOf o (gaussQuad1 o) l with
            | .ok _ => quadOffer o r
            | _ => quadOffer o l
          else
            match quadOf o (gaussQuad1 o) r with
            | .ok _ => quadOffer o l
            | _ => quadOffer o r) := by
      intro f
      cases o l r with
      | true => exact h1.second h2
      | false => exact h2.second (f := fun a b => f b a) h1
    rcases ho with rfl | rfl | rfl | rfl
    · exact key Num.add
    · exact key Num.sub
    · exact hn
    · exact hn
  | _ => exact zero_offers o hw hn

/-- C97.  What `quadOffer` says is thrown: the integration throws exactly if it names an object, which then is one of the
class thrown. -/
theorem C97_throws (o : Order K) {e : Expr K} (hw : WellFormed e) :
    (∀ y, quadOf o (gaussQuad1 o) e = .throw y → ∃ off, quadOffer o e = some off ∧ Thrown y off) ∧
    ∀ off, quadOffer o e = some off → ∃ y, quadOf o (gaussQuad1 o) e = .throw y ∧ Thrown y off := by
  have h := quad_offers o hw
  cases hq : quadOffer o e with
  | none =>
    rw [hq] at h
    exact ⟨fun y hh => absurd hh (h y), nofun⟩
  | some off =>
    rw [hq] at h
    obtain ⟨z, hz, ht⟩ := h
    refine ⟨fun y hh => ⟨off, rfl, ?_⟩, fun off' h1 => ?_⟩
    · rw [hz] at hh; cases hh; exact ht
    · cases h1; exact ⟨z, hz, ht⟩

theorem gauss_text (o : Order K) {lo hi f : Expr K} {x : Nat} (hw : WellFormed f) {off : Offer}
    (h : gaussOffer o lo hi x f = some off) : ∃ t, TrueOfIntegrand x t f ∧
      (off.seen .std = .text t ∨ off.seen .std = .uncaught ∧ off.seen .own = .text t ∧ HasFormal f) := by
  simp only [gaussOffer] at h
  split at h
  · split at h
    · split at h
      · next m _ tmp htmp =>
        obtain ⟨s, hs, rfl⟩ := Option.map_eq_some_iff.1 h
        obtain ⟨hw', hn⟩ := midpoint_outside htmp hw
        obtain ⟨t, ht, hcase⟩ := unwrapSite_at o hw' hs
        rcases hcase with ⟨rfl, i, rfl⟩ | ⟨rfl, i, g, rfl⟩ | ⟨rfl, es, rfl⟩ | ⟨rfl, lo', hi', y, f', rfl⟩ | ⟨op, f', rfl, hop⟩
        · obtain ⟨⟨s, h1, h2⟩, h3⟩ := hn _ ht _ rfl
          obtain rfl := head_var h2
          exact ⟨_, .inl ⟨i, fun hh => h3 (by rw [hh]), h1, .unbound⟩, .inl rfl⟩
        · obtain ⟨⟨s, h1, h2⟩, h3⟩ := hn _ ht _ rfl
          obtain rfl := head_sym h2
          exact ⟨_, .inr ⟨.symbol, nofun, nofun, nofun, .symbolNumber, .symbol h1⟩, .inl rfl⟩
        · obtain ⟨⟨s, h1, h2⟩, h3⟩ := hn _ ht _ rfl
          obtain ⟨es, rfl⟩ := head_vector h2
          exact ⟨_, .inr ⟨.vector, nofun, nofun, nofun, .vectorNumber, .vector h1⟩, .inl rfl⟩
        · obtain ⟨⟨s, h1, h2⟩, h3⟩ := hn _ ht _ rfl
          obtain ⟨_, _, _, _, rfl⟩ := head_integral h2
          exact ⟨_, .inr ⟨.integral, nofun, nofun, nofun, .integral, .integral h1⟩, .inl rfl⟩
        · cases op with
          | fn => cases hop
          | grad =>
            cases hop
            obtain ⟨⟨s, h1, h2⟩, h3⟩ := hn _ ht _ rfl
            obtain ⟨_, rfl⟩ := head_gradient h2
            exact ⟨_, .inr ⟨.gradient, nofun, nofun, nofun, .gradient, .gradient h1⟩, .inr ⟨rfl, rfl, .inl (.gradient h1)⟩⟩
          | divg =>
            cases hop
            obtain ⟨⟨s, h1, h2⟩, h3⟩ := hn _ ht _ rfl
            obtain ⟨_, rfl⟩ := head_divergence h2
            exact ⟨_, .inr ⟨.divergence, nofun, nofun, nofun, .divergence, .divergence h1⟩,
              .inr ⟨rfl, rfl, .inr (.inl (.divergence h1))⟩⟩
          | pd i =>
            cases hop
            obtain ⟨⟨s, h1, h2⟩, h3⟩ := hn _ ht _ rfl
            obtain ⟨_, rfl⟩ := head_deriv h2
            exact ⟨_, .inr ⟨.partialDeriv, nofun, nofun, nofun, .partialDeriv, .partialDeriv h1⟩,
              .inr ⟨rfl, rfl, .inr (.inr (.partialDeriv h1))⟩⟩
          | symInt k =>
            cases hop
            obtain ⟨⟨s, h1, h2⟩, h3⟩ := hn _ ht _ rfl
            obtain ⟨_, rfl⟩ := head_interval h2
            exact ⟨_, .inr ⟨.symbolicIntegral, nofun, nofun, nofun, .symbolicIntegral, .symbolicIntegral h1⟩, .inl rfl⟩
      · cases h
    · cases h
  · cases h

/-- The summand is not a constant of value zero. -/
theorem zero_text (o : Order K) {e : Expr K} (hw : WellFormed e) {rest : Option Offer} {off : Offer}
    (h : zeroOffer o e rest = some off) : rest = some off ∧
      ¬ (ConstArith e ∧ ∃ c, eval o [] e = .ok c ∧ Num.eqb c (Num.lit 0) = true) := by
  simp only [zeroOffer] at h
  split at h
  · next hc =>
    obtain ⟨c, -, hv⟩ := isConst_value hw hc
    simp only [evalS_eq_eval, hv] at h
    split at h
    · cases h
    · next hz =>
      refine ⟨h, fun ⟨_, d, hd, hz'⟩ => hz ?_⟩
      rw [hv] at hd
      cases hd
      exact hz'
  · next hc => exact ⟨h, fun ⟨ha, _⟩ => hc ha.isConst⟩

omit [Num K] in
theorem told {P : Expr K → Prop} {Q : Nat → String → Expr K → Prop} {A B : Prop} {l e : Expr K}
    (hs : ∀ {s}, Summand s l → Summand s e)
    (h : (A ∧ B ∧ ∃ s, Summand s l ∧ P s) ∨ ∃ lo hi x f t, Summand (.integ lo hi x f) l ∧ Q x t f) :
    (A ∧ B ∧ ∃ s, Summand s e ∧ P s) ∨ ∃ lo hi x f t, Summand (.integ lo hi x f) e ∧ Q x t f := by
  rcases h with ⟨h1, h2, s, h3, h4⟩ | ⟨lo, hi, x, f, t, h3, h4⟩
  · exact .inl ⟨h1, h2, s, hs h3, h4⟩
  · exact .inr ⟨lo, hi, x, f, t, hs h3, h4⟩

/-- C97.  The text is true.  Either it says that there is no integral, every handler can read it, and there is a summand that
is neither an integral nor a constant of value zero; or it names something in the integrand of one of the integrals
other than the integration variable, and a handler for `std::exception` can read it unless the integrand has a formal
derivative: then what is thrown is a string. -/
theorem C97_text_partial (o : Order K) {e : Expr K} (hw : WellFormed e) {off : Offer} (h : quadOffer o e = some off) :
    (off.seen .std = .text "Cannot integrate an expression if there is no integral." ∧ off.seen .own = off.seen .std ∧
      ∃ s, Summand s e ∧ NotIntegral s ∧ ¬ (ConstArith s ∧ ∃ c, eval o [] s = .ok c ∧ Num.eqb c (Num.lit 0) = true)) ∨
    ∃ lo hi x f t, Summand (.integ lo hi x f) e ∧ TrueOfIntegrand x t f ∧
      (off.seen .std = .text t ∨ off.seen .std = .uncaught ∧ off.seen .own = .text t ∧ HasFormal f) := by
  induction e using Expr.ind with
  | integ lo hi x f _ _ _ =>
    cases hw with | integ _ _ _ he =>
    obtain ⟨t, h1, h2⟩ := gauss_text o he h
    exact .inr ⟨lo, hi, x, f, t, .refl, h1, h2⟩
  | un op e _ =>
    have hz : ¬ (ConstArith (.un op e) ∧ ∃ c, eval o [] (.un op e) = .ok c ∧ Num.eqb c (Num.lit 0) = true) := fun ⟨h, _⟩ => by
      cases h
    cases op <;> cases h <;> exact .inl ⟨rfl, rfl, _, .refl, trivial, hz⟩
  | bin op l r ihl ihr =>
    cases hw with | bin ho hl hr =>
    obtain ⟨h, hz⟩ := zero_text o (.bin ho hl hr) h
    have ihl := ihl hl
    have ihr := ihr hr
    have pick : (if o l r then
            match quadOf o (gaussQuad1 o) l with
            | .ok _ => quadOffer o r
            | _ => quadOffer o l
          else
            match quadOf o (gaussQuad1 o) r with
            | .ok _ => quadOffer o l
            | _ => quadOffer o r) = some off → quadOffer o l = some off ∨ quadOffer o r = some off := by
      intro h
      split at h <;> split at h
      · exact .inr h
      · exact .inl h
      · exact .inl h
      · exact .inr h
    rcases ho with rfl | rfl | rfl | rfl
    · rcases pick h with h | h
      · exact told .plusL (ihl h)
      · exact told .plusR (ihr h)
    · rcases pick h with h | h
      · exact told .minusL (ihl h)
      · exact told .minusR (ihr h)
    · cases h; exact .inl ⟨rfl, rfl, _, .refl, trivial, hz⟩
    · cases h; exact .inl ⟨rfl, rfl, _, .refl, trivial, hz⟩
  | _ =>
    obtain ⟨h, hz⟩ := zero_text o hw h
    cases h; exact .inl ⟨rfl, rfl, _, .refl, trivial, hz⟩

/-- C97 is false of the code: integrating the formal derivative of a number over [0, 1] throws a string. -/
theorem C97_formal (o : Order XRat) : ∃ e off, WellFormed e ∧ quadOffer o e = some off ∧ off.seen .std = .uncaught := by
  refine ⟨.integ (.const (some 0)) (.const (some 1)) 0 (.un (.pd 0) (.var 0)), Site.evalPartial.offer,
    .integ 0 (.const _) (.const _) (.un _ (.var 0)), ?_, rfl⟩
  have h : substitute (K := XRat) (.var 0) (.const (some (1 / 2))) (.un (.pd 0) (.var 0)) =
      .ok (.un (.pd 0) (.const (some (1 / 2)))) := by decide +kernel
  have h' : Res.both (o (.const (some 0)) (.const (some 1))) (evalS o (Num.lit 0) (.const (some 0 : XRat)))
      (evalS o (Num.lit 0) (.const (some 1))) (fun a b => .ok (Num.div (Num.add a b) (Num.lit 2))) =
      .ok (some (1 / 2)) := by
    simp only [evalS, Res.both_ok]; decide +kernel
  simp only [quadOffer, gaussOffer, isConst, Bool.and_self, if_true, h', h, unwrapSite, UOp.site]
  rfl

/-- The integral of x0 * x1 over x0 from 0 to 1 plus an integral that can be computed. -/
example : quadOffer leftFirst (.bin .plus (.integ (.const (some 0)) (.const (some 1)) 0 (.var 0))
      (.integ (.const (some 0)) (.const (some 1)) 0 (.bin .mult (.var 0) (.var 1))) : Expr XRat) =
        some Site.unwrapVariable.offer ∧
    Site.unwrapVariable.offer.seen .std = .text "Expression cannot be unwrapped!" ∧
    quadOffer leftFirst (.bin .minus (.integ (.const (some 0)) (.const (some 1)) 0 (.var 0)) (.const (some 3)) : Expr XRat) =
        some noIntegralOffer := by
  decide +kernel

end VM.Props
