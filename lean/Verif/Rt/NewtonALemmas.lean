import Verif.Rt.NewtonA
import Verif.Rt.HeapReadLemmas
import Verif.Rt.DiffLemmas
/-
The Newton solver in memory, compared with the solver on expressions.
-/
namespace VM
variable {K : Type} [Num K]
open Act Run Spec

variable {h h1 : Heap K} {o : Order K} {oh : Nat → Bool} {q₁ q₂ : Equation K} {Lt : Prop} {a : Nat} {F A : List Nat}

/-- The references refer to the sides of the equations. -/
structure SystemIs (h : Heap K) (x : System Ref) (q₁ q₂ : Equation K) : Prop where
  l₁ : RefIs h x.l₁ q₁.lhs
  r₁ : RefIs h x.r₁ q₁.rhs
  l₂ : RefIs h x.l₂ q₂.lhs
  r₂ : RefIs h x.r₂ q₂.rhs

omit [Num K] in
theorem SystemIs.adds {x : System Ref} (H : SystemIs h x q₁ q₂) (E : Adds h h1 A) : SystemIs h1 x q₁ q₂ :=
  ⟨H.l₁.adds E, H.r₁.adds E, H.l₂.adds E, H.r₂.adds E⟩

/-- One of the derivatives the solver needs does not exist. -/
def Stuck (q : Equation K) : Prop := ∃ i, ∀ d, diff (.var i) (residualExpr q) ≠ .ok d

theorem gives_residual {β : Type} {l r : Ref} {q : Equation K} {s : Res β} {k : Nat → Act K β} (hl : RefIs h l q.lhs)
    (hr : RefIs h r q.rhs)
    (hk : ∀ h1 A a F, Adds h h1 A → Own h1.cells a (residualExpr q) F → Gives Lt h1 s (k a)) :
    Gives Lt h s (withTemp (residualA l r) k) := by
  have := gives_withTemp (Lt := Lt) (s := fun _ => s) (k := k) (newBin_makes (op := .minus) (b := true) hl.clone hr.clone)
    (fun h => absurd rfl (h _)) (fun h1 A b e' F' he E H' => by cases he; exact hk h1 A b F' E H')
  simpa [residualA] using this

theorem gives_deriv {β : Type} {f i : Nat} {q : Equation K} {s : Expr K → Res β} {k : Nat → Act K β}
    (H : Own h.cells f (residualExpr q) F) (hl : Stuck q → Lt)
    (hk : ∀ h1 A a e F, Adds h h1 A → Own h1.cells a e F → Gives Lt h1 (s e) (k a)) :
    Gives Lt h ((diff (.var i) (residualExpr q)).bind s) (withTemp (derivA oh i f) k) :=
  gives_withTemp (simplified_makes trivial (diffA_makes H fun _ => nofun)) (fun h => hl ⟨i, h⟩)
    fun h1 A a e F _ E H => hk h1 A a e F E H

theorem newtonStepA_gives {x : System Ref} {g : List K} (H : SystemIs h x q₁ q₂) (h₁ : Stuck q₁ → Lt) (h₂ : Stuck q₂ → Lt) :
    Gives Lt h (newtonStep o q₁ q₂ g) (newtonStepA o oh x g) := by
  refine gives_residual H.l₁ H.r₁ fun h1 A1 f₁ F1 E1 O1 => ?_
  have H := H.adds E1
  refine gives_residual H.l₂ H.r₂ fun h2 A2 f₂ F2 E2 O2 => ?_
  have O1 := O1.adds E2
  refine (gives_ask O1).bind fun r₁ _ => (gives_ask O2).bind fun r₂ _ => ?_
  refine gives_deriv O1 h₁ fun h3 A3 d₁x e₁x F3 E3 O3 => ?_
  refine gives_deriv (O1.adds E3) h₁ fun h4 A4 d₁y e₁y F4 E4 O4 => ?_
  refine gives_deriv ((O2.adds E3).adds E4) h₂ fun h5 A5 d₂x e₂x F5 E5 O5 => ?_
  refine gives_deriv (((O2.adds E3).adds E4).adds E5) h₂ fun h6 A6 d₂y e₂y F6 E6 O6 => ?_
  refine (gives_ask (((O3.adds E4).adds E5).adds E6)).bind fun a _ => ?_
  refine (gives_ask O6).bind fun d _ => ?_
  refine (gives_ask (O5.adds E6)).bind fun c _ => ?_
  refine (gives_ask ((O4.adds E5).adds E6)).bind fun b _ => ?_
  exact gives_look.bind fun _ _ => gives_look.bind fun _ _ => gives_pure

theorem newtonNormA_gives {f₁ f₂ : Nat} {F1 F2 : List Nat} {x : List K} (O1 : Own h.cells f₁ (residualExpr q₁) F1)
    (O2 : Own h.cells f₂ (residualExpr q₂) F2) : Gives Lt h (newtonNorm o q₁ q₂ x) (newtonNormA o f₁ f₂ x) :=
  (gives_ask O1).bind fun _ _ => (gives_ask O2).bind fun _ _ => gives_pure

/-- Cut off: `none` is no result yet. -/
def cutOff {β : Type} : Option (Res β) → Res (Option β)
  | none => .ok none
  | some r => r.map some

theorem newtonLoop_on [NumLt K] {fuel : Nat} {norm : K} {g : List K} (hg : goesOn norm = true) :
    cutOff (newtonLoop o q₁ q₂ (fuel + 1) norm g) = (newtonStep o q₁ q₂ g).bind fun x' =>
      (newtonNorm o q₁ q₂ x').bind fun norm' => cutOff (newtonLoop o q₁ q₂ fuel norm' x') := by
  rw [newtonLoop, if_pos hg]
  cases newtonStep o q₁ q₂ g with
  | ok x' => simp only [Res.bind_ok]; cases newtonNorm o q₁ q₂ x' <;> rfl
  | throw => rfl
  | ub => rfl

theorem newtonLoopA_gives [NumLt K] {x : System Ref} {f₁ f₂ : Nat} {F1 F2 : List Nat} (H : SystemIs h x q₁ q₂)
    (O1 : Own h.cells f₁ (residualExpr q₁) F1) (O2 : Own h.cells f₂ (residualExpr q₂) F2)
    (h₁ : Stuck q₁ → Lt) (h₂ : Stuck q₂ → Lt) : ∀ (fuel : Nat) (norm : K) (g : List K),
    Gives Lt h (cutOff (newtonLoop o q₁ q₂ fuel norm g)) (newtonLoopA o oh x f₁ f₂ fuel norm g)
  | 0, _, _ => gives_pure
  | fuel + 1, norm, g => by
    rw [newtonLoopA]
    split
    · rename_i hg
      rw [newtonLoop_on hg]
      exact (newtonStepA_gives H h₁ h₂).bind fun x' _ => (newtonNormA_gives O1 O2).bind fun norm' _ =>
        newtonLoopA_gives H O1 O2 h₁ h₂ fuel norm' x'
    · rename_i hg
      rw [newtonLoop, if_neg hg]
      exact gives_pure

theorem newtonA_gives [NumLt K] {x : System Ref} {g : List K} {fuel : Nat} (H : SystemIs h x q₁ q₂) (h₁ : Stuck q₁ → Lt)
    (h₂ : Stuck q₂ → Lt) :
    Gives Lt h (cutOff (newtonLoop o q₁ q₂ fuel (Num.lit 1) g)) (newtonA o oh fuel g x) := by
  refine gives_residual H.l₁ H.r₁ fun h1 A1 f₁ F1 E1 O1 => ?_
  have H := H.adds E1
  refine gives_residual H.l₂ H.r₂ fun h2 A2 f₂ F2 E2 O2 => ?_
  exact newtonLoopA_gives (H.adds E2) (O1.adds E2) O2 h₁ h₂ fuel _ g

theorem not_stuck {q : Equation K} (hl : Smooth q.lhs) (hr : Smooth q.rhs) : ¬ Stuck q := by
  rintro ⟨i, hi⟩
  have hs : Smooth (residualExpr q) := .bin (.inr (.inl rfl)) hl hr
  obtain ⟨d, hd⟩ : ∃ d, diffE (.var i) (residualExpr q) = .ok d := by
    rcases diffE_cases (i := i) hs.sym.wellFormed with ⟨h, _⟩ | ⟨_, h⟩
    · exact absurd h hs.supported
    · exact h
  obtain ⟨e', he'⟩ := simplified_ok_arith (diffE_arith hs.arith hd)
  exact hi e' (by simp [diff, hd, he'])

end VM
