import Verif.Rt.Shallow
import Verif.Spec.Shallow
import Verif.Rt.LatexLemmas
import Verif.Rt.Dec
import Verif.NumRat
/-
C101: the comparison and the text that look at the outermost node only.
-/
namespace VM.Props
open VM.Spec
variable {K : Type}

/-- `shallow_equal` holds exactly for two expressions of one kind; so it is an equivalence relation, and `*this` and
`other` can be exchanged. -/
theorem C101_kind (e f : TExpr K) : Typed.shallowEq e f = true ↔ sort9 e = sort9 f := by
  cases e with
  | const c => cases f with
    | const d => cases c <;> cases d <;> simp [Typed.shallowEq, sort9]
    | _ => cases c <;> simp [Typed.shallowEq, sort9]
  | _ => cases f with
    | const d => cases d <;> simp [Typed.shallowEq, sort9]
    | _ => simp [Typed.shallowEq, sort9]

/-- An integral and a sine are of one kind, constants of two scalar types are not. -/
example : Typed.shallowEq (.integ (.var 0) (.var 1) 2 (.var 2)) (.un (.fn .sin) (.var 0) : TExpr XRat) = true ∧
    Typed.shallowEq (.const (.int 2)) (.const (.long 2) : TExpr XRat) = false := ⟨rfl, rfl⟩

/-- Expressions that are equal are of one kind. -/
theorem C101_equal [Num K] {e f : TExpr K} (h : Typed.deepEq e f = .ok true) : Typed.shallowEq e f = true := by
  cases e with
  | const c => cases f with
    | const d => cases c <;> cases d <;> simp_all [Typed.shallowEq, Typed.deepEq, Scalar.equal]
    | _ => simp [Typed.deepEq] at h
  | _ => cases f <;> simp_all [Typed.shallowEq, Typed.deepEq]

example : Typed.deepEq (.bin .plus (.var 0) (.const (.int 2))) (.bin .plus (.var 0) (.const (.int 2)) : TExpr XRat) =
    .ok true := by decide +kernel

/-- Substitution replaces an expression of the kind that is searched for, or keeps the kind. -/
theorem C101_substitute [Num K] {s r e e' : TExpr K} (h : Typed.substE s r e = .ok e') :
    e' = r ∧ sort9 e = sort9 s ∨ sort9 e' = sort9 e := by
  have found : ∀ {f : TExpr K}, Typed.deepEq f s = .ok true → sort9 f = sort9 s :=
    fun hf => (C101_kind _ _).1 (C101_equal hf)
  have leaf : ∀ {f : TExpr K}, ((Typed.deepEq f s).map fun b => if b then r else f) = .ok e' →
      e' = r ∧ sort9 f = sort9 s ∨ sort9 e' = sort9 f := by
    intro f hf
    cases hd : Typed.deepEq f s with
    | ok b => cases b <;> simp_all [Res.map]
    | _ => simp [hd, Res.map] at hf
  have node : ∀ {f : TExpr K} {k : Res (TExpr K)}, (∀ g, k = .ok g → sort9 g = sort9 f) →
      ((Typed.deepEq f s).bind fun b => if b then .ok r else k) = .ok e' →
      e' = r ∧ sort9 f = sort9 s ∨ sort9 e' = sort9 f := by
    intro f k hk hf
    cases hd : Typed.deepEq f s with
    | ok b => cases b <;> simp_all [Res.bind]
    | _ => simp [hd, Res.bind] at hf
  cases e with
  | const c => exact leaf h
  | var i => exact leaf h
  | fsym i t => exact leaf h
  | un op e => exact node (fun g hg => by cases hs : Typed.substE s r e <;> simp [hs, Res.map] at hg; subst hg; rfl) h
  | integ lo hi x e =>
    exact node (fun g hg => by cases hs : Typed.substE s r e <;> simp [hs, Res.map] at hg; subst hg; rfl) h
  | bin op e f =>
    exact node (fun g hg => by
      cases hs : Typed.substE s r e <;> simp [hs, Res.bind] at hg
      cases hs' : Typed.substE s r f <;> simp [hs', Res.map] at hg
      subst hg; rfl) h
  | vec es => exact node (fun g hg => by cases hs : Typed.substEL s r es <;> simp [hs, Res.map] at hg; subst hg; rfl) h

/-- Both cases occur. -/
example : Typed.substE (.var 0) (.const (.int 2)) (.var 0) = .ok (.const (.int 2) : TExpr XRat) ∧
    Typed.substE (.var 0) (.const (.int 2)) (.bin .plus (.var 0) (.var 1)) =
      .ok (.bin .plus (.const (.int 2)) (.var 1) : TExpr XRat) := by decide +kernel

/-- The short text tells the kinds of unary, binary and vector expressions and shows nothing else of them.  (Missing:
other expressions, see `C101_text_wrong`.) -/
theorem C101_text_partial (fmt : K → Txt) {e f : TExpr K} (he : Composite e) (hf : Composite f) :
    Typed.shallowStr fmt e = Typed.shallowStr fmt f ↔ sort9 e = sort9 f := by
  cases e <;> first | exact he.elim | (cases f <;> first | exact hf.elim | simp [Typed.shallowStr, sort9])

example : Composite (.bin .plus (.var 0) (.var 1) : TExpr XRat) ∧ Composite (.vec [] : TExpr XRat) := ⟨trivial, trivial⟩

/-- Expressions of one short text are of one kind, or both are constants. -/
theorem C101_text_sound (fmt : K → Txt) {e f : TExpr K} (h : Typed.shallowStr fmt e = Typed.shallowStr fmt f) :
    sort9 e = sort9 f ∨ ∃ c d, e = .const c ∧ f = .const d := by
  cases e <;> cases f <;> simp [Typed.shallowStr, sort9, deepStr] at h ⊢

example : Typed.shallowStr (fun _ => []) (.un .grad (.var 0) : TExpr XRat) =
    Typed.shallowStr (fun _ => []) (.un .divg (.var 1) : TExpr XRat) := rfl

/-- The short text is meant to identify just the kind.  It does not: any two variables are of one kind and have
different short texts, and constants of two kinds have the same. -/
theorem C101_text_wrong (fmt : K → Txt) : (∀ i j, i ≠ j → sort9 (.var i : TExpr K) = sort9 (.var j : TExpr K) ∧
      Typed.shallowStr fmt (.var i) ≠ Typed.shallowStr fmt (.var j)) ∧
    ∀ n, sort9 (.const (.int n) : TExpr K) ≠ sort9 (.const (.long n) : TExpr K) ∧
      Typed.shallowStr fmt (.const (.int n)) = Typed.shallowStr fmt (.const (.long n)) := by
  refine ⟨fun i j hij => ⟨rfl, fun h => hij ?_⟩, fun n => ⟨nofun, rfl⟩⟩
  have h2 : t!"variable(" ++ (idTxt i ++ t!")") = t!"variable(" ++ (idTxt j ++ t!")") := h
  exact idTxt_inj (List.append_cancel_right (List.append_cancel_left h2))

example : (0 : Nat) ≠ 1 := nofun

end VM.Props
