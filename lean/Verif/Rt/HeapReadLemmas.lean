import Verif.Spec.HeapRead
import Verif.Rt.HeapSim
import Verif.Rt.LatexObjTexts
import Verif.Rt.SubstIntegLemmas
import Verif.Rt.SimplifySound
import Mathlib.Tactic.ByContra
/-
Numerical integration and LaTeX in memory, compared with the functions on expressions.
-/
namespace VM
variable {K : Type} [Num K] {β γ : Type}
open Act Run

/-- How a call ended that started with the heap `h`, only reads, and should give `r`.
* A value or an exception of the function: the memory is as before.
* `std::bad_alloc`: a request for memory failed.
* Anything else: only if that is admitted (`Lt`) and `r` is not a value. -/
inductive Gave (Lt : Prop) (h : Heap K) (r : Res β) : Out (Heap K) β → Prop
  | ok {v h'} : r = .ok v → Adds h h' [] → Gave Lt h r (.ok v h')
  | throw {x h'} : r = .throw x → Adds h h' [] → Gave Lt h r (.throw x h')
  | noMemory {h' L} : h.Scarce h' → Adds h h' L → Gave Lt h r (.throw .badAlloc h')
  | other {x h' L} : Lt → (∀ v, r ≠ .ok v) → Adds h h' L → Gave Lt h r (.throw x h')
  | ub : r = .ub ∨ (Lt ∧ ∀ v, r ≠ .ok v) → Gave Lt h r .ub

/-- In `h`, and whenever no more than new nodes have been added to `h`, the call `m` gives `r`. -/
def Gives (Lt : Prop) (h : Heap K) (r : Res β) (m : Act K β) : Prop :=
  ∀ h1 A, Adds h h1 A → Gave Lt h1 r (m h1)

variable {Lt : Prop} {h h1 h2 : Heap K} {a b : Nat} {e d : Expr K} {F G A : List Nat}

omit [Num K] in
theorem Gives.adds {r : Res β} {m : Act K β} (hm : Gives Lt h r m) (E : Adds h h1 A) : Gives Lt h1 r m :=
  fun _ _ E' => hm _ _ (E.trans E')

omit [Num K] in
theorem Gives.mono {Lt' : Prop} {r : Res β} {m : Act K β} (hm : Gives Lt h r m) (hl : Lt → Lt') : Gives Lt' h r m := by
  intro h1 A E
  have := hm h1 A E
  revert this
  generalize m h1 = out
  rintro (⟨e1, e2⟩ | ⟨e1, e2⟩ | ⟨e1, e2⟩ | ⟨e1, e2, e3⟩ | e1)
  · exact .ok e1 e2
  · exact .throw e1 e2
  · exact .noMemory e1 e2
  · exact .other (hl e1) e2 e3
  · exact .ub (e1.imp_right fun h => ⟨hl h.1, h.2⟩)

omit [Num K] in
theorem gives_look {r : Res β} : Gives Lt h r (look fun _ => r) := by
  intro h1 A E
  cases r with
  | ok v => exact .ok rfl (.refl E.wf')
  | throw x => exact .throw rfl (.refl E.wf')
  | ub => exact .ub (.inl rfl)

omit [Num K] in
theorem gives_pure {v : β} : Gives Lt h (.ok v) (pure v : Act K β) := fun _ _ E => .ok rfl (.refl E.wf')

omit [Num K] in
theorem gives_ask {q : Expr K → Res β} (H : Own h.cells a e F) : Gives Lt h (q e) (ask q a) := by
  intro h1 A E
  rw [ask_eq H E]
  exact gives_look h1 _ (.refl E.wf')

omit [Num K] in
theorem gives_ask2 {q : Expr K → Expr K → Res β} (H : Own h.cells a e F) (H' : Own h.cells b d G) :
    Gives Lt h (q e d) (ask2 q a b) := by
  intro h1 A E
  have : ask2 q a b h1 = look (fun _ => q e d) h1 := by
    simp only [ask2, look, load_own (H.adds E), load_own (H'.adds E), Res.bind_ok]
  rw [this]
  exact gives_look h1 _ (.refl E.wf')

omit [Num K] in
theorem Gives.bind {r : Res β} {m : Act K β} {s : β → Res γ} {k : β → Act K γ} (hm : Gives Lt h r m)
    (hk : ∀ v, r = .ok v → Gives Lt h (s v) (k v)) : Gives Lt h (r.bind s) (m >>= k) := by
  intro h1 A E
  have := hm h1 A E
  revert this
  cases hm1 : m h1 with
  | ok v h2 =>
    rintro (⟨e1, e2⟩)
    rw [bind_ok hm1, e1, Res.bind_ok]
    have := hk v e1 h2 _ (E.trans e2)
    revert this
    generalize k v h2 = out
    have tr : ∀ {h3 L}, Adds h2 h3 L → Adds h1 h3 L := fun e3 => by simpa using e2.trans e3
    rintro (⟨f1, f2⟩ | ⟨f1, f2⟩ | ⟨f1, f2⟩ | ⟨f1, f2, f3⟩ | f1)
    · exact .ok f1 (tr f2)
    · exact .throw f1 (tr f2)
    · exact .noMemory (e2.scarce f1) (tr f2)
    · exact .other f1 f2 (tr f3)
    · exact .ub f1
  | throw x h2 =>
    rw [bind_throw hm1]
    rintro (_ | ⟨e1, e2⟩ | ⟨e1, e2⟩ | ⟨e1, e2, e3⟩ | _)
    · exact .throw (by rw [e1, Res.bind_throw]) e2
    · exact .noMemory e1 e2
    · exact .other e1 (by cases r <;> simp_all) e3
  | ub =>
    rw [bind_ub hm1]
    rintro (_ | _ | _ | _ | e1)
    exact .ub (e1.imp (fun h => by rw [h, Res.bind_ub]) fun h => ⟨h.1, by cases r <;> simp_all⟩)

omit [Num K] in
/-- Temporaries are gone afterwards. -/
theorem gives_withTemp {r : Res (Expr K)} {f : Act K Nat} {s : Expr K → Res β} {k : Nat → Act K β}
    (hf : Makes True False h r f) (hl : (∀ e, r ≠ .ok e) → Lt)
    (hk : ∀ h1 A a e F, r = .ok e → Adds h h1 A → Own h1.cells a e F → Gives Lt h1 (s e) (k a)) :
    Gives Lt h (r.bind s) (withTemp f k) := by
  intro h1 A E
  have := hf h1 A E
  revert this
  simp only [withTemp]
  cases hm1 : f h1 with
  | throw x h2 =>
    rw [bind_throw hm1]
    rintro (_ | ⟨e1, e2⟩)
    rcases e1 with e1 | ⟨rfl, e1⟩
    · exact .other (hl e1) (by cases r <;> simp_all) e2
    · exact .noMemory e1 e2
  | ub =>
    rw [bind_ub hm1]
    rintro (_ | _ | ⟨e1, e2⟩)
    exact .ub (.inr ⟨hl e1, by cases r <;> simp_all⟩)
  | ok a h2 =>
    rw [bind_ok hm1]
    rintro (@⟨e, _, _, F, L, e1, e2, e3, e4⟩)
    obtain rfl := e4.resolve_left id
    rw [List.append_nil] at e3
    have := hk h2 _ a e F e1 (E.trans e3) e2 h2 _ (.refl e3.wf')
    revert this
    rw [e1, Res.bind_ok]
    cases hm2 : k a h2 with
    | ok v h3 =>
      rw [bind_ok (show owning [a] (k a) h2 = .ok v h3 by simp only [owning, hm2])]
      rintro (⟨f1, f2⟩)
      have E3 := e3.trans f2
      obtain ⟨d1, d2⟩ := E3.delete (e2.adds f2)
      rw [bind_ok d1]
      exact .ok f1 d2
    | throw x h3 =>
      have key : ∀ {L}, Adds h2 h3 L → owning [a] (k a) h2 = .throw x (h3.free F) ∧ Adds h1 (h3.free F) L := by
        intro L f2
        have E3 := e3.trans f2
        obtain ⟨u, hu⟩ := each_delete_own (e2.adds f2).one (List.nodup_append.1 E3.nodup).1
        exact ⟨by simp only [owning, hm2, hu], E3.free⟩
      rintro (_ | ⟨f1, f2⟩ | ⟨f1, f2⟩ | ⟨f1, f2, f3⟩ | _)
      · obtain ⟨g1, g2⟩ := key f2
        rw [bind_throw g1]; exact .throw f1 g2
      · obtain ⟨g1, g2⟩ := key f2
        rw [bind_throw g1]; exact .noMemory (e3.scarce f1) g2
      · obtain ⟨g1, g2⟩ := key f3
        rw [bind_throw g1]; exact .other f1 f2 g2
    | ub =>
      rw [bind_ub (show owning [a] (k a) h2 = .ub by simp only [owning, hm2])]
      rintro (_ | _ | _ | _ | f1)
      exact .ub f1

omit [Num K] in
/-- A copy as a temporary. -/
theorem gives_copy {k : Nat → Act K β} {s : Res β} (H : Own h.cells a e F)
    (hk : ∀ h1 A b F, Adds h h1 A → Own h1.cells b e F → Gives Lt h1 s (k b)) : Gives Lt h s (withTemp (clone a) k) := by
  have := gives_withTemp (Lt := Lt) (s := fun _ => s) (k := k) (clone_makes H) (fun h => absurd rfl (h _))
    (fun h1 A b e' F' he E H' => by cases he; exact hk h1 A b F' E H')
  simpa using this

omit [Num K] in
theorem gives_cell {k : Cell K → Act K β} {s : Res β} (H : Own h.cells a e F)
    (hk : ∀ ks G, OwnL h.cells ks e.operands G → Gives Lt h s (k ⟨e.label, ks⟩)) : Gives Lt h s (Act.cell a >>= k) := by
  intro h1 A E
  cases H with
  | @node _ _ ks G g1 g2 g3 =>
    have hw : Act.cell a h1 = .ok ⟨e.label, ks⟩ h1 := look_ok (by
      rw [E.keep (by rw [g1]; simp), g1])
    rw [bind_ok hw]
    exact hk ks G g2 h1 A E

/-! ### The one-point rule -/

variable {o : Order K} {oh : Nat → Bool}

theorem gaussQuad1_eq (lo hi : Expr K) (x : Nat) (e : Expr K) : gaussQuad1 o lo hi x e =
    (midpoint o lo hi).bind fun m => (substitute (.var x) (.const m) e).bind fun tmp =>
      Res.both (o tmp (.bin .minus hi lo)) (unwrap o tmp) (evalS o (Num.lit 0) (.bin .minus hi lo))
        fun u w => .ok (Num.mul u w) := by
  simp only [gaussQuad1, midpoint]
  split
  · rfl
  · rfl

theorem gaussA_gives {lo hi x : Nat} {l u : Expr K} {Fl Fu : List Nat} (Hl : Own h.cells lo l Fl)
    (Hu : Own h.cells hi u Fu) (H : Own h.cells a e F) :
    Gives (¬ Spec.Insertable l u x e) h (gaussQuad1 o l u x e) (gaussA o oh lo hi x a) := by
  rw [gaussQuad1_eq, gaussA]
  refine (gives_ask2 Hl Hu).bind fun m hm => ?_
  rw [substitute]
  refine gives_withTemp (simplified_makes trivial (substA_makes trivial H ?_ (newConst_makes m))) ?_ ?_
  · intro h1 A E
    rfl
  · intro hne hi
    obtain ⟨t, ht⟩ := hi m
    exact hne t ht
  · intro h1 A t te Ft ht E Ht
    have : ∀ s : Expr K → Res K, s (.bin .minus u l) = (Res.ok (.bin .minus u l) : Res (Expr K)).bind s := fun _ => rfl
    rw [this fun w => Res.both (o te w) (unwrap o te) (evalS o (Num.lit 0) w) fun u w => .ok (Num.mul u w)]
    refine gives_withTemp ?_ (fun h => absurd rfl (h _)) ?_
    · exact (newBin_makes (clone_makes (Hu.adds E)) (clone_makes (Hl.adds E))).conv (by simp)
    · intro h2 B w we Fw hw E2 Hw
      cases hw
      exact gives_ask2 (q := fun t w => Res.both (o t w) (unwrap o t) (evalS o (Num.lit 0) w)
        fun u v => .ok (Num.mul u v)) (Ht.adds E2) Hw

/-! ### Sums of integrals -/

theorem zeroCheckA_gives {rest : Res K} {m : Act K K} (H : Own h.cells a e F) (hm : Gives Lt h rest m) :
    Gives Lt h (zeroCheck o e rest) (zeroCheckA o a m) := by
  rw [zeroCheckA, zeroCheck]
  have hc : Gives Lt h (.ok (isConst e)) (askConst a) := gives_ask (q := fun e => .ok (isConst e)) H
  have := hc.bind (s := fun b => if b then
      (evalS o (Num.lit 0) e).bind fun c => if Num.eqb c (Num.lit 0) then .ok (Num.lit 0) else rest
    else rest) (k := fun b => if b then do
      let c ← ask (evalS o (Num.lit 0)) a
      if Num.eqb c (Num.lit 0) then pure (Num.lit 0) else m
    else m) (fun b _ => by
      cases b
      · exact hm
      · refine (gives_ask H).bind fun c _ => ?_
        cases Num.eqb c (Num.lit 0)
        · exact hm
        · exact gives_pure)
  exact this

omit [Num K] in
theorem bothA_gives {l r : Nat} {x y : Expr K} {Fl Fr : List Nat} {s t : Res K} {q : Nat → Act K K} {f : K → K → K}
    {first : Bool} (Hl : Own h.cells l x Fl) (Hr : Own h.cells r y Fr)
    (hl : ∀ h1 A b F, Adds h h1 A → Own h1.cells b x F → Gives Lt h1 s (q b))
    (hr : ∀ h1 A b F, Adds h h1 A → Own h1.cells b y F → Gives Lt h1 t (q b)) :
    Gives Lt h (Res.both first s t fun a b => .ok (f a b)) (bothA first l r q f) := by
  cases first
  · refine gives_copy Hr fun h1 A b F E Hb => ?_
    refine (hr h1 A b F E Hb).bind fun w _ => ?_
    refine gives_copy (Hl.adds E) fun h2 B c G E2 Hc => ?_
    exact (hl h2 _ c G (E.trans E2) Hc).bind fun v _ => gives_pure
  · refine gives_copy Hl fun h1 A b F E Hb => ?_
    refine (hl h1 A b F E Hb).bind fun v _ => ?_
    refine gives_copy (Hr.adds E) fun h2 B c G E2 Hc => ?_
    exact (hr h2 _ c G (E.trans E2) Hc).bind fun w _ => gives_pure

/-- The rule in memory does what the rule on expressions does. -/
def RuleGives (Q : Expr K → Expr K → Nat → Expr K → Prop) (q : Rule K) (qA : RuleA K) : Prop :=
  ∀ (h : Heap K) (lo hi x a : Nat) (l u e : Expr K) (Fl Fu F : List Nat), Own h.cells lo l Fl → Own h.cells hi u Fu →
    Own h.cells a e F → Gives (¬ Q l u x e) h (q l u x e) (qA lo hi x a)

theorem gaussA_rule : RuleGives Spec.Insertable (gaussQuad1 o) (gaussA o oh) :=
  fun _ _ _ _ _ _ _ _ _ _ _ Hl Hu H => gaussA_gives Hl Hu H

theorem quadN_gives {Q : Expr K → Expr K → Nat → Expr K → Prop} {q : Rule K} {qA : RuleA K} (hq : RuleGives Q q qA) :
    ∀ (n : Nat) (e : Expr K) {a : Nat} {F : List Nat} {h : Heap K}, levels e < n → Own h.cells a e F →
      Gives (¬ Spec.Integrals Q e) h (quadOf o q e) (quadN o qA n a)
  | 0, e, _, _, _, hn, _ => by omega
  | n + 1, e, a, F, h, hn, H => by
    rw [quadN]
    refine gives_cell H fun ks G Hk => ?_
    cases e with
    | const c => exact zeroCheckA_gives H gives_look
    | var i => exact zeroCheckA_gives H gives_look
    | fsym i t => exact zeroCheckA_gives H gives_look
    | vec es => exact zeroCheckA_gives H gives_look
    | un op k =>
      cases op with
      | symInt id => exact gives_look
      | _ => exact gives_look
    | integ lo hi x k =>
      simp only [Expr.operands] at Hk
      cases Hk with | cons h1 Hk =>
      cases Hk with | cons h2 Hk =>
      cases Hk with | cons h3 Hk =>
      cases Hk
      refine gives_copy h3 fun h' A b F' E Hb => ?_
      exact (hq _ _ _ _ _ _ _ _ _ _ _ (h1.adds E) (h2.adds E) Hb).mono fun hne hi => hne hi
    | bin op l r =>
      simp only [Expr.operands] at Hk
      cases Hk with | cons h1 Hk =>
      cases Hk with | cons h2 Hk =>
      cases Hk
      simp only [levels] at hn
      refine zeroCheckA_gives H ?_
      have hb : quadBin (o l r) (quadOf o q l) (quadOf o q r) op =
          (Res.ok (o l r)).bind fun b => quadBin b (quadOf o q l) (quadOf o q r) op := rfl
      rw [hb]
      refine (gives_ask2 (q := fun x y => .ok (o x y)) h1 h2).bind fun b _ => ?_
      cases op with
      | plus =>
        exact bothA_gives h1 h2
          (fun h' A c F' _ Hc => (quadN_gives hq n l (by omega) Hc).mono fun hi (hb : Spec.Integrals _ l ∧ _) => hi hb.1)
          (fun h' A c F' _ Hc => (quadN_gives hq n r (by omega) Hc).mono fun hi (hb : _ ∧ Spec.Integrals _ r) => hi hb.2)
      | minus =>
        exact bothA_gives h1 h2
          (fun h' A c F' _ Hc => (quadN_gives hq n l (by omega) Hc).mono fun hi (hb : Spec.Integrals _ l ∧ _) => hi hb.1)
          (fun h' A c F' _ Hc => (quadN_gives hq n r (by omega) Hc).mono fun hi (hb : _ ∧ Spec.Integrals _ r) => hi hb.2)
      | _ => exact gives_look

theorem quadA_gives {Q : Expr K → Expr K → Nat → Expr K → Prop} {q : Rule K} {qA : RuleA K} (hq : RuleGives Q q qA)
    (H : Own h.cells a e F) :
    Gives (¬ Spec.Integrals Q e) h (quadOf o q e) (quadA o qA a) :=
  (gives_ask (q := fun e => .ok (levels e)) H).bind (s := fun _ => quadOf o q e) fun n hn => by
    cases hn
    exact quadN_gives hq _ e (Nat.lt_succ_self _) H

/-! ### LaTeX -/

omit [Num K] in
theorem latex_binary (fmt : K → Txt) (t : Translator) (op : BOp) (flag : Bool) (l r : Expr K) :
    latex fmt t flag (.bin op l r) = orUnknown (binaryTxt op flag (fun _ => latex fmt t (op = .mult) l)
      fun _ => latex fmt t (op = .mult || op = .minus) r) := by
  by_cases hop : op = .div
  · subst hop; rw [latex, binaryTxt, if_pos rfl]; rfl
  · rw [latex, binaryTxt, if_neg hop]
    intro e; exact hop e

theorem unaryTxt_inner (op : UOp) (flag : Bool) (k : Bool → Txt) (var : Nat → Txt) :
    unaryTxt op flag k var = unaryTxt op flag (fun _ => k (op.inner flag)) var := by
  cases op with
  | fn f => cases f <;> rfl
  | _ => rfl

omit [Num K] in
/-- One level of the translator. -/
theorem latexNode_gives (fmt : K → Txt) (t : Translator) {rec : Bool → Nat → Act K Txt} (e : Expr K) (flag : Bool)
    {ks : List Nat} {G : List Nat} {h : Heap K} (Hk : OwnL h.cells ks e.operands G)
    (hr : ∀ k ∈ e.operands, ∀ (h1 : Heap K) b F flag, Own h1.cells b k F →
      Gives Lt h1 (.ok (latex fmt t flag k)) (rec flag b)) :
    Gives Lt h (.ok (latex fmt t flag e)) (latexNode fmt t rec flag e.label ks) := by
  cases e with
  | const c => exact gives_pure
  | var i => exact gives_pure
  | fsym i t => exact gives_pure
  | vec es => exact gives_pure
  | un op k =>
    simp only [Expr.operands] at Hk hr
    cases Hk with | cons h1 Hk =>
    cases Hk
    rw [latex_un, unaryTxt_inner]
    refine gives_copy h1 fun h' A b F' E Hb => ?_
    exact (hr k (by simp) _ _ _ (op.inner flag) Hb).bind (s := fun s => .ok (orUnknown
      (unaryTxt op flag (fun _ => s) fun i => orUnknown (latexVar t i)))) fun s _ => gives_pure
  | integ lo hi x k =>
    simp only [Expr.operands] at Hk hr
    cases Hk with | cons h1 Hk =>
    cases Hk with | cons h2 Hk =>
    cases Hk with | cons h3 Hk =>
    cases Hk
    refine gives_copy h3 fun h' A b F' E Hb => ?_
    refine (hr lo (by simp) _ _ _ false (h1.adds E)).bind (s := fun s => .ok (orUnknown (integTxt
      (fun _ => s) (fun _ => latex fmt t false hi) (fun _ => latex fmt t false k) (orUnknown (latexVar t x)))))
      fun s _ => ?_
    refine (hr hi (by simp) _ _ _ false (h2.adds E)).bind (s := fun u => .ok (orUnknown (integTxt
      (fun _ => s) (fun _ => u) (fun _ => latex fmt t false k) (orUnknown (latexVar t x))))) fun u _ => ?_
    exact (hr k (by simp) _ _ _ false Hb).bind (s := fun v => .ok (orUnknown (integTxt
      (fun _ => s) (fun _ => u) (fun _ => v) (orUnknown (latexVar t x))))) fun v _ => gives_pure
  | bin op l r =>
    simp only [Expr.operands] at Hk hr
    cases Hk with | cons h1 Hk =>
    cases Hk with | cons h2 Hk =>
    cases Hk
    rw [latex_binary]
    refine gives_copy h1 fun h' A b F' E Hb => ?_
    refine gives_copy (h2.adds E) fun h'' B c F'' E2 Hc => ?_
    refine (hr l (by simp) _ _ _ _ (Hb.adds E2)).bind (s := fun s => .ok (orUnknown
      (binaryTxt op flag (fun _ => s) fun _ => latex fmt t (op = .mult || op = .minus) r))) fun s _ => ?_
    exact (hr r (by simp) _ _ _ _ Hc).bind (s := fun u => .ok (orUnknown
      (binaryTxt op flag (fun _ => s) fun _ => u))) fun u _ => gives_pure

omit [Num K] in
theorem levels_operands {e k : Expr K} (hk : k ∈ e.operands) : levels k < levels e ∨ ∃ es, e = .vec es := by
  cases e <;> simp only [Expr.operands, List.mem_cons, List.not_mem_nil, or_false] at hk
  case un => subst hk; exact .inl (by simp [levels])
  case bin => rcases hk with rfl | rfl <;> exact .inl (by simp only [levels]; omega)
  case integ => rcases hk with rfl | rfl | rfl <;> exact .inl (by simp only [levels]; omega)
  case vec => exact .inr ⟨_, rfl⟩

omit [Num K] in
theorem latexN_gives (fmt : K → Txt) (t : Translator) : ∀ (n : Nat) (e : Expr K) (flag : Bool) {a : Nat} {F : List Nat}
    {h : Heap K}, levels e < n → Own h.cells a e F → Gives Lt h (.ok (latex fmt t flag e)) (latexN fmt t n flag a)
  | 0, e, _, _, _, _, hn, _ => by omega
  | n + 1, e, flag, a, F, h, hn, H => by
    rw [latexN]
    refine gives_cell H fun ks G Hk => ?_
    by_cases hv : ∃ es, e = .vec es
    · obtain ⟨es, rfl⟩ := hv
      exact gives_pure
    · refine latexNode_gives fmt t e flag Hk fun k hk h1 b F flag Hb => ?_
      exact latexN_gives fmt t n k flag (by have := (levels_operands hk).resolve_right hv; omega) Hb

omit [Num K] in
theorem latexA_gives (fmt : K → Txt) (t : Translator) (flag : Bool) (H : Own h.cells a e F) :
    Gives Lt h (.ok (latex fmt t flag e)) (latexA fmt t flag a) :=
  (gives_ask (q := fun e => .ok (levels e)) H).bind (s := fun _ => .ok (latex fmt t flag e)) fun n hn => by
    cases hn
    exact latexN_gives fmt t _ e flag (Nat.lt_succ_self _) H

/-! ### Calls of the program -/

omit [Num K] in
theorem latexRef_gives (fmt : K → Txt) (t : Translator) (flag : Bool) {x : Ref} (H : RefIs h x e) :
    Gives Lt h (.ok (latex fmt t flag e)) (latexRef fmt t flag x) := by
  cases H with
  | node a => exact latexA_gives fmt t flag a
  | whole a b =>
    exact latexNode_gives fmt t (.bin _ _ _) flag (G := _) (.cons a (.cons b .nil))
      fun k hk h1 b F flag Hb => latexA_gives fmt t flag Hb
  | single a => exact latexNode_gives fmt t (.un _ _) flag a.one fun k hk h1 b F flag Hb => latexA_gives fmt t flag Hb

theorem quadRef_gives {Q : Expr K → Expr K → Nat → Expr K → Prop} {q : Rule K} {qA : RuleA K} (hq : RuleGives Q q qA)
    {x : Ref} (H : RefIs h x e) : Gives (¬ Spec.Integrals Q e) h (quadOf o q e) (quadRef o qA x) := by
  have tmp : Gives (¬ Spec.Integrals Q e) h (quadOf o q e) (withTemp x.clone (quadA o qA)) := by
    have := gives_withTemp (Lt := ¬ Spec.Integrals Q e) (s := fun e => quadOf o q e) (k := quadA o qA)
      H.clone (fun h => absurd rfl (h _)) (fun h1 A b e' F' he E H' => by cases he; exact quadA_gives hq H')
    simpa using this
  cases H with
  | node a => exact quadA_gives hq a
  | whole a b => exact tmp
  | single a => exact tmp

omit [Num K] in
theorem Adds.same (E : Adds h h1 []) : h1.cells = h.cells := by
  funext b
  by_cases hb : b < h.next
  · exact E.old b hb
  · rw [E.wf b (by omega)]
    by_contra hne
    exact absurd ((E.mem b (by omega)).1 hne) (by simp)

omit [Num K] in
open Spec in
/-- A call that only reads the heap, in a state that represents independent values. -/
theorem onlyReads_heap {Lt : Prop} {fl : Nat → Bool} {s : State K} {σ : Store K} {fp : Ptr → List Nat} {L : List Nat} {m : Act K β}
    {v : Res β} (H : Inv fl s.heap s.ptr (own σ) fp L) (hk : Kinds s.objs σ) (hg : Gives Lt s.heap v m) :
    (¬ Lt → OnlyReads s v (Prog.heap m s)) ∧
    (∀ w s', Prog.heap m s = .ok w s' → v = .ok w ∧ SameMemory s.heap s'.heap ∧ s'.ptr = s.ptr ∧ s'.objs = s.objs) ∧
    (∀ s', (∃ w, Prog.heap m s = .ok w s') ∨ (∃ x, Prog.heap m s = .throw x s') → ∀ r', s'.view r' = s.view r') ∧
    (Prog.heap m s = .ub → ∀ w, v ≠ .ok w) := by
  have view : ∀ {h' A} r', Adds s.heap h' A → State.view ⟨h', s.ptr, s.objs⟩ r' = s.view r' := by
    intro h' A r' E
    rw [view_eq H hk, view_eq (s := ⟨h', s.ptr, s.objs⟩) (H.leak E) hk]
  have := hg s.heap [] (.refl H.wf)
  revert this
  rw [Prog.heap]
  cases hm : m s.heap with
  | ok w h' =>
    rintro (⟨e1, e2⟩)
    have hc : SameMemory s.heap h' := Adds.same e2
    refine ⟨fun _ => ⟨e1, hc, rfl, rfl⟩, ?_, ?_, ?_⟩
    · rintro w s' ⟨⟩; exact ⟨e1, hc, rfl, rfl⟩
    · rintro s' (⟨w, ⟨⟩⟩ | ⟨x, ⟨⟩⟩) r'
      exact view r' e2
    · rintro ⟨⟩
  | throw y h' =>
    intro hG
    have keep : ∀ b, s.heap.cells b ≠ none → h'.cells b = s.heap.cells b := by
      cases hG <;> exact fun b hb => Adds.keep (by assumption) hb
    refine ⟨fun hn => ⟨?_, rfl, rfl⟩, ?_, ?_, ?_⟩
    · cases hG with
      | throw e1 e2 => exact .inl ⟨e1, e2.same⟩
      | noMemory e1 e2 => exact .inr ⟨rfl, e1, keep⟩
      | other e1 => exact absurd e1 hn
    · rintro w s' ⟨⟩
    · rintro s' (⟨w, ⟨⟩⟩ | ⟨x, ⟨⟩⟩) r'
      cases hG <;> exact view r' (by assumption)
    · rintro ⟨⟩
  | ub =>
    rintro (_ | _ | _ | _ | e1)
    refine ⟨fun hn => e1.resolve_right fun h => hn h.1, ?_, ?_, ?_⟩
    · rintro w s' ⟨⟩
    · rintro s' (⟨w, ⟨⟩⟩ | ⟨x, ⟨⟩⟩)
    · rintro - w; exact e1.elim (fun h => by simp [h]) fun h => h.2 w

open Spec in
theorem onlyReads_of {Lt : Prop} {o f : Nat → Bool} {p q : Client K} {s : State K} {r : Src} {e : Expr K} {g : Ref → Act K β} {v : Res β}
    (h : Safe .empty p) (hs : Reaches o p (.begin f) q s) (he : s.view r = .ok e)
    (hg : ∀ {x}, RefIs s.heap x e → Gives Lt s.heap v (g x)) :
    (¬ Lt → OnlyReads s v (readCall g r s)) ∧
    (∀ w s', readCall g r s = .ok w s' → v = .ok w ∧ SameMemory s.heap s'.heap ∧ s'.ptr = s.ptr ∧ s'.objs = s.objs) ∧
    (∀ s', (∃ w, readCall g r s = .ok w s') ∨ (∃ x, readCall g r s = .throw x s') → ∀ r', s'.view r' = s.view r') ∧
    (readCall g r s = .ub → ∀ w, v ≠ .ok w) := by
  obtain ⟨σ, L, ⟨⟨fp, H⟩, hk⟩, -⟩ := reaches_sim hs start_rep h
  rw [view_eq H hk] at he
  cases hl : look σ r with
  | none => rw [hl] at he; cases he
  | some e' =>
    rw [hl] at he
    cases he
    obtain ⟨x, h1, h2, -⟩ := ref_some H hk hl
    have hx : readCall g r s = Prog.heap (g x) s := by
      exact bind_ok (m := (Run.look fun s : State K => s.ref r : Run (State K) Ref)) (look_ok (f := fun s : State K => s.ref r) h1)
    rw [hx]
    exact onlyReads_heap H hk (hg h2)

/-! ### Where substitution succeeds -/

omit [Num K] in
theorem Spec.WellFormed.rp {i : Nat} {r e : Expr K} (hr : Spec.WellFormed r) (h : Spec.WellFormed e) :
    Spec.WellFormed (rp i r e) := by
  induction h with
  | const c => exact .const c
  | var j => rw [VM.rp]; split; exacts [hr, .var j]
  | fsym i t => exact .fsym i t
  | un op _ ih => exact .un op ih
  | integ x h1 h2 _ _ _ ih => exact .integ x h1 h2 ih
  | bin h _ _ ih1 ih2 => exact .bin h ih1 ih2
  | vec _ ih =>
    simp only [VM.rp, rpL_eq_map]
    exact .vec (by simpa using ih)

omit [Num K] in
theorem Spec.VecDim.rp {n i : Nat} {r e : Expr K} (hr : Spec.VecDim n r) (h : Spec.VecDim n e) :
    Spec.VecDim n (rp i r e) := by
  induction h with
  | const c => exact .const c
  | var j => rw [VM.rp]; split; exacts [hr, .var j]
  | fsym i t => exact .fsym i t
  | un op _ ih => exact .un op ih
  | integ x h1 h2 _ _ _ ih => exact .integ x h1 h2 ih
  | bin op _ _ ih1 ih2 => exact .bin op ih1 ih2
  | vec hn _ ih =>
    simp only [VM.rp, rpL_eq_map]
    exact .vec (by simpa using hn) (by simpa using ih)

theorem insertable_of {n : Nat} (hn : 0 < n) (lo hi : Expr K) (x : Nat) (hw : Spec.WellFormed e)
    (hd : Spec.VecDim n e) : Spec.Insertable lo hi x e := by
  intro c
  rw [substitute, substE_var, Res.bind_ok]
  exact simplified_ok hn (.rp (.const c) hw) (.rp (.const c) hd)

theorem integrals_insertable {n : Nat} (hn : 0 < n) : ∀ e : Expr K, Spec.WellFormed e → Spec.VecDim n e →
    Spec.Integrals Spec.Insertable e
  | .integ lo hi x k, hw, hd => by
    cases hw with | integ _ _ _ hw =>
    cases hd with | integ _ _ _ hd =>
    exact insertable_of hn lo hi x hw hd
  | .bin op l r, hw, hd => by
    cases hw with | bin _ hl hr =>
    cases hd with | bin _ dl dr =>
    cases op <;> first
      | exact trivial
      | exact ⟨integrals_insertable hn l hl dl, integrals_insertable hn r hr dr⟩
  | .const _, _, _ | .var _, _, _ | .fsym _ _, _, _ | .un _ _, _, _ | .vec _, _, _ => trivial

end VM
