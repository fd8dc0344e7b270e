import Verif.Rt.HeapProg
/-
What programs with expression objects mean if every object simply holds a value of its own.
-/
namespace VM.Spec
variable {K : Type}

/-- Operand number `k` of an expression. -/
def child : Expr K → Nat → Option (Expr K)
  | .un _ e, 0 => some e
  | .integ lo _ _ _, 0 => some lo
  | .integ _ hi _ _, 1 => some hi
  | .integ _ _ _ e, 2 => some e
  | .bin _ l _, 0 => some l
  | .bin _ _ r, 1 => some r
  | .vec es, k => es[k]?
  | _, _ => none

/-- The part of an expression reached by a path of operand numbers. -/
def part : Expr K → List Nat → Option (Expr K)
  | e, [] => some e
  | e, k :: ks => (child e k).bind fun c => part c ks

/-- The value of an object: an `rt_expr` holds an expression or nothing yet, an `rt_binary_expr` holds
an operator and two expressions, an `rt_unary_expr` an operator and one expression, each of which may still be
missing. -/
inductive Obj (K : Type) where
  | expr (e : Option (Expr K))
  | bin (op : Option BOp) (l r : Option (Expr K))
  | un (op : Option UOp) (e : Option (Expr K))

/-- All objects that are alive. -/
abbrev Store (K : Type) := Nat → Option (Obj K)

/-- The part of the value of an object that is reached by a path. -/
def Obj.part : Obj K → List Nat → Option (Expr K)
  | .expr e, ks => e.bind (Spec.part · ks)
  | .bin (some op) (some l) (some r), [] => some (.bin op l r)
  | .bin _ l _, 0 :: ks => l.bind (Spec.part · ks)
  | .bin _ _ r, 1 :: ks => r.bind (Spec.part · ks)
  | .bin _ _ _, _ => none
  | .un (some op) (some e), [] => some (.un op e)
  | .un _ e, 0 :: ks => e.bind (Spec.part · ks)
  | .un _ _, _ => none

/-- The expression a reference shows. -/
def look (σ : Store K) (r : Src) : Option (Expr K) := (σ r.obj).bind fun o => o.part r.path

/-- The reference is an `rt_expr` object that holds nothing yet. -/
def Unset (σ : Store K) (r : Src) : Prop := σ r.obj = some (.expr none) ∧ r.path = []

/-- The parts that several references show. -/
def lookAll (σ : Store K) : List Src → Option (List (Expr K))
  | [] => some []
  | r :: rs => (look σ r).bind fun e => (lookAll σ rs).map (e :: ·)

/-- The value of a right hand side.  For calls of the library it is the value of the function on expressions
(`simplified`, `diffE`, ..., the subject of the other properties); calls whose outcome on expressions is
undefined are not admitted. -/
inductive RhsVal [Num K] (σ : Store K) : Rhs K → Res (Expr K) → Prop
  | const (c : K) : RhsVal σ (.leaf (.const c)) (.ok (.const c))
  | var (i : Nat) : RhsVal σ (.leaf (.var i)) (.ok (.var i))
  | fsym (i t : Nat) : RhsVal σ (.leaf (.fsym i t)) (.ok (.fsym i t))
  | conv {l op r e} : Ct.toRt (.bin l op r) = some e → RhsVal σ (.conv l op r) (.ok e)
  | copy {r e} : look σ r = some e → RhsVal σ (.copy r) (.ok e)
  | bin {op l r x y} : look σ l = some x → look σ r = some y → RhsVal σ (.bin op l r) (.ok (.bin op x y))
  | un {op r x} : look σ r = some x → RhsVal σ (.un op r) (.ok (.un op x))
  | integ {lo hi i r l u x} : look σ lo = some l → look σ hi = some u → look σ r = some x →
      RhsVal σ (.integ lo hi i r) (.ok (.integ l u i x))
  | vec {rs es} : lookAll σ rs = some es → RhsVal σ (.vec rs) (.ok (.vec es))
  | simplify {r x y} : look σ r = some x → simplified x = .ok y → RhsVal σ (.simplify r) (.ok y)
  | diff {i r x y} : look σ r = some x → VM.diff i x = .ok y → RhsVal σ (.diff i r) (.ok y)
  | diffThrow {i r x z} : look σ r = some x → diffE i x = .throw z → RhsVal σ (.diff i r) (.throw z)
  | subst {s t r x y e z} : look σ s = some x → look σ t = some y → look σ r = some e →
      substitute x y e = .ok z → RhsVal σ (.subst s t r) (.ok z)
  /-- the expression is an `rt_expr` -/
  | substMany {ss ts r xs ys e z} : lookAll σ ss = some xs → lookAll σ ts = some ys → look σ r = some e →
      (∃ e, σ r.obj = some (.expr e)) ∨ r.path ≠ [] →
      substituteMany xs ys e = .ok z → RhsVal σ (.substMany ss ts r) (.ok z)
  /-- the expression is an `rt_expr` -/
  | interval {lo hi i r l u x z} {search : Nat} : look σ lo = some l → look σ hi = some u → look σ r = some x →
      (∃ e, σ r.obj = some (.expr e)) ∨ r.path ≠ [] →
      substituteInterval search l u i x = .ok z → RhsVal σ (.interval lo hi i r) (.ok z)

def Store.set (σ : Store K) (i : Nat) (o : Option (Obj K)) : Store K := fun j => if j = i then o else σ j

/-- The effect of a statement that is used as it may be used. -/
inductive Exec [Num K] (σ : Store K) : Stmt K → Store K → Prop
  | decl {i} : σ i = none → Exec σ (.decl i) (σ.set i (some (.expr none)))
  | init {i rhs e} : σ i = none → RhsVal σ rhs (.ok e) → Exec σ (.init i rhs) (σ.set i (some (.expr (some e))))
  /-- copy construction from an object that holds nothing yet -/
  | initUnset {i r} : σ i = none → Unset σ r → Exec σ (.init i (.copy r)) (σ.set i (some (.expr none)))
  /-- the computation of the right hand side throws -/
  | initThrow {i rhs x} : σ i = none → RhsVal σ rhs (.throw x) → Exec σ (.init i rhs) σ
  | assign {i o rhs e} : σ i = some (.expr o) → RhsVal σ rhs (.ok e) →
      Exec σ (.assign i rhs) (σ.set i (some (.expr (some e))))
  | assignThrow {i o rhs x} : σ i = some (.expr o) → RhsVal σ rhs (.throw x) → Exec σ (.assign i rhs) σ
  | inplace {i x y} : σ i = some (.expr (some x)) → simplified x = .ok y →
      Exec σ (.inplace i) (σ.set i (some (.expr (some y))))
  | declBin {i} : σ i = none → Exec σ (.declBin i) (σ.set i (some (.bin none none none)))
  | initBin {i op l r x y} : σ i = none → look σ l = some x → look σ r = some y →
      Exec σ (.initBin i op l r) (σ.set i (some (.bin (some op) (some x) (some y))))
  /-- not from within the own left operand -/
  | assignBin {i p l u r op x y} : σ i = some (.bin p l u) → look σ r = some (.bin op x y) →
      (∀ ks, r ≠ ⟨i, 0 :: ks⟩) → Exec σ (.assignBin i r) (σ.set i (some (.bin (some op) (some x) (some y))))
  | assignNum {i p l u c} : σ i = some (.bin p l u) →
      Exec σ (.assignNum i c) (σ.set i (some (.bin (some .uid) (some (.const c)) (some (.const c)))))
  | declUn {i} : σ i = none → Exec σ (.declUn i) (σ.set i (some (.un none none)))
  | initUn {i op r x} : σ i = none → look σ r = some x →
      Exec σ (.initUn i op r) (σ.set i (some (.un (some op) (some x))))
  | wrapUn {i r x} : σ i = none → look σ r = some x →
      Exec σ (.wrapUn i r) (σ.set i (some (.un (some (.fn .id)) (some x))))
  | copyUn {i r op x} : σ i = none → look σ r = some (.un op x) →
      Exec σ (.copyUn i r) (σ.set i (some (.un (some op) (some x))))
  | numUn {i p e c} : σ i = some (.un p e) →
      Exec σ (.numUn i c) (σ.set i (some (.un (some (.fn .id)) (some (.const c)))))
  | destroy {i o} : σ i = some o → Exec σ (.destroy i) (σ.set i none)

/-- The effect of a program, all statements of which satisfy `P`. -/
inductive ExecAll [Num K] (P : Store K → Stmt K → Prop) : Store K → List (Stmt K) → Store K → Prop
  | nil {σ} : ExecAll P σ [] σ
  | cons {σ c τ cs υ} : Exec σ c τ → P σ c → ExecAll P τ cs υ → ExecAll P σ (c :: cs) υ

/-- No condition. -/
def Any (_ : Store K) (_ : Stmt K) : Prop := True

mutual
/-- The gradient operator occurs. -/
def hasGrad : Expr K → Bool
  | .un .grad _ => true
  | .un _ e => hasGrad e
  | .integ lo hi _ e => hasGrad lo || hasGrad hi || hasGrad e
  | .bin _ l r => hasGrad l || hasGrad r
  | .vec es => hasGradL es
  | _ => false
def hasGradL : List (Expr K) → Bool
  | [] => false
  | e :: es => hasGrad e || hasGradL es
end

/-- The right hand side does not throw, and is no derivative with respect to a function symbol of an expression
with gradients. -/
def TidyRhs [Num K] (σ : Store K) (rhs : Rhs K) : Prop :=
  (∀ x, ¬ RhsVal σ rhs (.throw x)) ∧
  ∀ i t r e, rhs = .diff (.fsym i t) r → look σ r = some e → hasGrad e = false

/-- The statement has no such right hand side. -/
def Tidy [Num K] (σ : Store K) : Stmt K → Prop
  | .init _ rhs | .assign _ rhs => TidyRhs σ rhs
  | _ => True

/-- No object exists. -/
def Store.empty : Store K := fun _ => none

/-- The object a statement works on. -/
def subject : Stmt K → Nat
  | .decl i | .init i _ | .assign i _ | .inplace i | .declBin i | .initBin i _ _ _ | .assignBin i _ |
    .assignNum i _ | .declUn i | .initUn i _ _ | .wrapUn i _ | .copyUn i _ | .numUn i _ | .destroy i => i

/-- The memory after a call that returned the node `a`, compared with the memory before: what was there is
unchanged, `a` shows `e`, the nodes of the result are new, and nothing else is allocated. -/
structure Clean (h h' : Heap K) (a : Nat) (e : Expr K) : Prop where
  old : ∀ b, h.cells b ≠ none → h'.cells b = h.cells b
  result : load a h' = .ok e
  new : ∀ ks b, follow h' a ks = .ok b → h.cells b = none
  rest : ∀ b, h'.cells b ≠ none → h.cells b ≠ none ∨ ∃ ks, follow h' a ks = .ok b

/-- The computation of the right hand side of the statement throws (for a reason other than lack of memory). -/
def Throwing [Num K] (σ : Store K) (c : Stmt K) : Prop :=
  ∃ i rhs x, (c = .init i rhs ∨ c = .assign i rhs) ∧ RhsVal σ rhs (.throw x)

/-- Some number of passes of simplification. -/
inductive Passes [Num K] : Expr K → Expr K → Prop
  | refl {x} : Passes x x
  | pass {x y z} : canSimplify x = .ok true → simplify x = .ok y → Passes y z → Passes x z

/-- What a statement may have done if the memory ran out in the middle of it.  Construction and assignment of
`rt_expr` objects have no effect; simplification in place may have done some of its passes; assignment to an
`rt_binary_expr` may have replaced the left operand, or the left operand and the operator; assignment to an
`rt_unary_expr` may have replaced the operand only. -/
inductive OutOf [Num K] (σ : Store K) : Stmt K → Store K → Prop
  | init {i rhs} : OutOf σ (.init i rhs) σ
  | assign {i rhs} : OutOf σ (.assign i rhs) σ
  | inplace {i x y} : σ i = some (.expr (some x)) → Passes x y →
      OutOf σ (.inplace i) (σ.set i (some (.expr (some y))))
  | initBin {i op l r} : OutOf σ (.initBin i op l r) σ
  | assignBin {i r} : OutOf σ (.assignBin i r) σ
  | assignLeft {i p l u r op x y} : σ i = some (.bin p l u) → look σ r = some (.bin op x y) →
      OutOf σ (.assignBin i r) (σ.set i (some (.bin p (some x) u)))
  | assignOp {i p l u r op x y} : σ i = some (.bin p l u) → look σ r = some (.bin op x y) →
      OutOf σ (.assignBin i r) (σ.set i (some (.bin (some op) (some x) u)))
  | assignNum {i c} : OutOf σ (.assignNum i c) σ
  | numLeft {i p l u c} : σ i = some (.bin p l u) →
      OutOf σ (.assignNum i c) (σ.set i (some (.bin p (some (.const c)) u)))
  | numOp {i p l u c} : σ i = some (.bin p l u) →
      OutOf σ (.assignNum i c) (σ.set i (some (.bin (some .uid) (some (.const c)) u)))
  | initUn {i op r} : OutOf σ (.initUn i op r) σ
  | wrapUn {i r} : OutOf σ (.wrapUn i r) σ
  | copyUn {i r} : OutOf σ (.copyUn i r) σ
  | numUn {i c} : OutOf σ (.numUn i c) σ
  | numArg {i p e c} : σ i = some (.un p e) → OutOf σ (.numUn i c) (σ.set i (some (.un p (some (.const c)))))

/-- The effects a statement may have on a machine without enough memory; `true`: it threw. -/
inductive Outcome [Num K] (σ : Store K) (c : Stmt K) : Bool → Store K → Prop
  | normal {τ} : Exec σ c τ → ¬ Throwing σ c → Outcome σ c false τ
  | threw {τ} : Exec σ c τ → Throwing σ c → Outcome σ c true τ
  | noMemory {τ} : OutOf σ c τ → Outcome σ c true τ

/-- How the program goes on. -/
def rest : Bool → Client K → Client K → Client K
  | false, p, _ => p
  | true, _, q => q

/-- Whatever the statements of the program do, the objects are used as they may be used. -/
def Safe [Num K] (σ : Store K) : Client K → Prop
  | .done => True
  | .step c p q => (∃ τ, Exec σ c τ) ∧ ∀ τ, (Outcome σ c false τ → Safe τ p) ∧ (Outcome σ c true τ → Safe τ q)

/-- The effects the program may have. -/
inductive Ran [Num K] : Store K → Client K → Store K → Prop
  | done {σ} : Ran σ .done σ
  | step {σ c b τ p q υ} : Outcome σ c b τ → Ran τ (rest b p q) υ → Ran σ (.step c p q) υ

/-- The program `p`, started in `s`, gets to a point where `q` is left of it and the state is `t`. -/
inductive Reaches [Num K] (o : Nat → Bool) : Client K → State K → Client K → State K → Prop
  | refl {p s} : Reaches o p s p s
  | ok {c p q s s' r t} : exec o c s = .ok () s' → Reaches o p s' r t → Reaches o (.step c p q) s r t
  | threw {c p q s x s' r t} : exec o c s = .throw x s' → Reaches o q s' r t → Reaches o (.step c p q) s r t

/-- The outcome of reading what a store shows. -/
def shown : Option (Expr K) → Res (Expr K)
  | some e => .ok e
  | none => .ub

end VM.Spec
