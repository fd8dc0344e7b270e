import Verif.Rt.Latex
import Verif.Rt.QuadObj
/-
LaTeX translators as objects: `rt_latex_translator` keeps pointers to its processors, among them processors of the
user.
-/
namespace VM
variable {K P : Type}

/-- What a processor may ask the translator for: the texts of the operands of the expression it got, with and without
parentheses, and the text of a variable. -/
structure Callback where
  kids : List (Bool → Txt)
  var : Nat → Txt

/-- The processors a user adds: `process`, `clone` and `customize` (`rt_latex_processor_interface`, latex.hpp 61-84).
Simplified: `process` calls the translator only for operands and variables, and what it returns depends on nothing else
than its arguments and the state of the processor. -/
structure ProcClass (K P : Type) where
  process : P → Callback → Bool → Expr K → Txt
  clone : P → P
  customize : P → Expr K → Txt → P

/-- A processor: those of the library and those of the user. -/
inductive Proc (P : Type) where
  | binary
  | unary
  | constant
  | variable (names : Nat → Option Txt)
  | symbol (names : Nat → Nat → Option Txt)
  | user (p : P)

/-- `clone()`, latex.hpp 239, 311, 420, 458, 515: the processors of variables and function symbols start anew. -/
def Proc.clone (c : ProcClass K P) : Proc P → Proc P
  | .variable _ => .variable fun _ => none
  | .symbol _ => .symbol fun _ _ => none
  | .user p => .user (c.clone p)
  | p => p

/-- `customize`, latex.hpp 80, 471-480, 528-538. -/
def Proc.customize (c : ProcClass K P) (e : Expr K) (s : Txt) : Proc P → Proc P
  | .variable names => match e with
    | .var i => .variable fun j => if j = i then some s else names j
    | _ => .variable names
  | .symbol names => match e with
    | .fsym i g => .symbol fun j h => if j = i ∧ h = g then some s else names j h
    | _ => .symbol names
  | .user p => .user (c.customize p e s)
  | p => p

/-- `rt_latex_binary_expr_processor::process_impl`, latex.hpp 254-291, on the texts of the operands. -/
def binaryTxt (op : BOp) (flag : Bool) (l r : Bool → Txt) : Txt :=
  if op = .div then
    (if flag then " \\left( ".toList else []) ++ " \\frac{".toList ++ l false ++ "}{".toList ++ r false ++
      "} ".toList ++ (if flag then " \\right) ".toList else [])
  else
    (if flag then "(".toList else []) ++ l (op = .mult) ++
      (if op = .mult then " \\cdot ".toList else " ".toList ++ op.str ++ " ".toList) ++
      r (op = .mult || op = .minus) ++ (if flag then ")".toList else [])

/-- `rt_latex_unary_expr_processor::process_impl`, latex.hpp 326-400, operators other than integrals over an
interval. -/
def unaryTxt (op : UOp) (flag : Bool) (k : Bool → Txt) (var : Nat → Txt) : Txt :=
  match op with
  | .fn .id => k flag
  | .fn .exp => " \\exp ".toList ++ k true ++ " ".toList
  | .fn .sin => " \\sin ".toList ++ k true ++ " ".toList
  | .fn .cos => " \\cos ".toList ++ k true ++ " ".toList
  | .fn .tan => " \\tan ".toList ++ k true ++ " ".toList
  | .fn .fabs => " \\left|".toList ++ k false ++ "\\right| ".toList
  | .fn .sqrt => " \\sqrt{".toList ++ k false ++ "} ".toList
  | .fn .log => " \\ln ".toList ++ k true ++ " ".toList
  | .fn .log10 => " \\log ".toList ++ k true ++ " ".toList
  | .grad => " \\nabla ".toList ++ k true ++ " ".toList
  | .divg => " \\nabla \\cdot ".toList ++ k true ++ " ".toList
  | .pd i => " \\frac{\\partial ".toList ++ k true ++ "}{\\partial ".toList ++ var i ++ "} ".toList
  | .symInt id => " \\int_{\\Omega_{".toList ++ idTxt id ++ "}} ".toList ++ k false ++ " ".toList ++
      " \\: \\mathrm{d} \\Omega ".toList

/-- The same for integrals over an interval, latex.hpp 380-387, 161-167. -/
def integTxt (lo hi k : Bool → Txt) (x : Txt) : Txt :=
  " \\int_{ ".toList ++ (" [ ".toList ++ lo false ++ "; ".toList ++ hi false ++ " ] ".toList) ++ " } ".toList ++
    k false ++ " ".toList ++ " \\: \\mathrm{d} ".toList ++ x ++ " ".toList

/-- `process`, latex.hpp 241-250, 313-322, 422-431, 460-469, 517-526: an empty text for expressions a processor is not
responsible for. -/
def Proc.process (fmt : K → Txt) (c : ProcClass K P) (cb : Callback) (flag : Bool) (e : Expr K) : Proc P → Txt
  | .binary => match e, cb.kids with
    | .bin op _ _, [l, r] => binaryTxt op flag l r
    | _, _ => []
  | .unary => match e, cb.kids with
    | .un op _, [k] => unaryTxt op flag k cb.var
    | .integ _ _ x _, [lo, hi, k] => integTxt lo hi k (cb.var x)
    | _, _ => []
  | .constant => match e with
    | .const v => " ".toList ++ fmt v ++ " ".toList
    | _ => []
  | .variable names => match e with
    | .var i => match names i with
      | some s => s
      | none => " x_{".toList ++ idTxt i ++ "} ".toList
    | _ => []
  | .symbol names => match e with
    | .fsym i g => match names i g with
      | some s => s
      | none => (if g = 1 then " v_{".toList else " u_{".toList) ++ idTxt i ++ "} ".toList
    | _ => []
  | .user p => c.process p cb flag e

/-- The text for expressions no processor is responsible for, latex.hpp 214. -/
def unknownTxt : Txt := " \\chi_{\\mathrm{unknown}} ".toList

/-- `process_impl` of the translator, latex.hpp 198-215: the first text that is not empty. -/
def firstTxt (f : Proc P → Txt) : List (Proc P) → Txt
  | [] => unknownTxt
  | p :: ps => if f p = [] then firstTxt f ps else f p

section
variable (fmt : K → Txt) (c : ProcClass K P) (ps : List (Proc P))

/-- The text of a variable, latex.hpp 152. -/
def varTxt (i : Nat) : Txt := firstTxt (Proc.process fmt c ⟨[], fun _ => []⟩ false (.var i)) ps

mutual
/-- `operator()(e, use_parenthesis)`, latex.hpp 141-153. -/
def translate : Expr K → Bool → Txt
  | .const v, flag => firstTxt (Proc.process fmt c ⟨[], varTxt fmt c ps⟩ flag (.const v)) ps
  | .var i, flag => firstTxt (Proc.process fmt c ⟨[], fun _ => []⟩ flag (.var i)) ps
  | .fsym i g, flag => firstTxt (Proc.process fmt c ⟨[], varTxt fmt c ps⟩ flag (.fsym i g)) ps
  | .un op e, flag => firstTxt (Proc.process fmt c ⟨[translate e], varTxt fmt c ps⟩ flag (.un op e)) ps
  | .integ lo hi x e, flag =>
    firstTxt (Proc.process fmt c ⟨[translate lo, translate hi, translate e], varTxt fmt c ps⟩ flag (.integ lo hi x e)) ps
  | .bin op l r, flag => firstTxt (Proc.process fmt c ⟨[translate l, translate r], varTxt fmt c ps⟩ flag (.bin op l r)) ps
  | .vec es, flag => firstTxt (Proc.process fmt c ⟨translateL es, varTxt fmt c ps⟩ flag (.vec es)) ps
def translateL : List (Expr K) → List (Bool → Txt)
  | [] => []
  | e :: es => translate e :: translateL es
end
end

/-- The memory: live processors by address, the next free address (addresses are not used again), and the objects,
each with the pointers in its `processors_`. -/
structure TMem (P : Type) where
  heap : Nat → Option (Proc P)
  next : Nat
  objs : Nat → Option (List Nat)

def TMem.empty : TMem P := ⟨fun _ => none, 0, fun _ => none⟩

/-- What a program does with translators (numbered by their names). -/
inductive TOp (K P : Type) where
  /-- `latex_translator t;` latex.hpp 109-116 -/
  | make (t : Nat)
  /-- `latex_translator t(t');` latex.hpp 118-126 -/
  | copy (t t' : Nat)
  /-- `t = t';`, the assignment the compiler generates: it copies the vector of pointers -/
  | assign (t t' : Nat)
  /-- `t.add_processor(new p);` latex.hpp 191-194 -/
  | add (t : Nat) (p : P)
  /-- `t.customize(e, s);` latex.hpp 174-188 -/
  | customize (t : Nat) (e : Expr K) (s : Txt)
  /-- `t(e, flag)`, latex.hpp 141-153 -/
  | print (t : Nat) (e : Expr K) (flag : Bool)
  /-- The end of the life of `t`, latex.hpp 128-136 -/
  | destroy (t : Nat)

namespace TMem

/-- `push_back(new p)` for each processor. -/
def news (m : TMem P) : List (Proc P) → TMem P × List Nat
  | [] => (m, [])
  | p :: ps =>
    let r := news { m with heap := setAt m.heap m.next (some p), next := m.next + 1 } ps
    (r.1, m.next :: r.2)

/-- `delete *it` for each pointer; each processor must still be there. -/
def deletes (m : TMem P) : List Nat → Res (TMem P)
  | [] => .ok m
  | a :: as => match m.heap a with
    | some _ => deletes { m with heap := setAt m.heap a none } as
    | none => .ub

/-- `(*it)->customize(&e, output)` for each pointer. -/
def customs (c : ProcClass K P) (e : Expr K) (s : Txt) (m : TMem P) : List Nat → Res (TMem P)
  | [] => .ok m
  | a :: as => match m.heap a with
    | some p => customs c e s { m with heap := setAt m.heap a (some (p.customize c e s)) } as
    | none => .ub

/-- The processors of an object; all of them must be there.  (The translator stops at the first text that is not empty;
requiring the rest of them to be there makes no difference as long as processors die together.) -/
def procs (m : TMem P) : List Nat → Res (List (Proc P))
  | [] => .ok []
  | a :: as => match m.heap a with
    | some p => (procs m as).map (p :: ·)
    | none => .ub

/-- The processors of a new translator, latex.hpp 111-115. -/
def initial : List (Proc P) := [.binary, .unary, .constant, .variable fun _ => none, .symbol fun _ _ => none]

/-- The object with the given name; it must be there. -/
def obj (m : TMem P) (t : Nat) : Res (List Nat) :=
  match m.objs t with
  | some as => .ok as
  | none => .ub

/-- One step: the memory afterwards and what was printed. -/
def step (fmt : K → Txt) (c : ProcClass K P) (m : TMem P) : TOp K P → Res (TMem P × List Txt)
  | .make t =>
    let r := m.news initial
    .ok ({ r.1 with objs := setAt m.objs t (some r.2) }, [])
  | .copy t t' => (m.obj t').bind fun as => (m.procs as).map fun ps =>
      let r := m.news (ps.map (Proc.clone c))
      ({ r.1 with objs := setAt m.objs t (some r.2) }, [])
  | .assign t t' => (m.obj t').map fun as => ({ m with objs := setAt m.objs t (some as) }, [])
  | .add t p => (m.obj t).map fun as =>
      let r := m.news [.user p]
      ({ r.1 with objs := setAt m.objs t (some (as ++ r.2)) }, [])
  | .customize t e s => (m.obj t).bind fun as => (m.customs c e s as).map fun m' => (m', [])
  | .print t e flag => (m.obj t).bind fun as => (m.procs as).map fun ps => (m, [translate fmt c ps e flag])
  | .destroy t => (m.obj t).bind fun as => (m.deletes as).map fun m' => ({ m' with objs := setAt m.objs t none }, [])

/-- A program: the memory at its end and what it printed. -/
def exec (fmt : K → Txt) (c : ProcClass K P) : TMem P → List (TOp K P) → Res (TMem P × List Txt)
  | m, [] => .ok (m, [])
  | m, op :: ops => (m.step fmt c op).bind fun x => (exec fmt c x.1 ops).map fun y => (y.1, x.2 ++ y.2)

end TMem
end VM
