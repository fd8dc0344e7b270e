import Verif.Ct.Manip
import Verif.Ct.Convert
import Verif.Rt.Diff
import Verif.Rt.Subst
import Verif.Rt.Traverse
/-
Which overload of `diff`, `simplify`, `inplace_simplify` and `substitute` a call selects, by the classes of its
arguments, and what the selected one does.  `none` means: does not compile.
-/
namespace VM.Ct
variable {K : Type} [Num K]

/-- The classes of the arguments.  `rt_unary_expr` includes integrals.  Only the default interface and scalar
types; `ct_unary_expr` is left out as in `CtExpr`. -/
inductive Cls
  | int | num | rtConst | rtVar | fsym | un | bin | vec | expr | ctConst | ctVar | ctFsym | ctBin
  deriving DecidableEq, Repr

/-- An argument with its contents. -/
inductive Arg (K : Type)
  | int (n : Int)
  | num (c : K)
  | rtConst (c : K)
  | rtVar (i : Nat)
  | fsym (i t : Nat)
  | un (op : UOp) (e : Expr K)
  | integ (lo hi : Expr K) (x : Nat) (e : Expr K)
  | bin (op : BOp) (l r : Expr K)
  | vec (es : List (Expr K))
  | expr (e : Expr K)
  | ct (e : CtExpr)

def CtExpr.cls : CtExpr → Cls
  | .const _ => .ctConst
  | .var _ => .ctVar
  | .fsym _ => .ctFsym
  | .bin .. => .ctBin

def Arg.cls : Arg K → Cls
  | .int _ => .int
  | .num _ => .num
  | .rtConst _ => .rtConst
  | .rtVar _ => .rtVar
  | .fsym .. => .fsym
  | .un .. => .un
  | .integ .. => .un
  | .bin .. => .bin
  | .vec _ => .vec
  | .expr _ => .expr
  | .ct e => e.cls

/-- The constructors of `rt_expr`, runtime/expr.hpp 51-119: the object as an `expr`. -/
def Arg.toExpr : Arg K → Option (Expr K)
  | .int n => some (.const (Num.lit n))
  | .num c => some (.const c)
  | .rtConst c => some (.const c)
  | .rtVar i => some (.var i)
  | .fsym i t => some (.fsym i t)
  | .un op e => some (.un op e)
  | .integ lo hi x e => some (.integ lo hi x e)
  | .bin op l r => some (.bin op l r)
  | .vec es => some (.vec es)
  | .expr e => some e
  | .ct e => toRt e

/-- What a call returns.  `hollow c s e` is the compile-time expression `e` in which `s` is replaced by a
default-constructed object of the run-time class `c`. -/
inductive Out (K : Type)
  | obj (a : Arg K)
  | hollow (c : Cls) (s e : CtExpr)

/-! ### Overload resolution (the part of it these functions need) -/

/-- A parameter: `T const &` with `T` deduced, a class template (deduced, so without conversions), or a number
(not deduced, so with conversions). -/
inductive Par
  | any
  | cls (c : Cls)
  | number
  deriving DecidableEq

/-- The rank of the conversion of an argument to a parameter, 0 being none: `int` to `double` is a standard
conversion, `rt_constant` (runtime/constant.hpp 63) and `ct_constant` (ct_constant.hpp 49) have a conversion
function. -/
def Par.rank : Par → Cls → Option Nat
  | .any, _ => some 0
  | .cls c, c' => if c = c' then some 0 else none
  | .number, .num => some 0
  | .number, .int => some 1
  | .number, .rtConst => some 2
  | .number, .ctConst => some 2
  | .number, _ => none

/-- At least as specialised. -/
def Par.le : Par → Par → Bool
  | _, .any => true
  | p, q => p == q

/-- An overload: its parameters and whether its return type exists (SFINAE). -/
structure Sig where
  params : List Par
  enabled : List Cls → Bool := fun _ => true

/-- The conversion ranks of all arguments, if the overload is viable. -/
def Sig.ranks (s : Sig) (cs : List Cls) : Option (List Nat) :=
  if s.enabled cs && (s.params.length == cs.length) then (s.params.zip cs).mapM fun p => p.1.rank p.2 else none

/-- All parameters at least as specialised. -/
def Sig.le (s t : Sig) : Bool := (s.params.zip t.params).all fun p => p.1.le p.2

/-- `s` is better than `t`: no conversion is worse and one is better, or no conversion differs and `s` is more
specialised. -/
def better (cs : List Cls) (s t : Sig) : Bool :=
  match s.ranks cs, t.ranks cs with
  | some a, some b =>
    (a.zip b).all (fun p => p.1 ≤ p.2) &&
      ((a.zip b).any (fun p => p.1 < p.2) || (s.le t && !t.le s))
  | _, _ => false

/-- The overload selected: the one better than all other viable ones; `none` if there is none (no viable
overload, or ambiguous). -/
def pick (sigs : List Sig) (cs : List Cls) : Option Nat :=
  let viable := (List.range sigs.length).filter fun k => ((sigs[k]?.bind fun s => s.ranks cs).isSome)
  viable.find? fun k => viable.all fun j => j == k ||
    match sigs[k]?, sigs[j]? with
    | some s, some t => better cs s t
    | _, _ => false

/-- A compile-time expression. -/
def Cls.isCt : Cls → Bool
  | .ctConst => true
  | .ctVar => true
  | .ctFsym => true
  | .ctBin => true
  | _ => false

/-- Derived from the run-time interface, so that a pointer to it can be passed on: `rt_expr` (runtime/expr.hpp
37), which only holds a pointer, is not. -/
def Cls.isNode : Cls → Bool
  | .rtConst => true
  | .rtVar => true
  | .fsym => true
  | .un => true
  | .bin => true
  | .vec => true
  | _ => false

/-! ### `simplify` and `inplace_simplify` -/

/-- The overloads of `simplify`, manipulation/simplify.hpp 885-890 (its return type exists for compile-time
expressions only, 795-881), 937-943, 946-952, 955-961, 964-969. -/
def simplifySigs : List Sig :=
  [⟨[.any], fun cs => cs.all Cls.isCt⟩, ⟨[.cls .expr], fun _ => true⟩, ⟨[.cls .un], fun _ => true⟩,
   ⟨[.cls .bin], fun _ => true⟩, ⟨[.any], fun _ => true⟩]

/-- Their bodies. -/
def simplifyBody (cv : Conv) : Nat → Arg K → Option (Res (Out K))
  | 0, .ct e => (ctSimplify cv e).map fun e' => .ok (.obj (.ct e'))
  | 1, a => a.toExpr.map fun e => (simplified e).map fun e' => .obj (.expr e')
  | 2, a => a.toExpr.map fun e => (simplified e).map fun e' => .obj (.expr e')
  | 3, a => a.toExpr.map fun e => (simplified e).map fun e' => .obj (.expr e')
  | 4, a => some (.ok (.obj a))
  | _, _ => none

/-- `simplify(a)`. -/
def callSimplify (cv : Conv) (a : Arg K) : Option (Res (Out K)) :=
  (pick simplifySigs [a.cls]).bind fun k => simplifyBody cv k a

/-- The overloads of `inplace_simplify`, simplify.hpp 904-909, 912-917, 920-925, 928-932. -/
def inplaceSigs : List Sig :=
  [⟨[.cls .expr], fun _ => true⟩, ⟨[.cls .un], fun _ => true⟩, ⟨[.cls .bin], fun _ => true⟩,
   ⟨[.any], fun _ => true⟩]

/-- Their bodies: what the object is afterwards.  The overloads for `rt_unary_expr` and `rt_binary_expr` write
`e->can_simplify()`, but `e` is a reference to a class without `operator->`. -/
def inplaceBody : Nat → Arg K → Option (Res (Out K))
  | 0, a => a.toExpr.map fun e => (simplified e).map fun e' => .obj (.expr e')
  | 3, a => some (.ok (.obj a))
  | _, _ => none

/-- `inplace_simplify(a)`: what the object is afterwards. -/
def callInplace (a : Arg K) : Option (Res (Out K)) :=
  (pick inplaceSigs [a.cls]).bind fun k => inplaceBody k a

/-! ### `diff` -/

/-- The overloads of `diff` with two arguments, manipulation/diff.hpp. -/
def diffSigs : List Sig :=
  [-- 0-2: 39-46, 53-60, 67-74
   ⟨[.cls .bin, .cls .rtVar], fun _ => true⟩,
   ⟨[.cls .un, .cls .rtVar], fun _ => true⟩,
   ⟨[.cls .expr, .cls .rtVar], fun _ => true⟩,
   -- 3-5: 82-88, 95-101, 108-114
   ⟨[.cls .bin, .cls .ctVar], fun _ => true⟩,
   ⟨[.cls .un, .cls .ctVar], fun _ => true⟩,
   ⟨[.cls .expr, .cls .ctVar], fun _ => true⟩,
   -- 6-7: 121-130, 133-142
   ⟨[.cls .fsym, .cls .rtVar], fun _ => true⟩,
   ⟨[.cls .fsym, .cls .ctVar], fun _ => true⟩,
   -- 8: 148-156
   ⟨[.cls .fsym, .cls .fsym], fun _ => true⟩,
   -- 9-11: 159-166, 169-176, 179-186
   ⟨[.cls .un, .cls .fsym], fun _ => true⟩,
   ⟨[.cls .bin, .cls .fsym], fun _ => true⟩,
   ⟨[.cls .expr, .cls .fsym], fun _ => true⟩,
   -- 12: 192-197
   ⟨[.number, .cls .rtVar], fun _ => true⟩,
   -- 13: 200-205
   ⟨[.cls .rtConst, .cls .rtVar], fun _ => true⟩,
   -- 14: 210-219; the template parameters `other_id` and `id` cannot be deduced
   ⟨[.cls .rtVar, .cls .rtVar], fun _ => false⟩,
   -- 15: 330-339; `result_of::diff` 228-323 has no version for function symbols and none for run-time classes
   ⟨[.any, .cls .ctVar], fun cs => match cs with
     | [c, _] => c.isCt && c != .ctFsym
     | _ => false⟩]

/-- The pointer `&var` to an `rt_variable` (also the one made from a `ct_variable`, e.g. diff.hpp 86) or to an
`rt_function_symbol`. -/
def Arg.dvar : Arg K → Option DVar
  | .rtVar i => some (.var i)
  | .ct (.var i) => some (.var i)
  | .fsym i t => some (.fsym i t)
  | _ => none

/-- The body shared by the overloads 0-5 and 9-11: `e.diff(&var)`, then `inplace_simplify`. -/
def diffRt (a v : Arg K) : Option (Res (Out K)) :=
  match a.toExpr, v.dvar with
  | some e, some x => some ((diff x e).map fun d => .obj (.expr d))
  | _, _ => none

/-- The bodies. -/
def diffBody : Nat → Arg K → Arg K → Option (Res (Out K))
  | 0, a, v => diffRt a v
  | 1, a, v => diffRt a v
  | 2, a, v => diffRt a v
  | 3, a, v => diffRt a v
  | 4, a, v => diffRt a v
  | 5, a, v => diffRt a v
  | 6, .fsym i t, .rtVar x => some (.ok (.obj (.expr (diffSymbol i t x))))
  | 7, .fsym i t, .ct (.var x) => some (.ok (.obj (.expr (diffSymbol i t x))))
  | 8, .fsym i t, .fsym j u =>
    some (.ok (.obj (.expr (.const (Num.lit (if i = j ∧ t = u then 1 else 0))))))
  | 9, a, v => diffRt a v
  | 10, a, v => diffRt a v
  | 11, a, v => diffRt a v
  | 12, _, _ => some (.ok (.obj (.rtConst (Num.lit 0))))
  | 13, _, _ => some (.ok (.obj (.rtConst (Num.lit 0))))
  | 15, .ct e, .ct (.var i) => (ctDiff i e).map fun d => .ok (.obj (.ct d))
  | _, _, _ => none

/-- `diff(a, v)`. -/
def callDiff (a v : Arg K) : Option (Res (Out K)) :=
  (pick diffSigs [a.cls, v.cls]).bind fun k => diffBody k a v

/-! ### `substitute` -/

/-- The overloads of `substitute` for one expression, manipulation/substitute.hpp (those for `std::vector`s of
expressions and for the symbolic interval take arguments of other classes). -/
def substSigs : List Sig :=
  [-- 0: 146-153; `result_of::substitute` 36-137 has a type for compile-time expressions only
   ⟨[.any, .any, .any], fun cs => match cs with
     | [_, _, e] => e.isCt
     | _ => false⟩,
   -- 1-3: 165-173, 176-184, 187-196
   ⟨[.cls .rtVar, .any, .any], fun _ => true⟩,
   ⟨[.cls .rtVar, .any, .cls .expr], fun _ => true⟩,
   ⟨[.cls .rtVar, .number, .cls .expr], fun _ => true⟩,
   -- 4-5: 199-208, 211-219
   ⟨[.cls .fsym, .number, .cls .expr], fun _ => true⟩,
   ⟨[.cls .fsym, .cls .expr, .cls .expr], fun _ => true⟩,
   -- 6-7: 223-231, 234-242
   ⟨[.cls .un, .any, .cls .expr], fun _ => true⟩,
   ⟨[.cls .un, .cls .expr, .cls .expr], fun _ => true⟩,
   -- 8: 245-253
   ⟨[.cls .bin, .any, .cls .expr], fun _ => true⟩,
   -- 9: 256-264
   ⟨[.cls .expr, .cls .expr, .cls .expr], fun _ => true⟩]

/-- Does the type `s` occur in the type `e`? -/
def occursIn (s : CtExpr) (e : CtExpr) : Bool :=
  e == s || match e with
    | .bin l _ r => occursIn s l || occursIn s r
    | _ => false

/-- The class has a default constructor: `rt_constant` (runtime/constant.hpp 45-52), `rt_variable`
(variable.hpp 100) and `rt_vector_expr` (vector_expr.hpp 53) have none. -/
def Cls.defaultable : Cls → Bool
  | .rtConst => false
  | .rtVar => false
  | .vec => false
  | _ => true

/-- The generic overload, substitute.hpp 146-153: the result is default-constructed from the types of the
arguments.  Only a search object of a compile-time class can match a part of `e`. -/
def substByType (s r : Arg K) (e : CtExpr) : Option (Out K) :=
  match s with
  | .ct s =>
    match r with
    | .ct r => some (.obj (.ct (ctSubst s r e)))
    | r =>
      if occursIn s e then (if r.cls.defaultable then some (.hollow r.cls s e) else none)
      else some (.obj (.ct e))
  | _ => some (.obj (.ct e))

/-- The number passed for a parameter `default_numeric_type`. -/
def Arg.number : Arg K → Option K
  | .num c => some c
  | .int n => some (Num.lit n)
  | .rtConst c => some c
  | .ct (.const n) => some (Num.lit n)
  | _ => none

/-- The object as a pointer to the run-time interface (`&repl`); `none` if the class is not derived from it. -/
def Arg.node (a : Arg K) : Option (Expr K) := if a.cls.isNode then a.toExpr else none

/-- The body shared by the run-time overloads: `e->substitute(s, r)`, then `inplace_simplify`. -/
def substRt (s r e : Option (Expr K)) : Option (Res (Out K)) :=
  match s, r, e with
  | some s, some r, some e => some ((substitute s r e).map fun t => .obj (.expr t))
  | _, _, _ => none

/-- The bodies.  Those with a parameter `ReplacementType const & repl` (1, 2, 6, 8) pass `&repl`. -/
def substBody : Nat → Arg K → Arg K → Arg K → Option (Res (Out K))
  | 0, s, r, .ct e => (substByType s r e).map .ok
  | 1, s, r, e => substRt s.toExpr r.node e.node
  | 2, s, r, e => substRt s.toExpr r.node e.toExpr
  | 3, s, r, e => substRt s.toExpr (r.number.map .const) e.toExpr
  | 4, s, r, e => substRt s.toExpr (r.number.map .const) e.toExpr
  | 5, s, r, e => substRt s.toExpr r.toExpr e.toExpr
  | 6, s, r, e => substRt s.toExpr r.node e.toExpr
  | 7, s, r, e => substRt s.toExpr r.toExpr e.toExpr
  | 8, s, r, e => substRt s.toExpr r.node e.toExpr
  | 9, s, r, e => substRt s.toExpr r.toExpr e.toExpr
  | _, _, _, _ => none

/-- `substitute(s, r, e)`. -/
def callSubst (s r e : Arg K) : Option (Res (Out K)) :=
  (pick substSigs [s.cls, r.cls, e.cls]).bind fun k => substBody k s r e

/-- The overloads of `substitute` whose first two parameters accept two `std::vector<rt_expr>`, or a symbolic interval
and a pair: by the third parameter, the generic one (146-153), and the one for lists (267-286) or for intervals
(347-362). -/
def substListSigs : List Sig :=
  [⟨[.any], fun cs => cs.all Cls.isCt⟩, ⟨[.cls .expr], fun _ => true⟩]

/-- `substitute(search, repl, e)` with `std::vector`s of `rt_expr`s.  In the generic overload the searched type, a
`std::vector`, occurs in no compile-time expression: the result is of the type of `e`. -/
def callSubstList (ss rs : List (Expr K)) (e : Arg K) : Option (Res (Out K)) :=
  (pick substListSigs [e.cls]).bind fun k => match k, e with
    | 0, .ct e => some (.ok (.obj (.ct e)))
    | 1, .expr e => some ((substituteMany ss rs e).map fun t => .obj (.expr t))
    | _, _ => none

/-- `substitute(symbolic interval, std::make_pair(interval(lo, hi), x), e)`.  The same for the generic overload. -/
def callSubstInterval (search : Nat) (lo hi : Expr K) (x : Nat) (e : Arg K) : Option (Res (Out K)) :=
  (pick substListSigs [e.cls]).bind fun k => match k, e with
    | 0, .ct e => some (.ok (.obj (.ct e)))
    | 1, .expr e => some ((substituteInterval search lo hi x e).map fun t => .obj (.expr t))
    | _, _ => none

end VM.Ct
