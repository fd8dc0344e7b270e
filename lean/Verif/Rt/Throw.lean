import Verif.Rt.Diff
/-
What the library throws, and what a handler sees of it.
-/
namespace VM
variable {K : Type}

/-- The `throw` statements reached by evaluation, `unwrap` and differentiation of run-time expressions. -/
inductive Site where
  /-- runtime/variable.hpp 157, 166 (and 141 through 154-160) -/
  | index (id size : Nat)
  /-- runtime/function_symbol.hpp 74, 76 -/
  | evalSymbol
  /-- runtime/vector_expr.hpp 119, 126 -/
  | evalVector
  /-- compiletime/unary_op_tags.hpp 184 -/
  | evalGrad
  /-- compiletime/unary_op_tags.hpp 204 -/
  | evalDiv
  /-- compiletime/unary_op_tags.hpp 234 -/
  | evalPartial
  /-- runtime/integral.hpp 83 -/
  | evalIntegral
  /-- runtime/integral.hpp 175 -/
  | evalSymInt
  /-- runtime/variable.hpp 182 -/
  | unwrapVariable
  /-- runtime/function_symbol.hpp 94 -/
  | unwrapSymbol
  /-- runtime/vector_expr.hpp 133 -/
  | unwrapVector
  /-- detail/unary_operations.hpp 343 -/
  | diffModulus
  /-- detail/unary_operations.hpp 662 -/
  | diffGrad
  /-- detail/unary_operations.hpp 688 -/
  | diffDiv
  /-- detail/unary_operations.hpp 747 -/
  | diffPartial
  /-- detail/unary_operations.hpp 758, 766 -/
  | diffIntegral
  /-- runtime/function_symbol.hpp 150 -/
  | diffSymbol
  /-- runtime/op_interface.hpp 56, 70 -/
  | unaryRhs
  deriving DecidableEq, Repr

/-- The class of the thrown object, as in the rest of the model. -/
def Site.exc : Site → Exc
  | .index i n => .indexOutOfBounds i n
  | .evalSymbol | .evalVector => .notEvaluable
  | .evalGrad | .evalDiv | .evalPartial => .formalOp
  | .evalIntegral => .analyticIntegration
  | .evalSymInt => .symbolicIntegral
  | .unwrapVariable | .unwrapSymbol | .unwrapVector => .notUnwrappable
  | .diffModulus | .diffGrad | .diffDiv | .diffPartial | .diffIntegral | .diffSymbol => .notDifferentiable
  | .unaryRhs => .rhsForUnary

/-- What an exception object offers a handler. -/
inductive Offer where
  /-- `const char *`, not an exception class -/
  | literal (text : String)
  /-- a struct derived from `std::exception`, `what()` public -/
  | struct (text : String)
  /-- a class derived from `std::exception`, `what()` private; the text is kept in the object -/
  | cls (text : String)
  /-- the same, but `what()` returns a pointer into a string that is destroyed on return -/
  | dangling
  deriving DecidableEq, Repr

/-- The thrown objects: texts at the lines given above, defaults in exception.hpp 87; structs with public `what()`
exception.hpp 31-61; classes with private `what()` 67-118; the local stream of line 129-131. -/
def Site.offer : Site → Offer
  | .index _ _ => .dangling
  | .evalSymbol => .cls "Cannot evaluate rt_function_symbol!"
  | .evalVector => .cls "Cannot evaluate a rt_vector_expr!"
  | .evalGrad => .literal "Cannot evaluate formal gradient. Use transformations first."
  | .evalDiv => .literal "Cannot evaluate formal divergence. Use transformations first."
  | .evalPartial => .literal "Cannot evaluate formal partial derivative. Use transformations first."
  | .evalIntegral =>
    .struct "The current release of ViennaMath does not support analytic integrations at runtime."
  | .evalSymInt =>
    .struct "The evaluation of an integral with a symbolic integration domain is not possible."
  | .unwrapVariable => .cls "Expression cannot be unwrapped!"
  | .unwrapSymbol => .cls "Cannot evaluate rt_function_symbol to a number!"
  | .unwrapVector => .cls "Cannot unwrap a rt_vector_expr!"
  | .diffModulus => .cls "modulus operation not differentiable!"
  | .diffGrad => .cls "Cannot differentiate gradient operator!"
  | .diffDiv => .cls "Cannot differentiate divergence operator!"
  | .diffPartial => .cls "Cannot evaluate formal partial derivative. Use transformations first."
  | .diffIntegral => .cls "Cannot differentiate runtime integration (yet)!"
  | .diffSymbol => .cls "Cannot differentiate rt_function_symbol!"
  | .unaryRhs =>
    .struct "Error due to wrong use of class 'op_interface': A right hand side argument was provided to an unary operator."

/-- A handler: `catch (std::exception const & x)`, or one for the very type of the thrown object. -/
inductive Handler where
  | std
  | own
  deriving DecidableEq, Repr

/-- What the handler gets by calling `x.what()`, or by reading the characters. -/
inductive Seen where
  | text (t : String)
  /-- the handler does not match -/
  | uncaught
  /-- the handler does not compile -/
  | illFormed
  /-- reading the text is undefined behaviour -/
  | undefined
  deriving DecidableEq, Repr

/-- Access is checked for the static type of the handler's parameter: `std::exception::what` is public and
virtual, an overrider may be private. -/
def Offer.seen : Handler → Offer → Seen
  | .std, .literal _ => .uncaught
  | .own, .literal t => .text t
  | _, .struct t => .text t
  | .std, .cls t => .text t
  | .own, .cls _ => .illFormed
  | .std, .dangling => .undefined
  | .own, .dangling => .illFormed

/-- Where the operator of a unary node throws when applied to a number (see `applyU`). -/
def UOp.site : UOp → Option Site
  | .fn _ => none
  | .grad => some .evalGrad
  | .divg => some .evalDiv
  | .pd _ => some .evalPartial
  | .symInt _ => some .evalSymInt

/-- Where the operator of a binary node throws (see `applyB`). -/
def BOp.site : BOp → Option Site
  | .uid => some .unaryRhs
  | _ => none

/-- Where `eval(std::vector)` throws, if it does; the lines of `eval`. -/
def evalSite (o : Order K) (v : List K) : Expr K → Option Site
  | .const _ => none
  | .var i => if i < v.length then none else some (.index i v.length)
  | .fsym _ _ => some .evalSymbol
  | .un op e => (evalSite o v e).or op.site
  | .integ _ _ _ e => (evalSite o v e).or (some .evalIntegral)
  | .bin op l r =>
    if o l r then ((evalSite o v l).or (evalSite o v r)).or op.site
    else ((evalSite o v r).or (evalSite o v l)).or op.site
  | .vec _ => some .evalVector

/-- Where `unwrap()` throws, if it does; the lines of `unwrap`. -/
def unwrapSite (o : Order K) : Expr K → Option Site
  | .const _ => none
  | .var _ => some .unwrapVariable
  | .fsym _ _ => some .unwrapSymbol
  | .un op e => (unwrapSite o e).or op.site
  | .integ _ _ _ e => (unwrapSite o e).or (some .evalIntegral)
  | .bin op l r =>
    if o l r then ((unwrapSite o l).or (unwrapSite o r)).or op.site
    else ((unwrapSite o r).or (unwrapSite o l)).or op.site
  | .vec _ => some .unwrapVector

mutual
/-- Where the member function `diff` throws, if it does; the lines of `diffE`.  `o` says which operand of a
binary node is differentiated first. -/
def diffSite (o : Order K) (x : DVar) : Expr K → Option Site
  | .const _ => none
  | .var _ => none
  | .fsym _ _ =>
    match x with
    | .var _ => some .diffSymbol
    | .fsym _ _ => none
  | .un (.fn .fabs) _ => some .diffModulus
  | .un (.fn _) e => diffSite o x e
  | .un .grad e =>
    match x with
    | .var _ => some .diffGrad
    | .fsym _ _ => diffSite o x e
  | .un .divg _ => some .diffDiv
  | .un (.pd _) _ => some .diffPartial
  | .un (.symInt _) _ => some .diffIntegral
  | .integ _ _ _ _ => some .diffIntegral
  | .bin .uid _ _ => some .unaryRhs
  | .bin _ l r =>
    if o l r then (diffSite o x l).or (diffSite o x r) else (diffSite o x r).or (diffSite o x l)
  | .vec es => diffSites o x es
/-- The loop over the entries. -/
def diffSites (o : Order K) (x : DVar) : List (Expr K) → Option Site
  | [] => none
  | e :: es => (diffSite o x e).or (diffSites o x es)
end

end VM
