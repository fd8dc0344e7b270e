import Verif.Rt.Expr
import Verif.Res
/-
The LaTeX translator, manipulation/latex.hpp.  Text is a list of characters.
-/
namespace VM
variable {K : Type}

/-- Text. -/
abbrev Txt := List Char

/-- The characters of a string literal. -/
macro "t!" s:str : term => do
  let cs := s.getString.toList.toArray.map Lean.Syntax.mkCharLit
  `([$cs,*])

/-- `std::ostream << id` for an unsigned identifier. -/
def idTxt (i : Nat) : Txt := Nat.toDigits 10 i

/-- The state of a translator that was built by the default constructor (latex.hpp 109-116): the maps
`variable_strings_` (497) and `function_symbol_strings_` (563).  The other processors have no state;
for processors added by `add_processor` (191-194) see `Rt.LatexObj`. -/
structure Translator where
  vars : Nat → Option Txt
  syms : Nat → Nat → Option Txt

/-- `rt_latex_translator()`, latex.hpp 109-116. -/
def Translator.new : Translator := ⟨fun _ => none, fun _ _ => none⟩

/-- Copy constructor, latex.hpp 118-126.  It clones every processor; the `clone()` of the variable and of
the function symbol processor (458, 515) makes a new processor with an empty map. -/
def Translator.copy (_ : Translator) : Translator := ⟨fun _ => none, fun _ _ => none⟩

/-- `customize(e, output)`, latex.hpp 174-188, 471-480, 528-538.  For an expression that is neither a
variable nor a function symbol no processor reacts and there is only a warning. -/
def Translator.customize (t : Translator) : Expr K → Txt → Translator
  | .var i, s => { t with vars := fun j => if j = i then some s else t.vars j }
  | .fsym i g, s => { t with syms := fun j h => if j = i ∧ h = g then some s else t.syms j h }
  | _, _ => t

/-- End of `process_impl`, latex.hpp 198-215: an empty string counts as "not processed", and no other
processor accepts the node. -/
def orUnknown (s : Txt) : Txt :=
  if s = [] then " \\chi_{\\mathrm{unknown}} ".toList else s

/-- `op()->str()`, binary_op_tags.hpp 46, 64, 82, 100; unary_op_tags.hpp 41. -/
def BOp.str : BOp → Txt
  | .plus => "+".toList
  | .minus => "-".toList
  | .mult => "*".toList
  | .div => "/".toList
  | .uid => "id".toList

/-- `rt_latex_variable_processor::process_impl`, latex.hpp 484-495. -/
def latexVar (t : Translator) (i : Nat) : Txt :=
  match t.vars i with
  | some s => s
  | none => " x_{".toList ++ idTxt i ++ "} ".toList

/-- `rt_latex_function_symbol_processor::process_impl`, latex.hpp 542-561 (`test_tag<>::tag_id()` is 1,
ct_function_symbol.hpp 62). -/
def latexSym (t : Translator) (i g : Nat) : Txt :=
  match t.syms i g with
  | some s => s
  | none => (if g = 1 then " v_{".toList else " u_{".toList) ++ idTxt i ++ "} ".toList

/-- `rt_latex_translator::operator()(e, use_parenthesis)`, latex.hpp 141-153, 198-215, with the processors
for binary expressions (254-291), unary expressions (326-400), constants (434-439), variables and
function symbols.  `fmt` is `std::ostream << number`.  No processor accepts a vector expression. -/
def latex (fmt : K → Txt) (t : Translator) : Bool → Expr K → Txt
  | _, .const c => orUnknown (" ".toList ++ fmt c ++ " ".toList)
  | _, .var i => orUnknown (latexVar t i)
  | _, .fsym i g => orUnknown (latexSym t i g)
  | _, .vec _ => orUnknown []
  | p, .bin .div l r => orUnknown <|
      (if p then " \\left( ".toList else []) ++
      " \\frac{".toList ++ latex fmt t false l ++ "}{".toList ++ latex fmt t false r ++ "} ".toList ++
      (if p then " \\right) ".toList else [])
  | p, .bin op l r => orUnknown <|
      (if p then "(".toList else []) ++
      latex fmt t (op = .mult) l ++
      (if op = .mult then " \\cdot ".toList else " ".toList ++ op.str ++ " ".toList) ++
      latex fmt t (op = .mult || op = .minus) r ++
      (if p then ")".toList else [])
  | p, .un (.fn .id) e => orUnknown <| latex fmt t p e
  | _, .un (.fn .exp) e => orUnknown <| " \\exp ".toList ++ latex fmt t true e ++ " ".toList
  | _, .un (.fn .sin) e => orUnknown <| " \\sin ".toList ++ latex fmt t true e ++ " ".toList
  | _, .un (.fn .cos) e => orUnknown <| " \\cos ".toList ++ latex fmt t true e ++ " ".toList
  | _, .un (.fn .tan) e => orUnknown <| " \\tan ".toList ++ latex fmt t true e ++ " ".toList
  | _, .un (.fn .fabs) e => orUnknown <| " \\left|".toList ++ latex fmt t false e ++ "\\right| ".toList
  | _, .un (.fn .sqrt) e => orUnknown <| " \\sqrt{".toList ++ latex fmt t false e ++ "} ".toList
  | _, .un (.fn .log) e => orUnknown <| " \\ln ".toList ++ latex fmt t true e ++ " ".toList
  | _, .un (.fn .log10) e => orUnknown <| " \\log ".toList ++ latex fmt t true e ++ " ".toList
  | _, .un .grad e => orUnknown <| " \\nabla ".toList ++ latex fmt t true e ++ " ".toList
  | _, .un .divg e => orUnknown <| " \\nabla \\cdot ".toList ++ latex fmt t true e ++ " ".toList
  | _, .un (.pd i) e => orUnknown <| " \\frac{\\partial ".toList ++ latex fmt t true e ++
      "}{\\partial ".toList ++ orUnknown (latexVar t i) ++ "} ".toList
  | _, .un (.symInt id) e => orUnknown <| " \\int_{\\Omega_{".toList ++ idTxt id ++ "}} ".toList ++
      latex fmt t false e ++ " ".toList ++ " \\: \\mathrm{d} \\Omega ".toList
  | _, .integ lo hi x e => orUnknown <| " \\int_{ ".toList ++
      (" [ ".toList ++ latex fmt t false lo ++ "; ".toList ++ latex fmt t false hi ++ " ] ".toList) ++
      " } ".toList ++ latex fmt t false e ++ " ".toList ++ " \\: \\mathrm{d} ".toList ++
      orUnknown (latexVar t x) ++ " ".toList

/-- `operator()(rt_equation)`, latex.hpp 154-160. -/
def latexEq (fmt : K → Txt) (t : Translator) (lhs rhs : Expr K) : Txt :=
  latex fmt t false lhs ++ " = ".toList ++ latex fmt t false rhs

/-- `operator()(rt_interval)`, latex.hpp 161-167. -/
def latexInterval (fmt : K → Txt) (t : Translator) (lower upper : Expr K) : Txt :=
  " [ ".toList ++ latex fmt t false lower ++ "; ".toList ++ latex fmt t false upper ++ " ] ".toList

end VM
