# Formal model of ViennaMath: design

The library is C++ headers (`/repo/viennamath`).  Nothing here builds or runs the C++: the
model in `lean/Verif` is a hand transcription, and every definition cites the file and lines it
models.  This document says what is modelled, what is not, how each property is proved, and what
has to be trusted.

## Trusted base

* The Lean 4.33 kernel and the Mathlib definitions the statements use (`Real`, `HasDerivAt`,
  `intervalIntegral`, ...).
* Axioms: only `propext`, `Classical.choice`, `Quot.sound` (no axioms added, no `sorry`,
  no `native_decide`, no `bv_decide`).  `lean/Verif/Audit.lean` fails to build if a theorem in
  `VM.Props` depends on anything else.
* The transcription from C++ to Lean (this is a reading of the text, there is no extraction).
* The reading of the C++ language rules used below: unspecified order of evaluation of function
  arguments, `dynamic_cast` returning null on a kind mismatch, partial ordering of class template
  specialisations (ambiguity is a compile error), overflow in a constant expression being a compile
  error, 64 bit `long` and 32 bit `int`.

`lean/Verif/Conformance.lean` runs statements of the library's own test programs (`compiletime_test.cpp`,
`compiletime_evaluation.cpp`, `compiletime_manipulation.cpp`, `diff_test.cpp`, `equation_test.cpp`) and of the tutorials
(`basic.cpp`, `substitute.cpp`, `model_benchmark.cpp`, `integration.cpp`, `vector_expr.cpp`) in the model: what compiles
there compiles in the model, with the expected values.  These are tests of the transcription, not proofs; nothing depends on them.

## What is modelled

| Area | Lean modules | C++ |
|---|---|---|
| outcome of a C++ call: value / exception / undefined behaviour | `Res` | exceptions in `exception.hpp`, asserts, null dereference |
| numeric type and its operations; instances `XRat`, `XReal`, `Fl R`, `Ieee R` | `Num`, `NumRat`, `NumReal`, `NumFl`, `NumIeee` | `unary_op_tags.hpp`, `binary_op_tags.hpp`, `<cmath>` |
| run-time expression trees | `Rt.Expr` | `runtime/*.hpp` node classes |
| eval, unwrap, is_constant | `Rt.Eval` | same |
| deep_equal | `Rt.Equal` | `runtime/*`, `unary_op_tags.hpp` |
| simplify, can_simplify, inplace_simplify | `Rt.Simplify` | `manipulation/simplify.hpp`, `detail/binary_operations.hpp` |
| diff | `Rt.Diff` | `manipulation/diff.hpp`, `detail/*_operations.hpp` |
| substitute | `Rt.Subst` | `manipulation/substitute.hpp`, node classes |
| traversal and manipulation | `Rt.Traverse` | node classes, `functor_wrapper.hpp` |
| quadrature | `Rt.Quadrature` | `runtime/numerical_quadrature.hpp` |
| functions with local objects, `apply_coordinate_system` in memory | `Rt.Body` | `apply_coordinate_system.hpp` 38-171, user code |
| `recursive_manipulation` in memory, functors of the user | `Rt.ManipHeap` | `functor_wrapper.hpp` 36-65, `expression_interface.hpp` 75, `unary_expr.hpp` 320-327, `binary_expr.hpp` 421-429 |
| functor wrappers, `callback_if_castable`, the functor of the traversal tutorial | `Rt.Wrapper` | `functor_wrapper.hpp` 49-65, 90-132, `examples/tutorials/traversal.cpp` 36-56 |
| what a failing quadrature throws | `Rt.QuadThrow` | `runtime/numerical_quadrature.hpp` 69-80, 131-206, `exception.hpp` 31-34 |
| constants of other scalar types | `Rt.Scalar` | `runtime/constant.hpp` 38-136, `latex.hpp` 416-439 |
| operators with constants of any scalar type | `Ct.TypedOps` | `promote_traits.hpp` 29-122, `operations/constant.hpp` 38-198, `operations/ct_constant.hpp`, `operations/ct_expr.hpp` |
| shallow comparison and text | `Rt.Shallow` | `expression_interface.hpp` 52-69 and the overriders in `constant.hpp`, `variable.hpp`, `function_symbol.hpp`, `unary_expr.hpp`, `binary_expr.hpp`, `vector_expr.hpp` |
| Newton solver in memory | `Rt.NewtonA` | `examples/tutorials/newton_solve.cpp` 34-103 |
| threads with calls that read | `Rt.Jobs` | `runtime/expr.hpp` 223-237, 271-288; `manipulation/latex.hpp` 141-148; `runtime/numerical_quadrature.hpp` 131-206; `examples/tutorials/newton_solve.cpp` 75-103 |
| manipulation with functors that have a state | `Rt/ManipState` | `runtime/binary_expr.hpp` 421-429, `runtime/unary_expr.hpp` 320-327, `runtime/expression_interface.hpp` 75, `runtime/functor_wrapper.hpp` 36-65 |
| the same, in memory | `Rt/ManipAgent` | `runtime/binary_expr.hpp` 421-429, `runtime/unary_expr.hpp` 320-327, `runtime/expression_interface.hpp` 75, `runtime/functor_wrapper.hpp` 36-65, `runtime/expr.hpp` 51 |
| traversal functors with a state | `Rt/Walk` | `runtime/binary_expr.hpp` 432-442, `runtime/unary_expr.hpp` 330-334, `runtime/expression_interface.hpp` 77, `runtime/functor_wrapper.hpp` 77-120 |
| depth of template instantiations | `Ct/Depth` | `manipulation/simplify.hpp` 36-879, `forwards.h` 656-675 |
| vectors, coordinate systems | `Rt.Vector`, `Rt.Coords` | `vector_expr.hpp`, `apply_coordinate_system.hpp` |
| quadrature objects and the rules they own | `Rt.QuadObj` | `runtime/numerical_quadrature.hpp` 88-233 |
| LaTeX, down to the characters | `Rt.Latex` | `manipulation/latex.hpp` |
| LaTeX translators as objects owning processors, processors of the user | `Rt.LatexObj` | `manipulation/latex.hpp` 60-217 |
| Memory used by numerical integration and by the LaTeX translator | `Rt.HeapRead` | `runtime/numerical_quadrature.hpp` 69-80, 131-206, `manipulation/latex.hpp` 141-167, 198-215, 254-291, 326-400 |
| stream output, down to the characters | `Rt.Print` | `deep_str` of the node classes, `operator<<` in `runtime/expr.hpp`, `runtime/equation.hpp` |
| heap: nodes, clone, delete | `Rt.Heap` | `clone()` and destructors of the node classes |
| the heap operations of simplify, diff, substitute and substitution of intervals | `Rt.HeapAlg` | `runtime/*.hpp`, `detail/*_operations.hpp`, `manipulation/{simplify,diff,substitute}.hpp` |
| programs over expression objects, including conversion of compile-time expressions | `Rt.HeapProg` | `runtime/expr.hpp`, `runtime/binary_expr.hpp`, `runtime/unary_expr.hpp` |
| equations and intervals as objects of such programs | `Rt.Pair` | `runtime/equation.hpp` 30-55, `runtime/interval.hpp` 30-64 |
| vectors of expressions as objects of such programs | `Rt.VecObj` | `runtime/vector_expr.hpp` 36-82, 246-299; copy constructor, assignment (equal sizes) and destructor of `std::vector` |
| the same calls of eval, deep_equal, simplify, diff and substitute, and of substitution of lists and numerical quadrature, counted | `Rt.Timed`, `Rt.TimedMore` | as for these functions |
| threads that use expression objects | `Rt.Threads` | the same, interleaved access by access |
| compile-time expressions, `long`/`int` constant expressions (64/32 bit) | `Ct.Expr` | `compiletime/*` |
| compile-time simplify: the 54 partial specialisations, exact choice of the most specialised one, and the relation with an arbitrary choice | `Ct.Simplify` | `manipulation/simplify.hpp` 36-879 |
| compile-time eval | `Ct.Eval` | `manipulation/eval.hpp` 34-139 |
| compile-time expand | `Ct.Expand` | `manipulation/expand.hpp` |
| compile-time substitute, diff, coefficient, drop_dependent_terms, integrate | `Ct.Manip` | `manipulation/*.hpp` |
| the operator overloads | `Ct.Ops` | `compiletime/operations/*`, `runtime/operations/constant.hpp`, `rt_rt.hpp` |
| calls of compile-time expressions, conversion to run-time ones | `Ct.Convert` | `ct_binary_expr.hpp`, `runtime/expr.hpp`, `runtime/binary_expr.hpp` |
| formulas as written, the functions `exp`, `sin`, ... and all operand types | `Ct.Written` | `detail/unary_operations.hpp`, `rt_rt.hpp`, `runtime/expr.hpp` |
| Newton solver of the tutorial | `Rt.Newton` | `examples/tutorials/newton_solve.cpp` 34-103 |
| weak forms as written | `Ct.Form` | `vector_expr.hpp`, `detail/unary_operations.hpp` 666-740, `runtime/integral.hpp` |
| the overloads of `eval()` | `Ct.EvalFn` | `manipulation/eval.hpp` |
| stream output of compile-time objects | `Ct.Print` | `operator<<` in `compiletime/*.hpp` |
| vector objects and their lifetimes | `Ct.VectorObj` | `compiletime/ct_vector.hpp`, `runtime/expr.hpp` |
| overload resolution for `simplify`, `diff`, `substitute` by argument class | `Ct.Overload` | `manipulation/{simplify,diff,substitute}.hpp` |
| `make_equation`, `make_interval` | `Ct.Sides` | `{runtime/,compiletime/ct_}{equation,interval}.hpp` |
| threads, memory that is used again | `Rt.Threads`, `Rt.Reuse` | the heap model, access by access |
| call operators of the run-time classes, run-time overloads of `eval()` | `Rt.Call` | `runtime/{variable,constant,expr,unary_expr,binary_expr}.hpp`, `manipulation/eval.hpp` |
| thrown objects, their texts, handlers | `Rt.Throw` | `exception.hpp`, `throw` statements of the node classes |

Specifications (what the property theorems talk about, independent of the model's helpers) are in
`Verif.Spec.*`; property theorems are in `Verif.Props.*`, apart from helper lemmas.

### Numbers

`double` is an abstract type `K` with operations and *no laws* (`class Num`).  Structural theorems
(termination, exceptions, equality, traversal, ...) hold for every such `K`, so for IEEE doubles,
NaN included.  Theorems which need arithmetic facts say which:

* `SimpLaws`: the few neutral-element laws that the simplifier uses, plus an absorbing predicate
  `bad` ("undefined / non-finite").  No associativity, commutativity or distributivity is required,
  so rounded arithmetic qualifies.  Signed zeros are identified and infinities/NaN are all `bad`.
* `XReal = Option ℝ`, exact real arithmetic where division by 0, `log x` for `x <= 0`, `sqrt x` for
  `x < 0` and `tan` at its poles give `none` (so Lean's `x / 0 = 0` never makes a theorem true for
  the wrong reason).  Used for calculus (derivatives, integrals).
* `Fl R` (C68), floating point numbers in the standard model: `R : Rounding` gives the representable finite numbers, how
  exact results are rounded to them (relative error `eps`, absolute error `eta` near zero, overflow beyond `top`), and
  what the library returns for `exp`, `sin`, ... (within the same accuracy before rounding).  Nothing else is assumed
  about `R`.  Infinities and NaN are one value; the sign of zero is not kept.  `chop k T` is a concrete `R`.
* `Ieee R` (C77), the same with two zeros, two infinities and NaN: the special cases of the operators are those of IEEE 754
  in rounding to nearest, the special cases of the functions those of annex F of the C standard.
* `XRat = Option ℚ`: computable, used for the worked examples.

### Evaluation order

`op_->apply(lhs_->eval(v), rhs_->eval(v))` leaves the order of the two evaluations to the compiler.
The model takes an oracle choosing the order at each binary node and theorems quantify over it.

### Undefined behaviour

Out-of-range vector reads, null dereferences, use after free and failed `assert`s are the outcome
`ub`.  They are never assumed away: a theorem either shows `ub` does not happen or says when it does.

## Not modelled

* Template instantiation mechanics beyond: choice among partial specialisations (compile-time simplify),
  choice among the operator overloads, and "does not compile" as the outcome `none`.
* the text thrown by the LaTeX translator for an unknown operator (there is none in the library).
* Floating-point rounding in calculus theorems other than C68 (exact reals are used there); the sign of zero and the
  difference between infinities and NaN other than in C77; rounding modes other than to nearest, floating point exceptions.
* Threads other than in C72 and C103; the library has no shared mutable state, and nothing in it synchronises.
* `ct_unary_expr`.  The class takes `numeric_type` from its operation (`compiletime/ct_unary_expr.hpp` 43), which the
  operations in `compiletime/unary_op_tags.hpp` do not have, so that no object of it can be made with them; its
  `operator()` (55-60) uses a member that does not exist; and no operator of the library builds one.
* `rt_unary_expr` objects of the user's program whose operator is an integral (integrals inside an `rt_expr` are
  modelled).
* Memory exhaustion, except in the heap model (C67).  There the request for an operator object is one with the request
  for its node, except in assignments to an `rt_binary_expr` or `rt_unary_expr`, where the difference can be observed.
  The two arrays of pointers of `substitute(std::vector, std::vector, expr)` are not in that model (the substitution is).

## Property by property

The plan for each property in `properties.jsonl`.  The outcome (proved, partial, negation) is kept
current in `MANIFEST.json`, and disagreements between code and claim are listed at the end.

* C01-C04 evaluation: structural induction over expressions, oracle and vector arbitrary.
* C05 is_constant: induction; reachable expressions exclude the malformed binary node that
  `rt_binary_expr::operator=(number)` builds (see C24).
* C06 simplify value: each pass preserves the value, induction on the pass, then on the loop.
* C07 variables of simplify: subset lemma per pass, then the loop.
* C08 termination: a weight on expressions strictly decreases in each pass while can_simplify; the loop
  is first a relation/fuelled function, and the theorem says it reaches a fixed point.
* C09, C10 normal form: from `can_simplify = false`, induction.
* C11, C14 diff: `HasDerivAt` by induction, then simplify soundness.  C12: decision theorem.
  C13: simplification normal form of a "zero-derivative shape".
* C15-C19 substitution lemmas by induction, composed with simplify soundness.
* C20 is false of the code (integration variables are captured): negation with witness, and the partial
  statement for variables that are neither integration variables nor in bounds.
* C21, C22 deep_equal: proved when all vectors have one size, negations with witnesses otherwise; `Spec/Covers.lean` says for
  all expressions what the comparison takes for equal (`C21_when_equal`).  With integrals, the algorithms commute with
  forgetting intervals (`Spec/Blank.lean`), so that equal expressions are treated alike (`C22_treated_alike`).
* C23 heap: invariant over all operation histories, refinement to a store of independent values.  The
  histories include simplify, diff and substitute down to each allocation and release.
* C24 false of the code: negations with witnesses, partial for the sound assignments.
* C25, C26 higher-order inductions.
* C27, C28 quadrature over `XReal`; symbolic integral undefined behaviour as negation.
* C29 false of the code (ids ignored, nested integrals untouched): negations and partial.
* C30 coordinate systems, C31 vectors: induction, list sums.
* C32 LaTeX: unique readability of the printed characters against an independent grammar; C33: history
  induction, negation for copies.
* C34, C35 compile-time simplify as a nondeterministic relation: soundness by cases on the rule;
  termination by a weight.  C36 gcd: induction on the Euclidean recursion, int truncation as negation.
* C37-C42 compile-time metafunctions: induction against a rational/real semantics.
* C43 operator overloads: one algebraic identity per overload; E/E with run-time constants as negation.
  Which operands the operators accept at all is decided for products, for sums and differences without run-time
  constants, and for quotients of operands without run-time constants or with one as an operand.
* C44 conversion: induction.
* C45 printing: unique readability of the characters, by induction with an arbitrary continuation; `C45_object` for
  the stream operators of all run-time classes.
* C46 compile-time normal form: from "no specialisation that counts as a change applies", induction.
* C47 eval overloads: each is related to the value of the expression; integer truncation as negation.
* C49 formulas: induction over the formula, with C43 for the operators on compile-time objects and C44 for
  conversions; compilation of run-time formulas as a decision theorem.
* C50 vector objects: simulation between the store of references and a machine that keeps values.
* C51 equations and intervals: decision theorem for overload resolution; C49 for the values of the sides.
* C52 compile-time printing: unique readability, as C45; what compiles as a decision theorem.
* C53 growth: each pass, the derivative and the replacement are bounded node by node by induction; a family of
  expressions shows that the quadratic bound for derivatives has the right order.
* C54 repeated differentiation: at points where an expression is defined and smooth it denotes a C-infinity
  function (induction), both properties are open and kept by `diff` and simplify; the order is symmetry of the
  second derivative, then induction over permutations.
* C55 chain rule: total derivative of the denoted function along a curve, and C11 for both expressions.
* C56 overloads: resolution computed for every combination of classes (a complete finite domain), contents by
  induction; the compile-time derivative and substitution build node by node what the run-time ones build.
* C57 renaming: `rename` (Spec/Rename) gives new numbers to variables, integration variables, formal
  derivatives and function symbols, everywhere including bounds and vectors.  By induction over the expression it
  commutes with `is_constant`, `unwrap`, one pass and the loop of `simplify`, `deep_equal`, `diff`, both forms of
  `substitute` and the quadrature (`C57_*`).  Simplification and evaluation need no injectivity, the others do
  (`C57_identified`).  Not claimed for coordinate transformations (which fix variables 0, 1, 2) and for texts.
* C58 failures: every `throw` statement reached by evaluation, `unwrap` and `diff` is a `Site` with its text and
  the type thrown (Rt/Throw); `evalSite`, `unwrapSite`, `diffSite` say which one is reached, for any order of the
  operands, and are proved to agree with `eval`, `unwrap`, `diff`.  What a handler reads follows the rules of C++:
  `const char *` is not a `std::exception`, access to `what()` depends on the static type, and a pointer into a
  destroyed string is undefined behaviour.  Spec/Throw says what the texts mean.  Full claim for `diff`
  (`C58_diff`), partial for the others.  The quadrature: C97.
* C59 vectors under diff and substitute: entry by entry by induction over the list (`C59_diff`, `C59_diff_fails`,
  `C59_substitute`, `C59_substitute_fails`, any numbers); values in real arithmetic from the lemma behind C11
  (`C59_derivative`), the product rule for the dot product by an induction with two accumulators that splits
  the derivative of the expanded sum (`C59_dot`).
* C60 evaluating objects directly: `Rt/Call.lean` models the call operators of the run-time classes and the run-time
  overloads of `eval`, with the outcome "stopped by `assert`"; case distinction against `eval` of the `expr`
  (`C60_call_partial`, `C60_eval_partial`), which calls compile (`C60_call_compiles`, `C60_eval_is_call`).  Partial:
  `C60_later_variable` below.
* C61 LaTeX of formal operators and integrals: the grammar of C32 extended to them; reading a text back gives
  the expression up to a small congruence (`Regroup`), which conversely never changes a text.
* C62 quadrature objects: simulation between a memory with owned addresses and a machine of values, by an
  invariant (each rule in memory has one owner) over all programs.
* C63 weak forms: the meaning of an integrand for two given real functions is an inductive relation in `Spec.Weak`
  (gradients and divergences by Mathlib derivatives, products of vectors as sums); the user's program
  (coordinate system, derivatives for formal derivatives, expressions for symbols, interval, quadrature) is written
  out there too.  Proof: an interpretation of the symbolic nodes that loses one derivative or symbol per step.
* C64 weak forms as written: `Ct/Form.lean` extends the formulas of C49 by function symbols, vector objects, `grad`, `div`,
  `laplace`, `diff` of a function symbol and integrals over a symbolic interval; static types select the overloads.
  `Spec.Means` says in plain mathematics what a text means (numbers and vectors), `Spec.Direct` is the restriction,
  `Spec.Form.Faulty` the texts that do not compile.  By induction over the text the object built has the value meant in the
  sense of C63, then C63 applies.  Partial: the full claim is false.  Left out: sums of a vector object and something else,
  `diff` of other things than function symbols (C58, C60 treat its overloads), compile-time operands (C49).
* C65 Newton solver: `Rt/Newton.lean` models `newton_solve_impl` and the loop of `newton_solve` over the model of `diff`,
  `eval` and the equation, with exact real arithmetic and an undefined value; the loop runs on fuel and "returns" means
  "for some fuel".  The specification (`Spec/Newton.lean`) speaks of the functions the sides denote, their partial
  derivatives and the Euclidean norm.  `C65_step` is algebra on top of C11.  For `C65_quadratic` the Newton map is shown to
  be twice continuously differentiable at the solution with derivative 0; the derivative is locally Lipschitz, so the mean
  value inequality gives the square.  `C65_converges` is induction on the number of halvings until the residual is
  below `1e-10`.  `C65_result` is induction on the fuel.
* C66 error of numerical integration: no new model; the quadrature of C27/C28 and the derivatives of C54.  The integrand is
  the function the expression denotes along the axis of the integration variable.  `C66_error` compares the integrand with
  its tangent at the midpoint (a function that falls to zero and then rises is not negative) and integrates;
  `C66_composite` adds up the pieces by induction on their number; in `C66_converges` the bound on the second derivative
  comes from compactness.
* C67 allocation failure: the heap of C23/C48 carries an arbitrary set of failing requests; what destructors of local
  objects release while an exception is thrown is modelled (`owning`, `unwinding`).  Programs (`Client`) go on after an
  exception.  Same simulation as C23, with three outcomes of a statement (`Sim`).
* C68 rounding: `accurate` goes by induction over the expression; each operation is differentiable at its operands, so
  errors are handed on with a Lipschitz constant, and rounding adds one more.  The arithmetic satisfies the laws of the
  simplifier (`SimpLaws (Fl R)`), so simplification keeps results exactly; `diffE` maps nearby expressions to nearby
  expressions (`diffE_near`), which with the previous two gives the derivative.  Polynomial expressions have explicit
  bounds.  Not covered: repeated differentiation with rounded numbers.
* C69 rounding in quadrature: C27 and C28 hold in any arithmetic with the simplifier's laws, hence with rounded numbers;
  `accurate` bounds the bounds, the midpoint, the integrand and the product; C66 gives the error of the rule.
* C70 requests for memory: the heap counts every request.  `Spec.Work` states the bounds; `Rt.WorkLemmas` proves one
  for each function on the heap by induction over the expression (with the size bounds of C53 for results and the
  weight for the passes of the simplifier), `Rt.WorkProg` for statements, `Rt.Nested` counts exactly what derivatives of
  nested gradients keep and lose.  Reading memory is not counted.  A node and its operator object are one request, as in
  C67.
* C71 Newton solver with rounding: the model of the solver is generic in the numbers (`NumLt`: comparison and the literal
  `1e-10`, which is rounded like every other one).  `Rt/NewtonRounded.lean`: a step is accurate by C68 applied to the
  residuals, their derivatives and the formula of the update.  The exact iterates get below the tolerance after finitely
  many steps, the rounded ones follow them for that many steps, and the comparison stops the loop at the latest there.
  The square root of the norm is only continuous at 0, which is why the result holds up to a tolerance and not up to a
  multiple of the accuracy; a norm that is NaN (a rounded sum of squares may be negative in this model) also stops the
  loop, and only near a solution.  `C71_endless` computes the cycle of `(x + 2^k) - 2^k = 1/2` with `k + 1` digits.
* C72 threads (Rt/Threads.lean, Spec/Threads.lean, Props/Threads.lean): a thread is a tree of single accesses to memory
  (`Code`: read a node, request memory, release a node), each of which may depend on what the accesses before have found;
  the machine interleaves the accesses of all threads in an arbitrary order. `Runs` ties such a tree to a program of the
  heap model: alone, in every memory, it does what the program does; that every program has one is proved
  (`C72_exist`), by going through all definitions of the heap model. Proof: the nodes reachable from shared objects, those of
  the objects of each thread and the names each thread gets for its requests are disjoint; each thread stays, step by step,
  where its own run in the memory it can reach would be; that run is covered by the simulation of C67. That shared nodes
  survive a run follows from the values of shared objects and pointers being unchanged. Assumptions: memory is
  sequentially consistent, which C++ guarantees for programs without data races, and the absence of these is a part of
  the theorem; the allocator of C++ is safe to call from several threads; addresses are names, and each thread gets names of its
  own (reuse of released addresses: C79). Reading accesses of evaluation and printing are not
  programs of their own: the theorem says what shared objects show at every moment. `C72_race` shows that the condition
  is needed. The library has no static or `mutable` data.
* C73 unary expression objects: corollaries of the simulation of C23, with the new statements in it.
* C74 weak forms element by element: no new model; `Spec.element` is the user's program of C63 for one element.
  `C74_element` is C63 and the error of the midpoint rule (C66), by induction over the form; the sums by additivity of
  the integral.
* C75 translators as objects: a memory of processors by address, each translator a list of addresses; the specification
  (`Spec.LatexObj`) is the same program on translators that hold their processors as values.  Simulation by the invariant
  that each live processor has exactly one owner.  The compiler generates the assignment, and it copies the pointers:
  `C75_values_partial`, `C75_owners_partial`, `C75_no_leak_partial` hold for programs that assign no translator to
  another one; `C75_assigned_twice_deleted`, `C75_assigned_lost` and `C75_assigned_shares` refute the rest, from every
  reachable state.  `C75_shape`, `C75_library`, `C75_added`, `C75_user` relate the texts to `Rt.Latex` (C31 to C33).  A
  processor of the user is a function of its state, the expression and the texts of the operands; it may not throw.
* C76 calls that only read: `Rt.HeapRead` writes the rule, the sums of integrals and the translator as actions on the
  heap, with every `rt_expr` temporary made, destroyed, and destroyed while an exception passes (`withTemp`).  `Gives`
  relates an action to the function on expressions (`quadOf`, `latex`) and to the nodes left behind; `onlyReads_of` lifts
  it to every state a program reaches (the simulation of C67).  Simplified: the two factors of the one-point rule are
  computed after both temporaries are made; operands deeper in an expression are passed as they are; strings and streams
  are values, so that only nodes are counted.  The specification (`Spec.OnlyReads`) speaks about memory and outcome only.
* C77 IEEE numbers: `RunZ` is evaluation without division by zero; one pass of the simplifier (`Pass`), substitution and
  structural equality preserve it up to `SameNum`, by induction, because every operation but division by zero respects
  `SameNum` and NaN is absorbing.  `C77_finite` relates it to the arithmetic of C68.  The claim without the condition is
  false (`C77_sign_of_zero`, `C77_equal_zeros`), so the theorems are partial.
  `C77_arithmetic` and `C77_functions` compare the arithmetic of the model with rounded arithmetic of extended real numbers
  and with limits of the functions.
* C78 equations and intervals: a pair is two `rt_expr` objects of the heap model (`first p`, `second p`) and a class; each
  statement on pairs (`Rt/Pair.lean`) is a sequence of statements on the members, with the destructor of the first member
  when the construction of the second throws.  The simulation of C67 is extended statement by statement
  (`Rt/PairLemmas.lean`).  Assignment of intervals falls off the end of a function with a result and is `ub`, so the claim is
  partial (`C78_interval_assign`, `C78_interval_assign_undefined`).
* C79 reuse of released memory (Rt/Reuse.lean, Spec/Reuse.lean, Props/Reuse.lean): the heap of C23 and the machine of C72
  use every address once, so that every access to released memory is an error that is seen.  `Reuser` is the same machine
  with memory by address, in which a request is given any address not in use; a pointer has a name (which tells the
  theorem where it came from) and a value, and only the value matters for an access, so a stale pointer reads whatever is
  there now (`C79_stale`).  Proof: as long as the machine of C72 meets no undefined behaviour, the live names have
  different addresses and the two machines find the same (`Stands`); C67 and C72 say that it meets none.  Assumption: the code
  does not look at the values of pointers (it compares them with `NULL` only).
* C80 vectors as objects (Rt/VecObj.lean, Spec/VecObj.lean, Props/VecObj.lean): vector `v` is a size and the `rt_expr` objects
  `entry v 0`, `entry v 1`, ...; the statements are loops of statements on the entries, with the destructor of the local
  vector when something throws.  In the specification a vector is a list of values, and `VStore.all` says which numbers its
  entries have.  The simulation of C67 is extended loop by loop, by induction over the entries (`assign_loop`, `copyAll_ends`,
  `dot_loop`).  Simplifications: `result` is returned without a copy; entries are destroyed from the last one; the scalar
  operand of `*` and `/` is an `rt_expr`.  Left out: assignment between different sizes (new memory of `std::vector`),
  `resize`, `push_back` and the like.
* C81 number of calls (Rt/Timed.lean, Rt/TimedMore.lean, Props/Timed.lean): `eval`, `is_constant`, `unwrap`, `deep_equal`, `can_simplify`,
  `simplify`, `diff`, `substitute` are written once more in a monad that counts the calls on nodes, with the short circuits
  of `&&` and `||` and the second derivative taken by gradients; each theorem says that the result is that of the plain
  function and bounds the count, by induction over the expression and over the passes of the simplifier.  `clone()` and
  destructors are not counted (C70 counts requests; every object is destroyed at most once).  Calls of member functions
  of operators are not counted: there is at most a fixed number for each call counted.
* C82 simplifying parts first: `Sweeps` (Spec/BottomUp.lean) sweeps an expression from the leaves up, without
  looking at the passes; products of vectors are written out and swept.  `bottomUp` is the same as a function, for
  expressions without such products.  `PartsSimplified` replaces any parts by what the loop makes of them.
  Each pass keeps the outcome of the sweep (induction over `Pass`, Rt/SweepLemmas.lean), and an expression
  without trivial operations (C09) and products of vectors is its own outcome.  The conditions in the quantifier are
  the side conditions of `Sweeps`; without them the claim is false (`C82_function_of_constants`,
  `C82_undefined_part`).  Numbers: `SimpLaws`, symmetric and transitive `==`, `0 == 1` false.
* C83 composed substitutions: `put` (Spec/BottomUp.lean) replaces variables and simplifies nothing;
  substitution is the outcome of the sweep (C82) of it.  Sweeping the expression, or the replacements, before
  replacing does not change the outcome afterwards (`sweeps_put`, `sweeps_put_congr`, induction over the sweep and
  over the expression); the composition laws then follow from those of `put`.  The conditions of C82 are required of
  the substituted expression, and the first variable must not occur in a vector (entries of vectors are not
  simplified); the claim is false without them (`C83_function_of_constants`, `C83_undefined`, `C83_vectors`).
* C84 integer polynomials: `SaysPoly` (Spec/Exact.lean) relates an expression over IEEE numbers (the model of C77) with a
  polynomial of Mathlib, a bound of all its parts and the number of factors.  Every pass of the simplifier,
  differentiation and substitution keep the relation, and evaluation is exact within the bound (induction over the
  relation).  `C84_binary` shows that a binary format has the integers needed, `C84_too_large` that not more will do.
* C85 derivatives and values: over exact reals; the regular points of C54.  Near a regular point expressions denote
  smooth functions and the results of `diff` their partial derivatives (C11, C54), so equal functions give equal
  derivatives; simplification of parts keeps regular points and values (induction over `PartsSimplified`).  Taylor's
  formula and the mean value theorem are Mathlib's, applied to these functions.
* C86 functions with local objects: code is a tree (`Body`) of statements of C23 with local objects, results, sequences
  and `try` blocks; destructors run also if an exception passes.  Refinement to independent values by induction over
  the code (`body_sim`); which objects a function can change is read off its code (`Returns`, `Procedure`, `Assigns`),
  by induction (`body_did`).  `apply_coordinate_system` is written as such code, with every temporary.
  Simplifications: function symbols and vectors with the derivatives are local `rt_expr` objects (in C++ the objects
  themselves are on the stack), vectors are built when their entries are known, operands are evaluated from left to
  right, the copy on return is elided.
* C87 functors of the user in memory: the functor is an arbitrary function from addresses to code on the heap that meets
  the contract in the comment of functor_wrapper.hpp 42 (`GivesAway`); `recursive_manipulation` is a function on the heap
  (`manipFN`), compared with `manipulate` by induction over the expression; the objects by the refinement of C86.
  That the contract can be met: every functor described by a `Recipe`.  For a functor that returns its argument: every
  result contains a node of the argument (induction), and below a freed node nothing can be read or deleted.
  The functor computes a function of the expression; functors with a state of their own are left out.
* C88 what results mention: `Mentions` (Spec/Mentions) is an inductive relation between names or kinds of objects and
  expressions, bounds and entries of vectors included.  By induction over the pass of the simplifier and over the
  expression, every set of items that contains those of the argument (and, once a part is found, those of the
  replacement) contains those of the result.
* C89 integration and differentiation: the fundamental theorem of calculus (Mathlib) with C11, C66 and C88 at run time,
  with C38 and C42 at compile time; the derivative of a polynomial is one (induction), an expression defined at a point is
  defined nearby, derivatives are unique.
* C90 functor wrappers: `WMem` (Rt/Wrapper) has functors at addresses and wrappers with an `auto_ptr`; deleting or calling
  what is gone or null is undefined.  The specification (Spec/Wrapper) has no addresses: a wrapper has a functor or none.
  Refinement by an invariant over all programs.  Partial: a copy empties the original (`C90_copy_partial`).
* C91 typed callbacks: `dispatch` (Rt/Wrapper) over any table of distinct classes, by induction over the table, and C25 for
  traversals.
* C92 compile time and run time: conversion (`toRt`) commutes with the passes of differentiation and substitution, by
  induction over the compile-time expression; values by C34, C44 and C06; integrals by C42, C66 and C27.
* C93 a coordinate system is applied once: by C30 nothing is left to find, and the result of `simplify` cannot be
  simplified further.
* C94 programs as functions: `Spec/Calc.lean` gives each statement a meaning on functions of `n` real variables with open
  domains, without mentioning expressions.  Invariant over the statements (`StoreStands`): the expression an object shows
  is smooth and, on the domain, regular with the value of the function; with C11, C54, C55 for the calls and C23 for the
  memory.
* C95 nested integrals: induction over the list of integrations from the inside to the outside, with C42 at each step; an
  integral of polynomials has no variables in denominators again (`ctIntegrate_parts`), so it is defined everywhere if it is
  anywhere.  Numbers by C46; the order over a box by Fubini's theorem.  Partial: a parameter standing alone (C42) makes the
  inner integral wrong, `C95_lone_wrong`; on the unit triangle of the tests the error does not show, by symmetry.
* C96 repeated coefficients: the values of an expression polynomial in x are those of a Mathlib polynomial; `coefficient`
  divides it by x without remainder (C41 away from x = 0, continuity of polynomials over an infinite field at x = 0), so k
  times it shifts the coefficients by k.  Derivatives by C38 and uniqueness of derivatives.  Partial only where
  drop_dependent_terms does not compile (C41).
* C97 failing integrations: the thrown objects of the quadrature as in C58 (`quadOffer`, following the lines of `quadOf`);
  nothing but unwrapping the integrand at the midpoint throws there, and substitution and simplification make no new nodes
  (`midpoint_outside`), so the text is true of the integrand.  Partial: formal derivatives throw a string.
* C98 compile-time derivatives of higher order: no new model; sequences of `ctDiff`, `ctSimplify` and `expand`
  (`CtStep.run`, none when a number leaves the range of `int`).  Expressions denote smooth functions on the open set
  where they are defined, so C34, C37 and C38 hold in a neighbourhood and Schwarz's theorem applies.  Exact arithmetic.
* C99 scalar types of constants: `Rt/Scalar.lean` writes the functions that look at constants once more, over
  expressions whose constants carry `double`, `float`, `int` or `long` (`TExpr`); everywhere else a constant is a number
  of the numeric type.  `untyped` forgets the types; each function commutes with it, for equality, substitution,
  Gateaux derivatives of gradients and LaTeX only under conditions on the constants (the negations are proved).
  Arithmetic in the scalar types happens only in the operators of compile-time expressions (C100).
* C100 operators with typed constants: `Ct/TypedOps.lean` repeats the operators of C43 with `promote_traits`, the type C++
  computes in (usual arithmetic conversions, written down from the standard) and undefined overflow.  Proved by
  reduction to C43: forgetting the types commutes with the operators.  `float` and `double` are exact here.
* C101 shallow comparison and text: `Rt/Shallow.lean`, over the expressions of C99.  Case analysis on the outermost
  nodes; the kinds are listed in `Spec/Shallow.lean`.
* C102 Newton solver in memory: `Rt/NewtonA.lean` writes the solver with its six local objects over the heap model; the
  iteration is cut off after `fuel` tests.  By the lemmas of C76 on temporaries and reading calls every step, and by
  induction the loop, gives what the solver of C65 gives and leaves the allocated nodes as they were.
* C103 threads with calls: the programs of C72 with calls in between (`Rt/Jobs.lean`), each call the heap code of C76
  or C102.  Every call is shown to be a sequence of single accesses to memory; a program alone is compared with values
  by induction, and threads are compared with programs alone by the argument of C72, with an account of all memory at
  the end.
* C104 small numbers at compile time: the bound (`Spec/CtSmall.lean`) is computed from the expression alone.  That no
  specialisation makes it larger, nor leaves the range of `int` when it is at most `2 ^ 31`, is shown for each of them;
  the rest is induction over the expression and the turns of the loop.
* C105 functors with a state: the log of calls (`Spec/ManipState.lean`) is described by rules on positions; the model
  threads the state through the calls, with the order of the operands of each node left open.  By induction over the
  expression the calls have a recursive shape, and that shape obeys the rules.
* C106 derivatives of polynomials: `Spec/Degree.lean` says what is written as a polynomial of which degree.  The raw
  derivative is below the next degree if terms that are 0 by their shape count as lower than degree 0; a pass of the
  simplifier keeps that bound; and an expression that cannot be simplified any more has no such terms but the constant 0.
* C107 functors with a state, in memory: both functions of the functor are arbitrary code on the heap and the state; the
  contract (`Spec/ManipAgent.lean`) says what they answer, that results are given away, and that what the state refers to
  stays in order.  By induction over the expression the code does what the model of C105 says, with positions turned into
  addresses; the object made from the result fits the simulation of C86.
* C108 traversal functors with a state: as C105, with calls of `step_into` and `operator()` (`Spec/Walk.lean`).  The
  calls made are described by recursion, and shown to obey the rules; `C108_only` shows that the rules leave no choice, by
  finding that the next call is determined by those so far.  `C108_visitor` ties the model to that of C25.
* C109 simplified results (`Spec/Tidy.lean`): replacing keeps expressions well-formed (induction on `Replaced`, C16),
  then C09 applies.  `C109_numbers` goes by induction on the expression, with C10 at the end; it needs no law of the
  numbers.  The two limits (symbolic intervals, entries of vectors) are shown on witnesses.
* C110 degrees at compile time (`Spec/CtDegree.lean`, `Ct/DegreeLemmas.lean`): the invariant `BelowC S n` (degree less than
  `n`, where 0 and products with 0 have degree less than anything) is lowered by differentiation and kept by every
  specialisation of `simplify_impl`, whichever of the matching ones is taken, and by `expand`.  What is simplified and of
  degree less than 0 is the constant 0 (C46).  Values come from C98.
* C111 template depth (`Ct/Depth.lean`): one level for each class template under instantiation (`simplify`, `simplify_impl`,
  `gcd`).  The loop turns at most `weight` times, the weight goes down with every turn and bounds the height, so turns and
  height do not add up.  `gcd` by Lamé's theorem (Fibonacci numbers).  `C111_counted` ties the count to the modelled
  functions: which specialisations instantiate `gcd`, and on what.  Levels that a compiler counts besides classes (default
  template arguments, the function template `simplify`) are not counted; nor are `diff` and `expand` themselves.
* C112, C113 addends of expanded expressions: `Spec.choices` multiplies an expression out on paper (lists of signed
  addends, factors as multisets, denominators by their value as functions); induction along the instantiations shows that
  `expand` keeps them, and an expanded expression shows them (`ctPieces`).  C113 is partial: `expand_with_factor` leaves the
  denominator of a quotient as it is, a second `expand` expands it (`C113_changes_again`); `C113_settles` bounds the calls by
  the nesting of denominators.
* C114 well set text (`Spec/LatexWell.lean`): a reader with a stack that knows commands, `\left` and `\right` but not
  expressions.  Induction on the expression; a text that is well set can be put into any other (frame lemma).  Texts given
  to `customize` have to be well set themselves (`C114_given`).  The commands are listed (`latexWords`), together with
  those of the user.  With processors of the user (`C114_processors`): an invariant of the memory over all programs that
  use translators; the processors have to keep texts well set (`TidyClass`).  What TeX demands besides (no two
  subscripts in a row, arguments of commands) is not part of the claim.
* C115 height (`Spec/Height.lean`): `reach` (height with vectors as deep as their sums) is a measure that no pass of
  simplification increases; induction on the expression for the rest.  Families of expressions show that the bounds for
  `diff` and `substitute` are reached.
* C116 size of compile-time results (`Ct/NodesLemmas.lean`): one case for each specialisation of `simplify_impl`, then
  induction on the expression.  `C116_diff_sharp` and `C116_integrate_sharp` show that the bounds are needed.
* C117 nesting of calls (`Rt/Timed.lean`, field `depth`): the same functions as for C81 count how many calls are active at
  once.  Induction on the expression, with the measures of C115 for what an operation builds before it simplifies.
  Calls of `clone`, of destructors and of operators of the wrapper `rt_expr` are not counted; they add to each call
  the height of what is copied or destroyed.
* C118 order of pairs (`Rt/PairsLemmas.lean`): an expression that equals one of two expressions which `deep_equal` tells
  apart is told apart from the other (`deepEq_apart`, also where `deep_equal` is not symmetric or undefined), so that
  neighbouring pairs can be exchanged; induction on the permutation.  Integrals with different bounds count as equal
  (`C118_integrals`).
* C119 length of texts (`Spec/Labels.lean`, `Rt/LengthLemmas.lean`): induction over the expression; `labels` sums the
  lengths of the texts that are not fixed by the code.  The constant 64 is not the least possible one.
* C120 expressions that can be written (`Spec/Writable.lean`, `Ct/WritableLemmas.lean`): the formulas of C49; a formula
  is constructed for every expression by induction over it, and what operators and functions return is followed through
  all overloads in the other direction.  The undefined number is written as `1.0 / 0.0`.
* C121 folding by the compile-time operators (`Spec/Folded.lean`, `Ct/FoldedLemmas.lean`): each special overload is the case
  where something folds, and yields an expression with nothing to fold; the generic operator is the other case.
  Compilation: induction with a bound for all constants of the result.
* C48 memory of a call: each heap operation meets a frame condition (`Makes`), by induction over the tree it
  works on; leaks of the code as negations with witnesses.

## Where the code and the claims disagree

Each of these is a theorem (a negation with a witness, or an outcome of the model) unless marked *reading*,
which are observations made while transcribing that no theorem is about.

* C13: `diff(sqrt(0/y), x)` is the constant `0/0`.
* C20: `substitute` replaces bound integration variables, leaves bounds alone, and captures.  `C20_scoped` says what the result means in every case: names are looked up where they stand
  after the replacement (`Spec/Scoped.lean`).
* C21: comparing vectors of different sizes is undefined behaviour and not symmetric.
* C22: intervals of integrals are ignored by the comparison.
* C23: using an unset `expr` is undefined behaviour.
* C24: assigning a part of its own left operand to a `binary_expr` is undefined behaviour; assigning a number
  to one gives an object whose evaluation always throws.
* C28: a symbolic integral among the summands is a null dereference; the constant zero is accepted although
  there is no integral.
* C29: the searched interval is ignored, replaced integrals are not descended into, vectors are skipped.
* C30: coordinate systems leave integration bounds alone.
* C32: constants are printed with six digits; every tag other than the test tag prints as `u`.
* C33: copies of a translator forget the customisations; the empty string prints as the default name.
* C34, C36: numerators and denominators are cut to `int`; some expressions match two specialisations of which
  neither is more special, and do not compile.
* C37: denominators inside products are not expanded.
* C113: expand(((x+1)/((y+1)*z)) * w) keeps the denominator (y+1)*z, a second expand turns it into y*z + 1*z.
* C40: a quotient `a/b` given as such is not reduced; `c - 0` does not compile for most `c`.
* C41: `drop_dependent_terms` of `5 - x` and of `x * (x/2)` do not compile.
* C42: a parameter that stands alone is integrated as if it were the integration variable; integrals such as
  `∫_0^2 5 dx` and `∫_0^1 3x dx` do not compile.
* C43: `E1 / E2` is 1 whenever the types agree, even if the run-time constants inside differ.
* C44: a constant, or a combination of two constants, assigned to a `binary_expr` cannot be evaluated.
* C45: constants are printed with six digits; most function symbol tags print the same.
* C47: compile-time evaluation cuts intermediate numerators to `int`; `eval` of a lone `ct_variable` at a
  `std::vector` does not check the length.
* C49: `exp` has no overload for `rt_unary_expr`, so `exp(sin(x))` does not compile; a compile-time expression
  that holds a run-time constant cannot be combined with other compile-time expressions.
* C50: vectors with one or two entries hold references; made from a temporary they dangle, made from a variable they
  follow it.
* C51: `make_equation(2.0, constant(3.0))`, `make_interval(x, y)` for a compile-time `x` and a run-time `y`, and some
  more combinations do not compile; a `ct_equation` or `ct_interval` forgets run-time constants inside its sides.
* C52: `ct_function_symbol::str()` is private, so compile-time function symbols cannot be written to a stream; nor can
  equations and intervals with run-time constants inside their sides.
* C56: `simplify` of a compile-time object is ambiguous; `diff(x, y)` of two variables, `diff` of a vector,
  `substitute(x, expr, e)` and `substitute(x, 300, e)` do not compile; `inplace_simplify` of a unary or binary
  expression object does not compile; substituting a run-time object into a compile-time expression forgets the
  contents of the object; searching an `expr` in a compile-time expression finds nothing; `diff(u, x)` is a formal
  derivative but `diff(expr(u), x)` throws; substituting lists or an interval in a compile-time expression compiles
  and does nothing, in the other objects that are not an `expr` it does not compile (`C56_lists_*`).
* C58: `variable_index_out_of_bounds_exception::what()` returns a pointer into a destroyed string
  (exception.hpp 129-131), so no failure of an arithmetic expression can be reported (`C58_eval_arith`); formal
  derivatives throw string literals, which are not caught as `std::exception` (`C58_eval_formal`); `what()` is
  private in four classes, so handlers for these classes cannot call it (`C58_diff_own`).
* C60: a variable `x_i`, `i > 0`, called with a number returns that number when compiled with `NDEBUG` and stops the
  program otherwise; called with a constant it throws, but reports that no number was supplied.  The `expr` made
  from it throws in all cases (`C60_later_variable`).
* C63 (`C63_scaled_gradient`): in two and three dimensions a number times a vector is not carried out, so
  `(c * grad(u)) * grad(v)` never becomes evaluable, while `c * (grad(u) * grad(v))` does.
* C64 (`C64_vector_times_gradient`): `b * grad(u)` for a vector object `b` is not the scalar product: the overload "vector
  times anything" multiplies each entry by `grad(u)`.  The result is a vector object, its integral does not compile.
  `expr(b) * grad(u)` is the scalar product.
* C64 (`C64_laplace`): `laplace(u)` compiles, but no coordinate system replaces it, so a form with it never becomes
  evaluable.  `laplace(expr)` calls a `grad` that does not exist and does not compile.
* C65 (`C65_loses_solution`, `C65_gives_up`, `C65_endless`): the solver makes a step before it looks at the residual, so a
  guess that is a solution with zero Jacobian determinant comes back undefined; it returns points with residual above
  `1e10` without any sign of failure; and it never returns if the residual stays between the bounds.
* C67: assignment to an `rt_binary_expr` that runs out of memory leaves a mixture of the old and the new expression
  (`C67_half_assigned`), of a number to an `rt_unary_expr` the new number under the old operator
  (`C67_half_assigned_unary`); combining expressions loses memory when the second copy fails (`C67_leaks`).
* C68: the error is small compared with the operands, not with the result (`C68_cancellation`), and a square root of
  zero is excluded for a reason (`C68_sqrt_zero`).
* C70, C48: derivatives of nested gradients take and lose memory exponential in the nesting
  (`C70_gradients_exponential`, `C48_gradients_lose`).
* C71 (`C71_endless`): with a fixed accuracy the solver need not return even if the guess is a solution.
* C73: assigning one `rt_unary_expr` to another does not compile (unary_expr.hpp 97 names a member `lhs_` that does not
  exist); it is no statement of the model.
* C75: `rt_latex_translator` has a copy constructor and a destructor but no assignment.  `t = t'` copies the pointers to
  the processors: the processors of `t` are lost, customising `t` customises `t'`, and when both end their lives the
  processors are deleted twice (proved for every state reached without such an assignment).
* C77 (`C77_sign_of_zero`): `1 / (1 + exp(1 / (x + 0)))` at `x = -0` is 0; simplified it is 1, because `x + 0` becomes `x`
  and the sign of the zero is that of an infinity.  `1 / 0` and `1 / -0` are structurally equal (`C77_equal_zeros`).
* C78: every assignment of one interval to another has undefined behaviour, `operator=` has no `return` (interval.hpp 55-59;
  `C78_interval_assign_undefined`).  Assigning a default constructed equation, or making an equation or an interval from an
  expression that holds nothing, dereferences NULL (`C78_unset`).  Assignment of equations that runs out of memory may have
  replaced one side (`C78_half_assigned`).
* C80: assignment of vectors that runs out of memory may have replaced some of the first entries (`C80_half_assigned`).
  Sizes that do not match, and indices beyond the end, are checked by `assert` or not at all (`C80_undefined`).
* C81: differentiating nested gradients takes time exponential in the nesting, as each gradient differentiates its argument
  twice (`C81_gradients_exponential`).
* C82: `sin(0) + (x + 0)` simplifies to `x`, but with its second part simplified first it stays
  `sin(0) + x`, because `can_simplify` does not look for functions of constants (as in C09).
  `0 * ((x*0)/(x*0))` simplifies to `0`; with its second factor simplified first, to NaN.
* C83: substituting `0` for `x` in `sin(x) + (y + 0)` gives `y`, in the simplified `sin(x) + y` it gives
  `sin(0) + y`.  In `0 * (1/x)` it gives NaN, in the simplified `0` it gives `0`.  A replacement in a
  vector is not simplified, in other expressions it is.
* C90: `rt_traversal_wrapper` and `rt_manipulation_wrapper` keep the functor in a `std::auto_ptr` and declare no copy
  constructor, so a copy takes the functor away from the original; calling the original afterwards dereferences a null
  pointer.
* C93: the gradient of an expression that simplifies to `u`, e.g. `u + 0`, is written out only by a second application,
  since the search for `grad(u)` precedes the simplification (`C93_not_again`).
* C95: x integrated over the triangle 0 < y < x < 1 gives 1/6 instead of 1/3: the inner integral in y of the integrand x
  is taken for that of y.
* C97: integrating a formal derivative throws a string literal, not a `std::exception` (`C97_formal`), as evaluating does.
* C99: `deep_equal` of constants requires the same scalar type, so `x + 6L` and `x + 6.0` are not equal and substitution
  for `6.0` does not find `6L` (`C99_not_equal`, `C99_not_found`).  The derivative of `grad` of a `long` by a function
  symbol is `grad(0)` instead of zero (`C99_gradient`).  The LaTeX translator prints every constant that is not a
  `double` as an unknown symbol (`C99_latex_lost`), and large whole constants print all digits (`C99_text_digits`).
* C100: folding two `long` constants (or an `int` and a `long`) overflows, which is undefined, where the unfolded
  expression would be evaluated in `double` (`C100_overflow`).  `(ct_c - X) + c` does not compile unless `c` is a
  `double`: the overload builds an object of another type than it returns (`C100_rejected`).  Quotients of two operands
  of one type are 1 whatever their constants (`C100_div_wrong`, as in C43).
* C101: `shallow_str` of constants, variables and function symbols is the full text, since only unary, binary and
  vector nodes override the default; two variables have different short texts (`C101_text_wrong`).
* C102 does not extend to equations with a modulus: the derivative throws half-way and the part already made is lost
  (`C102_modulus`; the same fault as in C48).
* *reading*: with a functor that counts, the result of `recursive_manipulation` depends on the order in which the
  compiler evaluates the arguments of a constructor (`C105_order_shows`).
* C110 (`C110_fraction_rejected`): `(p/q) * x` can be differentiated but the derivative cannot be simplified: `(p/q) * 1`
  matches two specialisations of which neither is more special.  `x * p / q` has no such problem.
* *reading*: some overloads of `make_equation` and `make_interval` have a template parameter that cannot be deduced and
  are never used; assigning an `rt_equation` without sides dereferences a null pointer.
* *reading*: `grad` has no overload for `rt_expr`, so `laplace(rt_expr)` does not compile
  (`unary_operations.hpp` 667-678, 726-730).
* *reading*: five overloads compute `value + rt_constant` and do not compile when used
  (`ct_constant.hpp` 48, 76, 118, 148, `runtime/operations/constant.hpp` 128).
* *reading*: `rt_expr::operator=(ct_variable)` builds an `rt_constant` of the interface type
  (`runtime/expr.hpp` 161-166) and does not compile.
* C48: differentiating a gradient leaks the derivative of its argument (`unary_operations.hpp` 641-664), and a
  `diff` that throws leaks the nodes it has built so far.
* *reading*: `rt_interval::operator=` returns nothing; the LaTeX translator's version for `rt_constant` passes an object
  where a pointer is expected; `rt_unary_expr::operator=` refers to a member that does not exist.
