{"id": "C01", "title": "Evaluation succeeds exactly when enough values are supplied", "statement": "Evaluating a run-time expression built from constants, variables, the eight mathematical functions and + - * / at a vector of n values returns a number if every variable id occurring in it is < n; otherwise it throws variable_index_out_of_bounds_exception whose reported id is that of an occurring variable with id >= n and whose reported size is n. No other exception and no undefined behaviour can occur, whichever operand of a binary node the compiler evaluates first.", "quantifier": "all such expressions, all value vectors of any length, all operand evaluation orders", "why_tests_cant": "expressions are unbounded trees and the order of operand evaluation is unspecified, so finitely many runs cannot cover either", "anchors": ["viennamath/runtime/variable.hpp:rt_variable::eval", "viennamath/runtime/binary_expr.hpp:rt_binary_expr::eval", "viennamath/runtime/unary_expr.hpp:rt_unary_expr::eval", "viennamath/runtime/constant.hpp:rt_constant::eval"]}
{"id": "C02", "title": "Evaluation only reads the variables that occur", "statement": "If two value vectors of equal length agree at the ids of the variables occurring in an expression, evaluating the expression at both gives the same outcome (same number or same exception). If the evaluation returns a number, the lengths of the vectors need not be equal: more or fewer values do not change it as long as the occurring variables have the same values.", "quantifier": "all run-time expressions of every node kind, all pairs of agreeing vectors, all evaluation orders", "why_tests_cant": "a test fixes finitely many vectors; the claim is a non-interference statement about all of them", "anchors": ["viennamath/runtime/expr.hpp:rt_expr::operator()", "viennamath/runtime/variable.hpp:rt_variable::eval"]}
{"id": "C03", "title": "Passing one number is the same as passing a one-element vector", "statement": "Evaluating an expression at a scalar s gives the same number as evaluating it at the vector (s); it succeeds in exactly the same cases, and throws the same exceptions.", "quantifier": "all run-time expressions of every node kind, all scalars, all evaluation orders", "why_tests_cant": "two separate recursive code paths exist for all node kinds; agreement on all trees is not a finite check", "anchors": ["viennamath/runtime/unary_expr.hpp:rt_unary_expr::eval", "viennamath/runtime/binary_expr.hpp:rt_binary_expr::eval", "viennamath/runtime/variable.hpp:rt_variable::eval"]}
{"id": "C04", "title": "Symbolic expressions are never silently evaluated", "statement": "Evaluating an expression that contains a function symbol, a gradient, divergence or formal partial derivative, an integral, or a vector as an operand always throws; it never returns a number and never has undefined behaviour.", "quantifier": "all run-time expressions containing such a node at any depth, all vectors, all evaluation orders", "why_tests_cant": "the offending node can sit at any depth in an unbounded tree", "anchors": ["viennamath/runtime/function_symbol.hpp:eval", "viennamath/compiletime/unary_op_tags.hpp:op_gradient::apply", "viennamath/runtime/integral.hpp:op_rt_integral::apply", "viennamath/runtime/vector_expr.hpp:eval"]}
{"id": "C05", "title": "An expression reported constant has one value", "statement": "If is_constant() answers true for an expression then unwrap() returns a number without throwing, and evaluating the expression at any vector, including the empty one, or any scalar returns that same number.", "quantifier": "all run-time expressions obtainable from constructors and operators, all vectors", "why_tests_cant": "universally quantified over trees and over evaluation points", "anchors": ["viennamath/runtime/binary_expr.hpp:is_constant,unwrap", "viennamath/runtime/constant.hpp:is_constant,unwrap"]}
{"id": "C06", "title": "simplify() preserves the value", "statement": "If evaluating e at v gives a number that is not the undefined (non-finite) value, then evaluating simplify(e) at v gives exactly the same number.", "quantifier": "all run-time expressions, all vectors, every arithmetic satisfying x+0=0+x=x, x-0=x, 0-x=(-1)*x, 1*x=x*1=x, x/1=x, and 0*x, x*0, 0/x equal to 0 or undefined, with undefined absorbing (exact reals and sign-symmetric rounded arithmetic included)", "why_tests_cant": "rewriting is repeated until no rule applies on unbounded trees, at every evaluation point", "anchors": ["viennamath/manipulation/simplify.hpp:simplify,inplace_simplify", "viennamath/manipulation/detail/binary_operations.hpp:simplify_impl", "viennamath/runtime/unary_expr.hpp:simplify"]}
{"id": "C07", "title": "simplify() keeps an evaluable expression evaluable and adds no variables", "statement": "Every variable occurring in simplify(e) occurs in e; hence if e can be evaluated at v without an exception, so can simplify(e).", "quantifier": "all run-time expressions, all vectors", "why_tests_cant": "quantifies over all trees and rewrite histories", "anchors": ["viennamath/manipulation/simplify.hpp", "viennamath/manipulation/detail/binary_operations.hpp:simplify_impl"]}
{"id": "C08", "title": "simplify() terminates", "statement": "The simplification loop stops after finitely many passes on every expression built by the API with matching vector dimensions, without throwing, and afterwards the expression reports that it cannot be simplified; simplifying again returns it unchanged.", "quantifier": "all run-time expressions, all arithmetics (including ones with NaN)", "why_tests_cant": "termination is a statement about all inputs; a test can only observe terminating runs", "anchors": ["viennamath/manipulation/simplify.hpp:inplace_simplify", "viennamath/runtime/binary_expr.hpp:can_simplify", "viennamath/runtime/unary_expr.hpp:can_simplify", "viennamath/manipulation/detail/binary_operations.hpp:can_simplify_impl"]}
{"id": "C09", "title": "simplify() leaves no trivial operation behind", "statement": "In simplify(e) no binary node outside vector entries has two constant operands, and none has the form 0+x, x+0, 0-x, x-0, 0*x, x*0, 1*x, x*1, 0/x or x/1.", "quantifier": "all run-time expressions", "why_tests_cant": "normal-form claim over unbounded trees", "anchors": ["viennamath/manipulation/simplify.hpp:simplify", "viennamath/manipulation/detail/binary_operations.hpp:can_simplify_impl"]}
{"id": "C10", "title": "simplify() folds constant arithmetic to one constant", "statement": "If e is built from constants and + - * / only, simplify(e) is a single constant whose value is the value of e.", "quantifier": "all variable-free arithmetic expressions", "why_tests_cant": "unbounded nesting", "anchors": ["viennamath/runtime/binary_expr.hpp:simplify,is_constant,unwrap"]}
{"id": "C11", "title": "diff() returns the derivative", "statement": "If e is built from constants, variables, id, exp, sin, cos, tan, sqrt, log, log10 and + - * /, diff(e, x_i) returns without throwing, and at every point where e evaluates to a finite number and no square root argument is zero, the returned expression evaluates to the derivative at that point of the function obtained from e by varying x_i.", "quantifier": "all such expressions, all variables, all points of the (real) domain", "why_tests_cant": "a statement about limits at every point of a continuum, for all expression trees", "anchors": ["viennamath/manipulation/diff.hpp:diff", "viennamath/manipulation/detail/unary_operations.hpp:diff_impl", "viennamath/manipulation/detail/binary_operations.hpp:diff_impl"]}
{"id": "C12", "title": "diff() refuses exactly the unsupported nodes", "statement": "diff(e, x_i) throws the not-differentiable exception if e contains a modulus, a function symbol, a divergence, gradient, formal partial derivative or integral node anywhere, and returns an expression otherwise.", "quantifier": "all run-time expressions, all variables", "why_tests_cant": "error behaviour for all trees", "anchors": ["viennamath/manipulation/diff.hpp:diff", "viennamath/manipulation/detail/unary_operations.hpp:diff_impl", "viennamath/runtime/function_symbol.hpp:diff"]}
{"id": "C13", "title": "The derivative of an expression not containing the variable is literally 0", "statement": "If x_i does not occur in a differentiable e whose constants are finite, diff(e, x_i) returns the constant expression 0.", "quantifier": "all differentiable expressions not containing the variable", "why_tests_cant": "depends on simplification reaching a normal form on unbounded trees", "anchors": ["viennamath/manipulation/diff.hpp:diff", "viennamath/manipulation/simplify.hpp:inplace_simplify"]}
{"id": "C14", "title": "diff() with respect to a function symbol is the derivative in that symbol", "statement": "For e built from constants, variables, function symbols, the smooth functions and + - * /, diff(e, u) with respect to function symbol u evaluates (with function symbols given numeric values) to the derivative of e in the value of u; for other function symbols the derivative is 0.", "quantifier": "all such expressions, all assignments of numbers to variables and symbols where e is defined", "why_tests_cant": "limits at every point, all trees", "anchors": ["viennamath/manipulation/diff.hpp:diff(rt_function_symbol)", "viennamath/runtime/function_symbol.hpp:diff"]}
{"id": "C15", "title": "substitute() of a variable is substitution of its value", "statement": "If evaluating e at the vector v with entry i replaced by the value of r at v gives a number that is not undefined, then evaluating substitute(x_i, r, e) at v gives the same number.", "quantifier": "all integral-free run-time expressions e, all replacements r, all vectors, all arithmetics as in C06", "why_tests_cant": "substitution lemma over all trees", "anchors": ["viennamath/manipulation/substitute.hpp:substitute", "viennamath/runtime/variable.hpp:substitute", "viennamath/runtime/binary_expr.hpp:substitute", "viennamath/runtime/unary_expr.hpp:substitute"]}
{"id": "C16", "title": "Simultaneous substitution does not chain", "statement": "substitute() with lists of search and replacement expressions replaces every occurrence by the replacement of the first matching entry and never substitutes inside an inserted replacement; for lists of distinct variables the value of the result is that of e with all entries replaced at once (so swapping x and y works).", "quantifier": "all expressions, all lists of pairs, all vectors", "why_tests_cant": "arbitrary list lengths, trees and points", "anchors": ["viennamath/manipulation/substitute.hpp:substitute(vector)", "viennamath/runtime/variable.hpp:substitute", "viennamath/runtime/binary_expr.hpp:substitute"]}
{"id": "C17", "title": "Substituting equals for equals keeps the value", "statement": "If the searched expression s and the replacement r evaluate to the same number at v, then replacing s by r in e does not change the value of e at v.", "quantifier": "all expressions e, s, r and vectors v", "why_tests_cant": "congruence over all contexts", "anchors": ["viennamath/manipulation/substitute.hpp:substitute"]}
{"id": "C18", "title": "A substituted variable is gone", "statement": "After substitute(x_i, r, e) with r not containing x_i, evaluating the result never depends on x_i: x_i does not occur in the result.", "quantifier": "all integral-free expressions, all replacements not containing the variable", "why_tests_cant": "all trees", "anchors": ["viennamath/manipulation/substitute.hpp:substitute", "viennamath/runtime/binary_expr.hpp:substitute"]}
{"id": "C19", "title": "substitute() with an absent search expression only simplifies", "statement": "If no subexpression of e equals the searched expression, substitute(s, r, e) returns the same expression as simplify(e).", "quantifier": "all expressions e, s, r", "why_tests_cant": "all trees", "anchors": ["viennamath/manipulation/substitute.hpp:substitute"]}
{"id": "C20", "title": "Substitution respects bound integration variables", "statement": "Substituting the integration variable of an integral leaves the integral unchanged in value, and substituting a free variable also changes the integration bounds.", "quantifier": "all expressions containing integrals", "why_tests_cant": "capture is a scoping property over all trees", "anchors": ["viennamath/runtime/unary_expr.hpp:substitute", "viennamath/runtime/integral.hpp:op_rt_integral"]}
{"id": "C21", "title": "Structural equality is an equivalence", "statement": "deep_equal is reflexive (for expressions without NaN constants), symmetric and transitive, and never has undefined behaviour.", "quantifier": "all pairs and triples of run-time expressions", "why_tests_cant": "relational property over all triples of trees", "anchors": ["viennamath/runtime/expression_interface.hpp:deep_equal", "viennamath/runtime/vector_expr.hpp:deep_equal", "viennamath/runtime/unary_operators.hpp:equal"]}
{"id": "C22", "title": "Structurally equal expressions are interchangeable", "statement": "If deep_equal holds between two expressions then they give the same outcome when evaluated at any vector, differentiated, or numerically integrated.", "quantifier": "all pairs of expressions, all vectors", "why_tests_cant": "all pairs and all points", "anchors": ["viennamath/runtime/unary_operators.hpp:equal,unary_op_equal", "viennamath/runtime/binary_operators.hpp:equal"]}
{"id": "C23", "title": "Expressions have value semantics", "statement": "Under any sequence of constructing, copying, assigning (including self-assignment and assigning a part of an expression to itself), combining, simplifying and destroying expr objects, each object behaves as if it held its own independent expression: no operation on one object changes another, no memory is freed twice or used after being freed, and destroying all objects frees all nodes.", "quantifier": "all finite histories of operations on any number of expr objects", "why_tests_cant": "history property over unboundedly long operation sequences and aliasing patterns", "anchors": ["viennamath/runtime/expr.hpp:rt_expr", "viennamath/runtime/binary_expr.hpp:operator=", "viennamath/runtime/unary_expr.hpp:~rt_unary_expr"]}
{"id": "C24", "title": "Assigning to a binary expression object is safe and faithful", "statement": "After assigning a constant, number, or any binary expression (also one of its own subexpressions) to a binary expression object, evaluating the object gives the value of the assigned expression.", "quantifier": "all targets and all assigned expressions", "why_tests_cant": "aliasing between source and target and all operand kinds", "anchors": ["viennamath/runtime/binary_expr.hpp:rt_binary_expr::operator="]}
{"id": "C25", "title": "Traversal visits every node exactly once, in order", "statement": "recursive_traversal with a visitor that never declines visits every node of an expression of scalar nodes exactly once, left operand before the node itself before the right operand, and a unary node before its argument; a visitor declining to step into a binary node sees none of its operands.", "quantifier": "all expressions and all visitors", "why_tests_cant": "higher-order and over all trees", "anchors": ["viennamath/runtime/binary_expr.hpp:recursive_traversal", "viennamath/runtime/unary_expr.hpp:recursive_traversal", "viennamath/runtime/functor_wrapper.hpp"]}
{"id": "C26", "title": "Recursive manipulation is local and sound", "statement": "recursive_manipulation with a functor that modifies nothing returns an equal expression; a functor whose replacements preserve the value of each modified node preserves the value of the whole expression, and replaced subtrees are not visited again.", "quantifier": "all expressions, all functors, all vectors", "why_tests_cant": "higher-order, all trees and points", "anchors": ["viennamath/runtime/binary_expr.hpp:recursive_manipulation", "viennamath/runtime/unary_expr.hpp:recursive_manipulation", "viennamath/runtime/functor_wrapper.hpp"]}
{"id": "C27", "title": "One-point Gauss quadrature is the midpoint rule, exact for affine integrands", "statement": "Integrating e over [a,b] (constant bounds) in x_i with the 1-point Gauss rule returns (b-a) times the value of e at the midpoint; it equals the integral when e is affine in x_i, and it is additive in the integrand.", "quantifier": "all integrands depending on x_i only, all intervals", "why_tests_cant": "exactness over a continuum of coefficients and all integrand trees", "anchors": ["viennamath/runtime/numerical_quadrature.hpp:rt_gauss_quad_1::eval"]}
{"id": "C28", "title": "Numerical quadrature distributes over sums and rejects everything else", "statement": "The quadrature operator applied to an expression made of integrals with + and - returns the corresponding sum/difference of the quadratures of the integrals; an expression with any other leaf or operator throws integration_without_integral_exception; it never has undefined behaviour.", "quantifier": "all run-time expressions", "why_tests_cant": "all trees, including error paths", "anchors": ["viennamath/runtime/numerical_quadrature.hpp:rt_numerical_quadrature::operator()"]}
{"id": "C29", "title": "Substituting a symbolic interval replaces exactly its integrals", "statement": "substitute(symbolic_interval(k), (I, x), e) turns every integral over symbolic interval k into the same integral over I in x, leaves integrals over other symbolic intervals alone, and changes nothing else.", "quantifier": "all expressions, all interval ids", "why_tests_cant": "all trees and ids, nested integrals included", "anchors": ["viennamath/manipulation/substitute.hpp:substitute(rt_symbolic_interval)", "viennamath/runtime/symbolic_interval.hpp", "viennamath/runtime/integral.hpp:op_rt_symbolic_integral"]}
{"id": "C30", "title": "Applying a Cartesian coordinate system eliminates gradients and divergences of u and v", "statement": "apply_coordinate_system(cartesian<d>, e) contains no gradient or divergence of the default unknown u or test function v; a product grad(u)*grad(v) becomes the sum over the d coordinates of products of partial derivatives; expressions without such operators are only simplified, and an equation is transformed on both sides.", "quantifier": "all expressions and equations, d = 1, 2, 3", "why_tests_cant": "all trees", "anchors": ["viennamath/manipulation/apply_coordinate_system.hpp:apply_coordinate_system"]}
{"id": "C31", "title": "Vector expressions act componentwise", "statement": "For vector expressions of equal size, evaluating entry i of a+b, a-b, s*a, a/s gives the corresponding operation on the entries, the dot product evaluates to the sum of the products of the entries, and indexing a copy gives equal entries.", "quantifier": "all vector expressions of any size >= 1, all vectors of values", "why_tests_cant": "any dimension and any entries", "anchors": ["viennamath/runtime/vector_expr.hpp:rt_vector_expr"]}
{"id": "C32", "title": "LaTeX output is unambiguous", "statement": "If two expressions of constants, variables, function symbols, mathematical functions and + - * / are printed as the same LaTeX text then they have the same value at every point (over a field), i.e. enough parentheses are printed.", "quantifier": "all pairs of expressions", "why_tests_cant": "injectivity up to meaning, over all pairs of trees", "anchors": ["viennamath/manipulation/latex.hpp:rt_latex_translator", "viennamath/manipulation/latex.hpp:rt_latex_binary_expr_processor"]}
{"id": "C33", "title": "LaTeX customisations persist and do not interfere", "statement": "After any sequence of customize() calls, each variable or function symbol is printed with the most recent string given for it, all others are printed with their default, and a copy of the translator prints every expression exactly as the original.", "quantifier": "all histories of customize() calls, all expressions", "why_tests_cant": "history property of unbounded length", "anchors": ["viennamath/manipulation/latex.hpp:rt_latex_translator::customize", "viennamath/manipulation/latex.hpp:rt_latex_variable_processor::clone"]}
{"id": "C34", "title": "Compile-time simplify preserves the value", "statement": "Whichever matching specialisation the compiler selects, the compile-time simplify() of an expression has the same (rational/real) value as the expression wherever the expression is defined.", "quantifier": "all compile-time expressions for which compilation succeeds, all points, all choices among matching specialisations", "why_tests_cant": "the rewrite system is applied to unboundedly many types", "anchors": ["viennamath/manipulation/simplify.hpp:result_of::detail::simplify_impl", "viennamath/manipulation/simplify.hpp:result_of::simplify"]}
{"id": "C35", "title": "Compile-time simplify terminates", "statement": "The recursion of compile-time simplify() instantiates finitely many templates for every expression type, whichever matching specialisation is selected.", "quantifier": "all compile-time expressions, all selections", "why_tests_cant": "termination over all inputs", "anchors": ["viennamath/manipulation/simplify.hpp:result_of::simplify"]}
{"id": "C36", "title": "Compile-time rational arithmetic is exact and reduced", "statement": "The compile-time sum, difference, product and quotient of two fractions of integer constants is the exact rational result in lowest terms.", "quantifier": "all integer numerators and denominators with non-zero denominators", "why_tests_cant": "unbounded integer inputs and the overflow boundary", "anchors": ["viennamath/manipulation/simplify.hpp:simplify_impl (rational)", "viennamath/forwards.h:result_of::gcd"]}
{"id": "C37", "title": "expand() preserves the value and removes products of sums", "statement": "The compile-time expand() of an expression has the same value as the expression wherever that is defined, and in the result no factor of a product is a sum or difference.", "quantifier": "all compile-time expressions", "why_tests_cant": "all trees and points", "anchors": ["viennamath/manipulation/expand.hpp:result_of::expand"]}
{"id": "C38", "title": "Compile-time diff is the derivative", "statement": "For compile-time expressions of constants, variables and + - * /, diff(e, x) evaluates to the derivative of e in x at every point where e is defined.", "quantifier": "all such expressions, all points", "why_tests_cant": "limits over a continuum", "anchors": ["viennamath/manipulation/diff.hpp:result_of::diff"]}
{"id": "C39", "title": "Compile-time substitution is substitution of the value", "statement": "For a compile-time variable x and compile-time expressions r and e without unary nodes, substitute(x, r, e) has at v the value of e at v with x replaced by the value of r at v.", "quantifier": "all such expressions, all points", "why_tests_cant": "all trees", "anchors": ["viennamath/manipulation/substitute.hpp:result_of::substitute"]}
{"id": "C40", "title": "Compile-time evaluation agrees with run-time evaluation", "statement": "If e and the values are compile-time, eval(e, v) computed at compile time is the exact rational value of e at v, reported as an integer constant or a reduced fraction, whenever e is defined at v.", "quantifier": "all compile-time expressions of constants, variables and + - * /, all integer vectors of up to three entries", "why_tests_cant": "all trees and all integers", "anchors": ["viennamath/manipulation/eval.hpp:result_of::eval"]}
{"id": "C41", "title": "coefficient() and drop_dependent_terms() split an expression", "statement": "For compile-time expressions polynomial in x (x not in a denominator or under a function), coefficient(x, e)*x + drop_dependent_terms(x, e) has the same value as e, and drop_dependent_terms(x, e) does not depend on x.", "quantifier": "all such expressions, all points", "why_tests_cant": "all trees and points", "anchors": ["viennamath/manipulation/coefficient.hpp:result_of::coefficient", "viennamath/manipulation/drop_dependent_terms.hpp:result_of::drop_dependent_terms"]}
{"id": "C42", "title": "Compile-time integration of polynomials is exact", "statement": "integrate(interval(a,b), p, x) has the value of the integral of p from a to b in x, for p polynomial in x with other variables as parameters.", "quantifier": "all polynomial compile-time expressions, all bounds, all parameter values", "why_tests_cant": "equality of integrals over a continuum for all polynomials", "anchors": ["viennamath/manipulation/integrate.hpp:result_of::integrate"]}
{"id": "C43", "title": "Operator overloads that fold constants preserve the value", "statement": "Every special operator overload combining constants and compile-time expressions (c1+(c2+X), c1-(c2-X), (c1-X)+c2, (x+X)-x, x+x, x-x, x/x, ...) builds an expression whose value equals the plain operation on the operands, wherever that is defined.", "quantifier": "all operand expressions, all constants, all points", "why_tests_cant": "all operand trees and constants", "anchors": ["viennamath/runtime/operations/constant.hpp", "viennamath/compiletime/operations/ct_constant.hpp", "viennamath/compiletime/operations/ct_expr.hpp", "viennamath/compiletime/operations/ct_variable.hpp"]}
{"id": "C44", "title": "Converting a compile-time expression to a run-time expression keeps its meaning", "statement": "Constructing an expr from a compile-time expression gives a run-time expression that evaluates to the value of the compile-time expression at every vector, with the same out-of-range behaviour.", "quantifier": "all compile-time expressions, all vectors", "why_tests_cant": "all trees and points", "anchors": ["viennamath/runtime/expr.hpp:rt_expr(ct_binary_expr)", "viennamath/runtime/binary_expr.hpp:rt_binary_expr(ct_binary_expr)"]}
{"id": "C45", "title": "The printed form of an expression identifies it", "statement": "If two expr objects written to a stream (operator<<) give the same text then they hold the same expression tree, provided that the constants that occur are told apart by the number format in use and that no function symbols other than those with the unknown or test tag occur.", "quantifier": "all pairs of expressions of any node kinds and depth", "why_tests_cant": "injectivity over all pairs of trees; needs unique readability of the nested bracket format", "anchors": ["viennamath/runtime/expr.hpp:operator<<", "viennamath/runtime/binary_expr.hpp:deep_str", "viennamath/runtime/unary_expr.hpp:deep_str", "viennamath/runtime/vector_expr.hpp:deep_str", "viennamath/runtime/integral.hpp"]}
{"id": "C46", "title": "Compile-time simplify leaves no trivial operation", "statement": "When simplify(e) of a compile-time expression compiles, the result contains no addition or subtraction of 0, no multiplication by 0 or 1, no division by 0 or 1, no zero numerator; every subexpression made of numbers only has become a single number or a fraction of two numbers; simplifying again changes nothing; an expression divided by the constant 0 is rejected, and so is every sum, difference, multiple or quotient (by integers other than 0) with such a division in it, at any depth. A product with 0, or 0 as the dividend, may hide a division by 0.", "quantifier": "all compile-time expressions for which simplify compiles", "why_tests_cant": "every shape and depth of expression, and the choice among 54 partial specialisations at every node", "anchors": ["viennamath/manipulation/simplify.hpp:result_of::simplify"]}
{"id": "C47", "title": "All ways of evaluating a compile-time expression agree", "statement": "eval(e, v) with a compile-time vector of constants, with a compile-time vector that contains numbers, and with a std::vector, and eval of the run-time expression made from e, all give the same number when they compile.", "quantifier": "all compile-time expressions, all vectors", "why_tests_cant": "agreement of four evaluation paths over all trees and points", "anchors": ["viennamath/manipulation/eval.hpp:eval", "viennamath/compiletime/ct_binary_expr.hpp:operator()"]}
{"id": "C48", "title": "Calls give back all memory except their result", "statement": "After a call that builds an expression (operators, constructors, copies, simplify, diff, substitute, substitution of integration intervals), the live heap nodes are exactly those that were live before plus the nodes of the returned expression, each of which is freshly allocated; every node that was live before is unchanged. When the call throws, the live nodes are exactly those from before.", "quantifier": "all histories of expression objects, all calls and arguments, all evaluation orders", "why_tests_cant": "a leak or a write through a stale pointer has no visible result, and depends on which branch of the recursive manipulation is taken", "anchors": ["viennamath/runtime/unary_expr.hpp:recursive_manipulation", "viennamath/runtime/binary_expr.hpp:diff", "viennamath/runtime/expr.hpp:rt_expr", "viennamath/manipulation/simplify.hpp:inplace_simplify", "viennamath/manipulation/detail/unary_operations.hpp:diff_impl"]}
{"id": "C49", "title": "What is written is what is evaluated", "statement": "A formula written in a program with numbers, constants, variables (compile-time or run-time), expr(...), the operators + - * / and the functions exp, sin, cos, tan, fabs, sqrt, log, log10 compiles, and the object it builds evaluates, at every point where the formula is mathematically defined, to the value of the formula.", "quantifier": "all formulas, all points, all evaluation orders", "why_tests_cant": "which overload is taken depends on the static types of all subformulas; their combinations are unbounded", "anchors": ["viennamath/manipulation/detail/unary_operations.hpp:exp", "viennamath/runtime/operations/rt_rt.hpp:clone", "viennamath/forwards.h:operator+", "viennamath/compiletime/operations/ct_expr.hpp", "viennamath/runtime/operations/constant.hpp"]}
{"id": "C50", "title": "A vector keeps its entries", "statement": "In every program, a vector made by make_vector keeps the numbers it was made from: evaluating an expression at the vector, or at a copy of it, gives the value of the expression at these numbers, no matter what happens to the variables the numbers came from.", "quantifier": "all programs that declare, assign and leave variables and make, copy, drop and use vectors; all expressions; all numbers", "why_tests_cant": "whether it holds depends on lifetimes and on the order of statements; a dangling reference often still shows the old number when tested", "anchors": ["viennamath/compiletime/ct_vector.hpp:make_vector", "viennamath/compiletime/ct_vector.hpp:ct_vector_1", "viennamath/compiletime/ct_vector.hpp:ct_vector_2", "viennamath/compiletime/ct_vector.hpp:ct_vector_3", "viennamath/runtime/expr.hpp:operator()"]}
{"id": "C51", "title": "Equations and intervals have the sides they were given", "statement": "For all formulas a and b, make_equation(a, b) and make_interval(a, b) compile, and the two sides of the result have the values of a and b at every point.", "quantifier": "all pairs of formulas of all operand types, all points, all evaluation orders", "why_tests_cant": "which overload is taken depends on the types of both operands; their combinations are unbounded", "anchors": ["viennamath/runtime/equation.hpp:make_equation", "viennamath/compiletime/ct_equation.hpp:make_equation", "viennamath/runtime/interval.hpp:make_interval", "viennamath/compiletime/ct_interval.hpp:make_interval"]}
{"id": "C52", "title": "The text of a compile-time object identifies it", "statement": "Every compile-time expression, equation, interval and vector can be written to a stream, and two compile-time expressions (equations, intervals, vectors) that are written as the same text are the same, provided different numbers are written differently.", "quantifier": "all compile-time expressions of any depth, all pairs of sides, all vectors with one to three entries", "why_tests_cant": "injectivity is a statement about all pairs of unboundedly many texts", "anchors": ["viennamath/compiletime/ct_binary_expr.hpp:operator<<", "viennamath/compiletime/ct_constant.hpp:str", "viennamath/compiletime/ct_variable.hpp:operator<<", "viennamath/compiletime/ct_function_symbol.hpp:operator<<", "viennamath/compiletime/ct_equation.hpp:operator<<", "viennamath/compiletime/ct_interval.hpp:operator<<", "viennamath/compiletime/ct_vector.hpp:operator<<"]}
{"id": "C53", "title": "Results are not much larger than what they were made from", "statement": "Simplifying an expression never gives an expression with more nodes, and takes at most twice as many passes as it has nodes. A derivative has at most twice the square of the number of nodes of the expression. A substitution multiplies the number of nodes by at most the number of nodes of the (largest) replacement.", "quantifier": "all run-time expressions, all variables and function symbols, all searched expressions and replacements, any numeric type", "why_tests_cant": "a growth bound is a statement about unboundedly large expressions; tests only see small ones", "anchors": ["viennamath/manipulation/simplify.hpp:inplace_simplify", "viennamath/manipulation/diff.hpp:diff", "viennamath/manipulation/substitute.hpp:substitute", "viennamath/manipulation/detail/binary_operations.hpp", "viennamath/manipulation/detail/unary_operations.hpp", "viennamath/runtime/vector_expr.hpp"]}
{"id": "C54", "title": "Repeated differentiation gives higher partial derivatives, in any order", "statement": "Applying diff for one variable after the other to an expression of constants, variables, smooth functions and + - * / gives the iterated partial derivative of the function the expression denotes, at every point where that expression has a value and no square root in it has argument 0; there the result has a value again. Differentiating by the same variables in another order gives an expression with the same value.", "quantifier": "all smooth expressions, all finite lists of variables and their permutations, all regular points in any dimension", "why_tests_cant": "symmetry of higher derivatives is a statement about all expressions, all orders and all real points", "anchors": ["viennamath/manipulation/diff.hpp:diff", "viennamath/manipulation/detail/binary_operations.hpp", "viennamath/manipulation/detail/unary_operations.hpp", "viennamath/manipulation/simplify.hpp:inplace_simplify"]}
{"id": "C55", "title": "Substitution and differentiation obey the chain rule", "statement": "Substituting g for x_i in e and differentiating the result by x_j gives the value of (de/dx_i with g for x_i) * dg/dx_j, plus (de/dx_j with g for x_i) if the variables differ, where all derivatives and substitutions are those of the library.", "quantifier": "all smooth expressions e and g, all pairs of variables, all points where g has a value b and e has a value with x_i = b and no square root has argument 0", "why_tests_cant": "relates two algorithms on all pairs of expressions at all real points", "anchors": ["viennamath/manipulation/diff.hpp:diff", "viennamath/manipulation/substitute.hpp:substitute", "viennamath/manipulation/simplify.hpp:inplace_simplify"]}
{"id": "C56", "title": "simplify, diff and substitute treat every kind of object like the expr made from it", "statement": "For every number, constant, variable, function symbol, unary or binary expression object, vector, expr or compile-time expression that can be converted to an expr, a call of simplify, diff or substitute with it compiles and gives what the same call gives when the object is first converted to an expr.", "quantifier": "all combinations of argument classes, all contents of the objects, all numeric types", "why_tests_cant": "overload resolution has thousands of combinations of classes, and each claim about a combination is about all contents", "anchors": ["viennamath/manipulation/simplify.hpp:simplify", "viennamath/manipulation/simplify.hpp:inplace_simplify", "viennamath/manipulation/diff.hpp:diff", "viennamath/manipulation/substitute.hpp:substitute"]}
{"id": "C57", "title": "The numbers of variables and function symbols do not matter", "statement": "Giving other numbers to the variables and other identifiers to the function symbols of an expression, different ones staying different, changes nothing but the names: evaluating at a vector with the entries moved accordingly gives the same value, simplify, diff and substitute give the renamed result, or the same exception, deep_equal decides the same, and numerical quadrature gives the same value.", "quantifier": "all expressions of all kinds of nodes, all injective renamings, all points, all numeric types, all orders of evaluation", "why_tests_cant": "a symmetry under all renamings of all expressions; a test fixes one numbering", "anchors": ["viennamath/runtime/variable.hpp:rt_variable", "viennamath/runtime/function_symbol.hpp:rt_function_symbol", "viennamath/manipulation/simplify.hpp:simplify", "viennamath/manipulation/diff.hpp:diff", "viennamath/manipulation/substitute.hpp:substitute", "viennamath/runtime/numerical_quadrature.hpp:rt_numerical_quadrature"]}
{"id": "C58", "title": "A failure tells what went wrong", "statement": "Whenever evaluating, unwrapping or differentiating an expression throws, the thrown object can be caught as std::exception, and what() is a text that names a kind of node the expression really contains.", "quantifier": "all expressions, all points, all orders in which operands are visited", "why_tests_cant": "which failure comes first depends on the whole tree and on the compiler's evaluation order, and a dangling text often still reads correctly", "anchors": ["viennamath/exception.hpp", "viennamath/runtime/variable.hpp:eval", "viennamath/compiletime/unary_op_tags.hpp:apply", "viennamath/manipulation/detail/unary_operations.hpp:diff_impl"]}
{"id": "C59", "title": "Vectors are differentiated and substituted entry by entry", "statement": "Differentiating a vector expression, or substituting in it for anything but a vector, gives a vector of the same size whose entries are the results for the entries (before the final simplification, which leaves vectors as they are); it fails only if that fails for an entry. In real arithmetic each entry of the derivative evaluates to the derivative of the entry, and the derivative of the dot product of two vectors evaluates to the derivative of the sum of the products of their entries.", "quantifier": "all vectors of all sizes, all entries, all variables, all points at which the entries are defined and smooth", "why_tests_cant": "the size and the entries are arbitrary, and the product rule relates the value of a rewritten tree to a limit", "anchors": ["viennamath/runtime/vector_expr.hpp:recursive_manipulation", "viennamath/manipulation/diff.hpp:diff", "viennamath/manipulation/substitute.hpp:substitute", "viennamath/manipulation/detail/binary_operations.hpp:diff_impl"]}
{"id": "C60", "title": "Evaluating an object directly is evaluating it as an expr", "statement": "Calling a constant, a variable, a unary or binary expression object directly, or passing it (or a number) to eval(), at a number, a constant, or any kind of vector, has the same effect as converting it to an expr first and evaluating that at the supplied numbers: the same value or the same exception.", "quantifier": "all objects, all arguments, all orders of evaluation, with and without NDEBUG", "why_tests_cant": "a table of classes times argument types times values, part of which only differs in release builds or in the contents of an exception", "anchors": ["viennamath/runtime/variable.hpp:operator()", "viennamath/runtime/variable.hpp:get_from_vector", "viennamath/runtime/expr.hpp:operator()", "viennamath/runtime/unary_expr.hpp:operator()", "viennamath/runtime/binary_expr.hpp:operator()", "viennamath/manipulation/eval.hpp:eval"]}
{"id": "C61", "title": "The LaTeX text determines the expression", "statement": "For expressions without vectors, whose constants are printed differently if they differ and whose function symbols are unknown or test functions, the default translator prints two expressions (gradients, divergences, formal partial derivatives, symbolic and ordinary integrals included) as the same text exactly if they agree up to the function id and the grouping a+(b+c) = (a+b)+c, a+(b-c) = (a+b)-c of sums; likewise two equations and two intervals exactly if both sides, both bounds, agree. Regrouping never changes the text of any translator.", "quantifier": "all pairs of expressions, equations and intervals", "why_tests_cant": "injectivity of a printer over all pairs of trees of unbounded size", "anchors": ["viennamath/manipulation/latex.hpp:rt_latex_translator", "viennamath/manipulation/latex.hpp:rt_latex_unary_expr_processor", "viennamath/manipulation/latex.hpp:rt_latex_binary_expr_processor"]}
{"id": "C62", "title": "Quadrature objects behave as values", "statement": "In any program that constructs, copies, assigns (also to itself), calls and destroys numerical_quadrature objects, declares them before use and hands each rule it allocates to at most one object: the results of all calls are those of objects that each hold a rule of their own; nothing undefined happens unless an object without a rule is copied or used to integrate; no two objects share a rule, no rule is used after its release, and when all objects are gone no rule handed over is left in memory.", "quantifier": "all sequences of operations on any number of objects, all user-defined rules, all expressions", "why_tests_cant": "ownership over all histories: double deletes and leaks only show on particular interleavings and often not at all", "anchors": ["viennamath/runtime/numerical_quadrature.hpp:rt_numerical_quadrature"]}
{"id": "C63", "title": "Weak forms evaluate to what they mean", "statement": "Take an integrand made of numbers, variables, the function symbols u and v, mathematical functions, + - * /, grad(u), div(u), grad(v), div(v), partial derivatives of u and v, vectors and products of two vectors, and two smooth expressions for u and v. Applying the Cartesian coordinate system, replacing (in any order) each partial derivative of u and v by diff() of its expression, and then u and v by their expressions, gives an expression whose value at every point is the value of the integrand with the true gradients of the two functions, wherever that is defined and the two functions are regular. In one dimension, a form made of integrals over a symbolic interval with + and -, after replacing the symbolic interval by [a, b], is integrated by the midpoint rule to the sum of the midpoint values, which is the true value if the integrands are affine on [a, b].", "quantifier": "all integrands and forms of this kind, all smooth expressions for u and v, all points, dimensions 1 to 3, all orders of replacement", "why_tests_cant": "an end-to-end statement over all forms and functions: each step rewrites and simplifies the expression, and an error would show only for particular combinations", "anchors": ["viennamath/manipulation/apply_coordinate_system.hpp", "viennamath/manipulation/substitute.hpp", "viennamath/manipulation/diff.hpp", "viennamath/runtime/numerical_quadrature.hpp", "viennamath/runtime/vector_expr.hpp"]}
{"id": "C64", "title": "Weak forms mean what is written", "statement": "A weak form written with numbers, constant objects, variables, function symbols u and v, vector objects, expr(...), the operators + - * /, mathematical functions, grad, div, laplace, diff and integral over a symbolic interval: if the text compiles, the object built (whatever overloads the static types select) has, after the coordinate system is applied and functions are inserted for u and v, the value that the text means mathematically; products of two vectors are scalar products, a number times a vector is a vector. Which texts compile is decided by the static types alone.", "quantifier": "For all texts of this language (of any size), all dimensions 1 to 3, all smooth functions inserted, all points, all intervals, all orders of evaluation.", "why_tests_cant": "The overload picked depends on the combination of static types of all subexpressions; a unit test fixes one text. The most natural spellings (a vector object times a gradient, a Laplacian) silently build something else.", "anchors": ["viennamath/forwards.h:720-761", "viennamath/runtime/vector_expr.hpp:61-82", "viennamath/runtime/vector_expr.hpp:246-299", "viennamath/runtime/expr.hpp:53-198", "viennamath/manipulation/detail/unary_operations.hpp:666-740", "viennamath/runtime/integral.hpp:193-262", "viennamath/manipulation/diff.hpp:118-142", "viennamath/manipulation/apply_coordinate_system.hpp:38-195"]}
{"id": "C65", "title": "The Newton solver solves the linearised system and converges near a regular solution", "statement": "For a system of two equations in two variables, one step of the tutorial's Newton solver from a point where both sides are defined and smooth and the Jacobian determinant is not zero gives the solution of the system linearised at that point, with the true partial derivatives. Around every solution with nonzero Jacobian determinant there is a ball such that from every guess in it newton_solve returns a point nearer to the solution at which the sides differ by at most 1e-10, and the error of a step is at most a constant times the square of the error before. From any guess, a returned point at which the sides are numbers has a residual norm of at most 1e-10 or at least 1e10. A zero Jacobian determinant gives two undefined coordinates, also if the guess is a solution; a guess with fewer than two coordinates gives no result; and there are systems for which the solver never returns.", "quantifier": "all systems of two equations whose sides diff supports, all guesses, all regular solutions", "why_tests_cant": "Convergence is about every guess in a neighbourhood of every regular solution of every system; the tutorial runs one system from one guess. The claim joins symbolic differentiation, simplification, evaluation and an unbounded loop.", "anchors": ["examples/tutorials/newton_solve.cpp:34-103", "viennamath/manipulation/diff.hpp:39-111", "viennamath/runtime/equation.hpp:34-57"]}
{"id": "C66", "title": "The error of numerical integration is bounded by the second derivative", "statement": "For an integrand that depends on the integration variable only, that diff supports, and that is defined and smooth on the interval [a, b], numerical quadrature with the one-point rule returns a number that differs from the true integral by at most M |b-a|^3 / 24, where M bounds the values of the expression that diff applied twice gives. The bound is attained by x*x on every interval. If the interval is cut into pieces and the sum of the integrals over the pieces is integrated numerically, the result differs from the true integral by at most M (b-a) h^2 / 24, h being the largest length of a piece; for n pieces of one length the error is at most a constant divided by n^2, so the results converge to the integral.", "quantifier": "all smooth integrands in one variable, all intervals, all partitions", "why_tests_cant": "The error bound and the convergence are statements about all integrands and all partitions; a test compares a few numbers with a tolerance.", "anchors": ["viennamath/runtime/numerical_quadrature.hpp:54-223", "viennamath/manipulation/diff.hpp:39-111", "viennamath/manipulation/substitute.hpp:188-198"]}
{"id": "C67", "title": "Running out of memory leaves all expression objects usable", "statement": "If any request for memory fails with std::bad_alloc while expression objects are constructed, copied, assigned, combined, simplified, differentiated or substituted, and the program catches the exception and goes on (with further failures), nothing undefined happens: nothing is freed twice and no freed memory is read. A statement that fails changes no object other than its own. Construction and assignment that fail have no effect at all. In place simplification that fails leaves an expression that simplifies to the same result. No other exceptions than std::bad_alloc appear in addition.", "quantifier": "all programs over any number of expr, unary and binary expression objects with handlers, all sets of failing requests, all orders of evaluation of constructor arguments", "why_tests_cant": "The number of places where a request can fail grows with every expression; a test would have to fail each request of each program in turn, and use after free often goes unnoticed.", "anchors": ["viennamath/runtime/expr.hpp:55-260", "viennamath/runtime/binary_expr.hpp:200-229", "viennamath/runtime/operations/rt_rt.hpp:70-116", "viennamath/manipulation/simplify.hpp:939-963", "viennamath/runtime/unary_expr.hpp:54-122"]}
{"id": "C68", "title": "Evaluation, simplification and differentiation are accurate in floating point arithmetic", "statement": "If an expression has a value at a point (and no square root of zero in it), then evaluating it with floating point constants and values near the exact ones gives a finite number that differs from the exact value by at most a constant times the accuracy of the arithmetic, for every arithmetic that is fine enough and has enough range; the constant depends on the expression and the point only. Simplifying an expression does not change its floating point value at all. Where the expression is smooth, the result of diff, computed and evaluated in floating point arithmetic, differs from the true partial derivative by at most a constant times the accuracy. For sums, differences and products of floating point numbers the error is at most ((1+eps)^k - 1) times the value with all signs made positive, k being the number of roundings that can add up; without subtraction and negative numbers this is a bound relative to the result.", "quantifier": "all arithmetic expressions, all points, all floating point arithmetics of the standard model, all orders of evaluation", "why_tests_cant": "A test compares a few results with a tolerance on one machine; it cannot show that the error is bounded for all expressions and points, nor that simplification never changes a rounded result.", "anchors": ["viennamath/runtime/binary_expr.hpp:56-197", "viennamath/compiletime/unary_op_tags.hpp:36-284", "viennamath/compiletime/binary_op_tags.hpp:34-106", "viennamath/manipulation/simplify.hpp:39-963", "viennamath/manipulation/diff.hpp:39-111"]}
{"id": "C69", "title": "Numerical integration in floating point arithmetic meets any tolerance", "statement": "Numerical quadrature with the one-point rule of sums and differences of integrals with constant bounds, computed in floating point arithmetic with constants near the exact ones, returns a finite number that differs from the result of exact arithmetic by at most a constant times the accuracy. For a smooth integrand of one variable and an interval cut into pieces no longer than h, the total error is at most M (b-a) h^2 / 24 plus a constant times the accuracy. Hence any tolerance is met with enough pieces of one length and an arithmetic that is fine enough.", "quantifier": "all sums of integrals, all smooth integrands in one variable, all intervals and partitions, all tolerances, all floating point arithmetics of the standard model, all orders of evaluation", "why_tests_cant": "Rounding and discretisation errors mix in a test; that both are bounded for all integrands and partitions is a statement about infinitely many computations.", "anchors": ["viennamath/runtime/numerical_quadrature.hpp:54-223", "viennamath/manipulation/substitute.hpp:188-198", "viennamath/manipulation/simplify.hpp:39-963"]}
{"id": "C70", "title": "Every statement makes a bounded number of requests for memory", "statement": "Copying, combining, integrating, simplifying, differentiating and substituting expressions make a number of requests for memory that is bounded by an explicit function of the sizes of the expressions involved, whether the statement returns or throws: the size of a copy, 2 n^3 for simplification in place, t n^2 + 2 (t n)^3 for substitution of a term of size t into n objects (for lists t is one more than the sum of the sizes of the replacements), 2 n^3 + 16 n^6 for a derivative of an expression without gradients. If that many requests are granted, the statement does not run out of memory. Declaring and destroying objects makes no request. The derivative of expressions with gradients takes an extra factor of 2 to the nesting depth, and this cannot be avoided: n gradients inside each other, differentiated with respect to the function symbol inside, take at least 2^n requests, and lose 2^(n+1) - n - 2 nodes for good.", "quantifier": "all programs that use their objects as they may be used, all statements, all sizes of expressions, all orders of evaluation, all sets of failing requests", "why_tests_cant": "A test counts allocations for a few expressions; a bound for all expressions, and for every way in which memory can run out, is a statement about infinitely many programs.", "anchors": ["viennamath/manipulation/simplify.hpp:907-963", "viennamath/manipulation/diff.hpp:39-74", "viennamath/manipulation/substitute.hpp:165-258", "viennamath/runtime/expr.hpp:49-199", "viennamath/manipulation/detail/unary_operations.hpp:641-664"]}
{"id": "C71", "title": "The Newton solver converges in floating point arithmetic that is fine enough", "statement": "For a system of two equations in two variables, one step of the tutorial's Newton solver, computed in floating point arithmetic with numbers near the exact ones, gives the solution of the linearised system up to a constant times the accuracy, wherever both sides are defined and smooth and the Jacobian determinant is not zero. Around every solution with nonzero Jacobian determinant there is a ball such that from every guess in it newton_solve returns, if the arithmetic is fine enough: a point at which the sides, computed exactly, differ by at most 1e-10, and that is at least twice as near to the solution as the guess, both up to any given tolerance. How fine the arithmetic has to be depends on the system: for every accuracy there is a system with a regular solution such that newton_solve, started at this solution, never returns.", "quantifier": "all systems of two equations whose sides diff supports, all regular solutions, all guesses near them, all tolerances, all floating point arithmetics of the standard model, all orders of evaluation", "why_tests_cant": "A test runs the solver for a few systems with one kind of double; that rounding errors of derivatives, residuals, determinants and literals never keep the loop from ending is a statement about all systems and arithmetics, and an endless loop is not observed by a test that waits.", "anchors": ["examples/tutorials/newton_solve.cpp:34-103", "viennamath/manipulation/diff.hpp:39-111", "viennamath/runtime/equation.hpp:34-57"]}
{"id": "C72", "title": "Threads may share expressions they do not change", "statement": "A program creates expression objects, hands some of them over to threads and shares the others. The threads run at the same time, each creating, assigning, simplifying in place, differentiating, substituting and destroying objects of its own, and reading the shared ones. In whatever order their accesses to memory happen, and whichever requests for memory fail, there is no undefined behaviour and no data race; the shared objects show at every moment what they showed at the start; every thread that gets enough time ends, with the same objects and the same values as if it had run alone. Threads must not change shared objects: if one thread assigns to an object that another copies, the copy can read released memory.", "quantifier": "all main programs, all numbers of threads, all programs of the threads that use objects as they may be used and change only their own, all interleavings of the accesses to memory, all sets of failing requests, all orders of evaluation", "why_tests_cant": "A test observes a few interleavings, chosen by the scheduler; data races and reads of released memory may show no effect in any of them.", "anchors": ["viennamath/runtime/expr.hpp:49-199", "viennamath/runtime/binary_expr.hpp:56-220", "viennamath/manipulation/simplify.hpp:907-963", "viennamath/manipulation/diff.hpp:39-74", "viennamath/manipulation/substitute.hpp:165-258", "viennamath/runtime/unary_expr.hpp:54-122"]}
{"id": "C73", "title": "Unary expression objects hold values of their own", "statement": "After assigning a number or a constant to any unary expression object, also a default constructed one, evaluating it gives that number at every point. A unary expression object made from an expression alone evaluates as that expression, to the same number or with the same exception. A copy of a unary expression shows what the source shows, leaves the source as it is, and keeps showing it whatever happens to the source and to other objects afterwards, including their destruction.", "quantifier": "all histories of operations on any number of objects of all kinds, all contents, all points, all orders of evaluation", "why_tests_cant": "history property over unboundedly long operation sequences, all operand kinds and aliasing patterns", "anchors": ["viennamath/runtime/unary_expr.hpp:54-122"]}
{"id": "C74", "title": "Weak forms integrated element by element converge to their true value", "statement": "Take a form in one dimension made of integrals over a symbolic interval with + and -, as in C63, and an interval cut into elements. On each element the user applies the coordinate system, inserts the expressions for u and v of that element and their derivatives, replaces the symbolic interval by the element, and integrates with the one-point rule. The sum of the numbers obtained differs from the sum of the true values (true gradients, true integrals) by at most M (b-a) h^2 / 24 for each integral in the form, where h is the largest length of an element and M bounds the second derivatives of the integrands. With the same expressions on all elements and n elements of one length, the error is at most a constant divided by n^2.", "quantifier": "all forms of this kind, all smooth expressions for u and v, all partitions, all numbers of elements, all orders of evaluation", "why_tests_cant": "A test compares a few forms and meshes with known values up to a tolerance; the rate of convergence is a statement about all meshes.", "anchors": ["viennamath/manipulation/apply_coordinate_system.hpp:30-220", "viennamath/manipulation/substitute.hpp:165-330", "viennamath/runtime/numerical_quadrature.hpp:56-225"]}
{"id": "C75", "title": "LaTeX translators behave as values", "statement": "In any program that constructs, copies, assigns, extends by add_processor, customises, uses and destroys LaTeX translators and declares them before use: the texts printed are those of translators that each have processors of their own; no two translators share a processor, no processor is used after its release or released twice, and when all translators are gone no processor, of the library or handed over by the user, is left in memory. Added processors change no text the library has, and get the expressions it has no text for in the order they were added.", "quantifier": "all sequences of operations on any number of translators, all user-defined processors, all expressions", "why_tests_cant": "ownership over all histories: double deletes and leaks only show on particular interleavings and often not at all", "anchors": ["viennamath/manipulation/latex.hpp:93-217", "viennamath/manipulation/latex.hpp:60-84"]}
{"id": "C76", "title": "Integrating and printing only read", "statement": "Numerical integration of an expression by the one-point rule and conversion of an expression to LaTeX copy parts of the expression on the way, but at any point of any program they give the value, text or exception determined by the expression alone, every expression object still shows what it showed, and exactly the memory that was allocated before is allocated afterwards, with the same contents. If a request for memory fails on the way the call throws std::bad_alloc and nothing that was allocated before is changed.", "quantifier": "all programs with expression objects that use them as they may be used, whichever requests for memory fail, all states they reach, all expressions (for the exceptions of integration: expressions built by the API whose vectors have one common number of entries), all orders of evaluation", "why_tests_cant": "leaks and use after free in temporaries show only in instrumented builds and only on the paths executed; failing allocations cannot be enumerated", "anchors": ["viennamath/runtime/numerical_quadrature.hpp:69-80", "viennamath/runtime/numerical_quadrature.hpp:131-206", "viennamath/manipulation/latex.hpp:141-167", "viennamath/manipulation/latex.hpp:254-400"]}
{"id": "C77", "title": "Simplification keeps IEEE results", "statement": "With IEEE 754 double arithmetic, including both zeros, infinities, NaN, overflow and underflow: if an expression evaluates to a result other than NaN, then the simplified expression, the expression obtained by substituting for a variable an expression of the variable's value, and any structurally equal expression evaluate to the same result, up to the sign of a zero result. Where results stay finite, evaluation agrees with the rounded arithmetic for which error bounds are known.", "quantifier": "all formats (representable numbers, roundings, libraries of functions), all expressions, all values of the variables including infinite ones, all orders of evaluation", "why_tests_cant": "special values multiply the cases for every operator, and the few combinations in which the sign of a zero decides a result (it becomes the sign of an infinity) are not found by sampling", "anchors": ["viennamath/compiletime/binary_op_tags.hpp:36-99", "viennamath/compiletime/unary_op_tags.hpp:38-166", "viennamath/manipulation/detail/binary_operations.hpp:50-353", "viennamath/runtime/constant.hpp:113-120", "viennamath/manipulation/substitute.hpp:165-258"]}
{"id": "C78", "title": "Equations and intervals are values", "statement": "An equation and an interval own their two expressions: one that is constructed from two expressions, copied, or assigned shows on each side what its source showed at that moment; afterwards neither changes with the other or with any other object, and destroying one does not affect the others. Construction that runs out of memory has no effect; when all objects are gone nothing is allocated any more; no proper use has undefined behaviour.", "quantifier": "all programs of expression, equation and interval statements, of any length, that go on in any way after exceptions; all sets of failing requests for memory", "why_tests_cant": "sharing and double deletion show only for certain sequences of copies, assignments and destructions, and undefined behaviour may look right in a test", "anchors": ["viennamath/runtime/equation.hpp:30-55", "viennamath/runtime/interval.hpp:30-64", "viennamath/runtime/expr.hpp:49-133"]}
{"id": "C79", "title": "Addresses that are given again do not show", "statement": "Whatever addresses the allocator hands out, including those of nodes that were deleted before, a program that uses expression objects properly behaves as if no address were ever given twice: no access goes to memory that is not in use or that now belongs to another node, every node that is in use has an address of its own, no addresses are in use but those of live nodes, and all objects end with the same values. The same holds for threads that share expressions they do not change, with no data race on any address.", "quantifier": "all programs with handlers, any number of threads, all interleavings, all sets of failing requests, all choices the allocator can make at each request", "why_tests_cant": "a stale pointer reads right values until the allocator happens to give the address to something else; tests see only the choices of one allocator", "anchors": ["viennamath/runtime/expr.hpp:49-199", "viennamath/runtime/binary_expr.hpp:56-220", "viennamath/runtime/unary_expr.hpp:40-180", "viennamath/manipulation/simplify.hpp:905-960"]}
{"id": "C80", "title": "Vector expressions are values", "statement": "A vector expression owns its entries: one that is constructed with a size holds zeros, a copy and a vector to which another one of the same size is assigned show in every entry what their source showed at that moment, sums, differences, products and quotients with an expression and dot products are formed entry by entry in the order written; afterwards no vector changes with another one or with any other object, and destroying one does not affect the others. Construction and dot products that run out of memory have no effect; assignment that runs out of memory has replaced some first entries only; when all objects are gone nothing is allocated any more; no proper use has undefined behaviour, and sizes that do not match or indices beyond the end have.", "quantifier": "all programs of expression and vector statements, of any length, with vectors of any size, that go on in any way after exceptions; all sets of failing requests for memory", "why_tests_cant": "sharing, double deletion and leaks on the way out of a loop show only for certain sizes, sequences of copies and destructions, and failing requests", "anchors": ["viennamath/runtime/vector_expr.hpp:36-82", "viennamath/runtime/vector_expr.hpp:245-299", "viennamath/runtime/expr.hpp:49-199"]}
{"id": "C81", "title": "The number of steps of a call is bounded", "statement": "Evaluating an expression calls a member function of each of its objects exactly once if a number comes out, and never more often; comparing two expressions takes at most as many calls as the smaller one has objects; simplifying takes a number of calls at most cubic in the size of the expression, substituting (also lists) and numerical integration by the one-point rule one polynomial in the sizes of the expressions involved, and differentiating one polynomial in the size, apart from a factor two for each level of gradients inside gradients. The calls counted are those of eval, is_constant, unwrap, deep_equal, can_simplify, simplify, diff and substitute; copies are counted as requests for memory (C70). Differentiating nested gradients does take exponentially many calls, and simplifying is not linear even if there is nothing to simplify.", "quantifier": "all expressions, values of variables, searched expressions and replacements, orders of evaluation, arithmetics", "why_tests_cant": "an implementation that asks or computes the same thing twice at each level gives the right results on small expressions and never comes back on deep ones; no finite set of timings gives a bound", "anchors": ["viennamath/runtime/binary_expr.hpp:298-406", "viennamath/runtime/unary_expr.hpp:200-311", "viennamath/manipulation/detail/binary_operations.hpp:40-353", "viennamath/manipulation/detail/unary_operations.hpp:641-664", "viennamath/manipulation/simplify.hpp:907-911"]}
{"id": "C82", "title": "Simplifying parts first does not change the result of simplification", "statement": "simplify() yields what one sweep from the leaves up yields: each operation is computed, dropped or kept according to its already simplified operands (products of vectors are written out first). Hence simplifying any operands, arguments or integrands first, in any order and any number of times, and then the whole, gives the same expression as simplifying the whole at once.", "quantifier": "for all well-formed expressions, and all ways of simplifying some of their parts beforehand; as long as no operation on constants in them is undefined and no function is applied to something that simplifies to a constant", "why_tests_cant": "There are unboundedly many expressions and, for each, exponentially many ways to simplify parts first; the passes interleave folding at different depths, and the claim fails for functions of constants and for undefined parts, which samples easily miss.", "anchors": ["viennamath/manipulation/simplify.hpp:907-963", "viennamath/runtime/binary_expr.hpp:312-330", "viennamath/runtime/unary_expr.hpp:214-239", "viennamath/manipulation/detail/binary_operations.hpp:50-353"]}
{"id": "C83", "title": "Substitutions compose, and simplifying before or between them does not matter", "statement": "substitute() gives the same result if parts of the expression or of the replacement were simplified beforehand. Substituting r for x and then s for y is the same as first substituting s for y in both r and the expression, and then the new r for x (if x does not occur in s); it is also the same as one call that replaces both variables at once.", "quantifier": "for all well-formed expressions and replacements, all variables x and y, and all ways of simplifying parts beforehand; as long as no operation on constants in the substituted expression is undefined, no function in it is applied to something that simplifies to a constant, and x does not occur in a vector", "why_tests_cant": "It relates different sequences of calls on unboundedly many expressions, each of which simplifies at a different time; whether trivial operations arise, and in which call, depends on both the expression and the replacements.", "anchors": ["viennamath/manipulation/substitute.hpp:160-330", "viennamath/runtime/binary_expr.hpp:369-391", "viennamath/runtime/unary_expr.hpp:272-292", "viennamath/manipulation/simplify.hpp:907-963"]}
{"id": "C84", "title": "Polynomials with integer coefficients are computed without rounding errors", "statement": "Evaluating an expression built from integers, variables, +, - and * at integer values gives exactly the integer the polynomial has as its value, and so do its simplified form, its partial derivatives of any order and compositions of such expressions by substitution: results of simplify, diff and substitute are again written with integers and say the same polynomial, its derivative or the composition, within known bounds.", "quantifier": "for all such expressions, integer points, orders of evaluation and floating point formats with all integers up to some N (double: 2^53), as long as the sum of the absolute values of the terms, multiplied once per derivative with the number of factors of a term, does not exceed N", "why_tests_cant": "It is a statement about all polynomials, points and formats; a rounding error may occur in one intermediate sum or constant folded by the simplifier and cancel or vanish in the printed result.", "anchors": ["viennamath/runtime/binary_expr.hpp:eval", "viennamath/manipulation/detail/binary_operations.hpp:simplify_impl", "viennamath/manipulation/diff.hpp:39-111", "viennamath/manipulation/substitute.hpp:165-258", "viennamath/compiletime/binary_op_tags.hpp:36-99"]}
{"id": "C85", "title": "Derivatives belong to the function and tell how its values change", "statement": "Two expressions of constants, variables, smooth functions and + - * / that have the same values near a point have derivatives, of any order and by any variables, with the same values there, however the two are written; in particular parts may be simplified before differentiating. The values an expression takes are those the derivatives predict: along one variable by Taylor's formula of any degree with the remainder given by the next derivative, along a segment in several variables by the mean value theorem; so an expression whose derivatives evaluate to 0 has one value.", "quantifier": "for all smooth expressions, all lists of variables, all degrees, all points and segments in any dimension on which the expression has a value and no square root in it has argument 0, all orders of evaluation", "why_tests_cant": "Tests compare derivatives of particular expressions with expected results; that nothing but the function matters, for all ways of writing it and all derivatives, cannot be sampled.", "anchors": ["viennamath/manipulation/diff.hpp:39-111", "viennamath/manipulation/simplify.hpp:907-963", "viennamath/runtime/binary_expr.hpp:diff", "viennamath/runtime/unary_expr.hpp:diff"]}
{"id": "C86", "title": "Functions with local expression objects leave nothing behind", "statement": "Code that makes local expression objects and temporaries, calls the library, and possibly catches exceptions, as user functions and apply_coordinate_system do, has no undefined behaviour if it uses its objects as they may be used. After a call of a function exactly the result is new, local objects and temporaries are gone, and every object the function does not assign to shows what it showed before; if the call throws, at any point, no object has been made or destroyed. With enough memory all memory still allocated belongs to objects that exist. apply_coordinate_system in particular returns the expression in coordinates and has no other effect, or throws for lack of memory and has no effect.", "quantifier": "for all functions built from statements, local objects, results, sequences and try blocks, called at any point of any such program, all expressions, all three dimensions, all patterns of failing requests for memory", "why_tests_cant": "Exceptions can occur at every allocation of every function; tests run some functions with enough memory, where stale local objects and leaks on the way out are not seen.", "anchors": ["viennamath/manipulation/apply_coordinate_system.hpp:38-55", "viennamath/manipulation/apply_coordinate_system.hpp:87-112", "viennamath/manipulation/apply_coordinate_system.hpp:143-171", "viennamath/runtime/expr.hpp:114-133"]}
{"id": "C87", "title": "Manipulation functors of the user that give their results away cannot corrupt memory", "statement": "If the operator() of a manipulation functor returns a new expression that nobody else owns, leaves everything else as it was, and has no undefined behaviour, then an expression object made from e->recursive_manipulation(functor) holds the manipulated expression, e and all other objects are unchanged, the two share nothing, and any further use of the objects is as if each held a value of its own. If the functor throws, or there is no memory, no object has changed. Functors that build their results from copies, constants, variables, function symbols and operations are of this kind. A functor that returns the pointer it was given is not: the result cannot even be read or destroyed once e is gone.", "quantifier": "for all functors (arbitrary code) meeting the contract, all expressions in objects of all programs, all orders of evaluation of arguments, all patterns of failing requests for memory, all further code", "why_tests_cant": "The functor is arbitrary user code; who owns which nodes afterwards shows only when objects are destroyed in some order.", "anchors": ["viennamath/runtime/functor_wrapper.hpp:36-65", "viennamath/runtime/expression_interface.hpp:75", "viennamath/runtime/unary_expr.hpp:320-327", "viennamath/runtime/binary_expr.hpp:421-429", "viennamath/runtime/expr.hpp:51"]}
{"id": "C88", "title": "Results mention nothing that was not given", "statement": "simplify and diff return expressions that mention no variable, function symbol, symbolic interval, formal derivative, gradient, divergence, integral or vector that the argument does not mention; diff does not even mention the variable it differentiates by unless the argument does. What the result of substitute mentions was mentioned by the expression or by a replacement whose searched expression was found equal to a part of the expression. Substituting a symbolic interval adds at most the integral, its variable and what its bounds mention, and only if there was a symbolic interval. apply_coordinate_system adds no variables and no function symbols, only formal derivatives by the coordinates, and a vector in place of a gradient.", "quantifier": "for all expressions of all kinds of nodes, all searched expressions, replacements and lists of them, all dimensions, all numeric types", "why_tests_cant": "A stray name in a result shows only for particular expressions; the claim is about every result.", "anchors": ["viennamath/manipulation/simplify.hpp:simplify", "viennamath/manipulation/diff.hpp:diff", "viennamath/manipulation/substitute.hpp:substitute", "viennamath/manipulation/apply_coordinate_system.hpp:apply_coordinate_system"]}
{"id": "C89", "title": "Integration and differentiation undo each other", "statement": "The numerical integral of diff(e, x) over [a, b] differs from the difference of the values of e at b and at a by at most M |b-a|^3 / 24, M bounding what differentiating e three times gives; over n pieces the error is at most a constant divided by n^2; and the integral of u'v + uv', with the derivatives diff returns, tends in the same way to the difference of the values of uv. At compile time, whenever integrating the derivative of a polynomial in x compiles and no number leaves int, the result evaluates to exactly the difference of the values of the polynomial at the bounds; and whenever an integral of a polynomial in x between bounds that are expressions is differentiated, the result evaluates to the integrand at the upper bound times the derivative of that bound minus the same for the lower bound.", "quantifier": "for all smooth expressions in one variable on all intervals where they are defined and no square root has argument 0, all numbers of pieces; all compile-time polynomials in one variable, all bounds, all points", "why_tests_cant": "Relates two independent implementations over all expressions, intervals and bounds; tests compare single numbers.", "anchors": ["viennamath/manipulation/diff.hpp:diff", "viennamath/manipulation/integrate.hpp:integrate", "viennamath/runtime/numerical_quadrature.hpp:numerical_quadrature"]}
{"id": "C90", "title": "Functor wrappers own their functor", "statement": "A traversal or manipulation wrapper made from a pointer to a functor calls that functor for as long as it lives and deletes it exactly once; a program that makes, copies, assigns, calls and ends wrappers never uses a functor that is gone and leaves none behind. A copy of a wrapper can be used like the original, and the original still works.", "quantifier": "for all programs that make functors and wrappers, copy, assign, call and end them in any order and number", "why_tests_cant": "Ownership is about every order of operations; a wrong one shows as undefined behaviour that a test may not notice.", "anchors": ["viennamath/runtime/functor_wrapper.hpp:rt_traversal_wrapper", "viennamath/runtime/functor_wrapper.hpp:rt_manipulation_wrapper"]}
{"id": "C91", "title": "Typed callbacks get exactly the nodes of their class", "statement": "A traversal functor that hands nodes to typed callbacks by trying classes one after the other calls, for each node, exactly one thing: the callback for the node's own class if that class is tried, otherwise its fallback; the order in which the classes are tried does not matter. Over a traversal, each callback gets exactly the nodes of its class and the fallback all the others, each node once and in visiting order.", "quantifier": "for all expressions, all sets of classes tried in all orders, all callbacks, also throwing ones", "why_tests_cant": "Tests try one functor on one expression; the claim is about every expression and every set and order of classes.", "anchors": ["viennamath/runtime/functor_wrapper.hpp:callback_if_castable", "examples/tutorials/traversal.cpp:cout_functor"]}
{"id": "C92", "title": "Compile-time and run-time manipulation agree", "statement": "Differentiating the run-time form of a compile-time expression gives exactly the expression that differentiating at compile time, converting and simplifying at run time gives; the same holds for substituting, for a variable always and for any searched expression in numeric types that tell integers apart. Simplifying at compile time, at run time or both gives the same value wherever the expression is defined, as long as no number leaves int. The compile-time integral of a polynomial in x between integer bounds is the limit of the numerical integrals of its run-time form over more and more pieces, with an error of a constant divided by the square of their number; for affine integrands one numerical step already gives it exactly.", "quantifier": "for all compile-time expressions that can be converted, all variables, searched expressions and replacements, all numeric types; integration: all polynomials in the integration variable for which compile-time integration compiles, exact real arithmetic", "why_tests_cant": "Relates two independent implementations (templates and virtual functions) over all expressions.", "anchors": ["viennamath/runtime/expr.hpp:rt_expr", "viennamath/manipulation/diff.hpp:diff", "viennamath/manipulation/substitute.hpp:substitute", "viennamath/manipulation/simplify.hpp:simplify", "viennamath/manipulation/integrate.hpp:integrate"]}
{"id": "C93", "title": "A coordinate system is applied once and for all", "statement": "Applying a coordinate system to the result of applying one, for the same or for another dimension, changes nothing, for expressions and for equations; neither does simplifying the result.", "quantifier": "all expressions and equations, d, d' = 1, 2, 3, all numeric types", "why_tests_cant": "Idempotence over all expressions; every node kind may hide a remaining operator.", "anchors": ["viennamath/manipulation/apply_coordinate_system.hpp:apply_coordinate_system", "viennamath/runtime/equation.hpp:rt_equation"]}
{"id": "C94", "title": "Programs compute the functions they say", "statement": "Take any program that declares, constructs, copies, assigns, combines (+ - * / and the differentiable functions), simplifies, differentiates, substitutes (one variable or several at once) and destroys expr objects made of numbers and variables. Read the objects as real functions: arithmetic pointwise, simplify as the identity, diff as the partial derivative, substitute as composition. The program runs without failure, every object then evaluates at every point of the domain of its function to the value of the function, the domains are open and the functions smooth there, and no memory is lost.", "quantifier": "all programs of any length with any number of such objects, any number of variables, all points of the domains, all orders of evaluation", "why_tests_cant": "A statement on all programs and all points; the derivative is the mathematical one.", "anchors": ["viennamath/runtime/expr.hpp:rt_expr", "viennamath/manipulation/diff.hpp:diff", "viennamath/manipulation/substitute.hpp:substitute", "viennamath/manipulation/simplify.hpp:simplify"]}
{"id": "C95", "title": "Nested compile-time integrals are iterated integrals", "statement": "Integrating a polynomial at compile time in one variable, the outcome in another one and so on, between bounds that are polynomials in the variables of the outer integrals (a triangle, a tetrahedron), gives an expression whose value at every point is the iterated integral; it is a number when all variables are integrated out, and over a box the order of the integrations does not matter.", "quantifier": "all depths, all polynomial integrands and bounds for which the program compiles, all points", "why_tests_cant": "Tests compare a few integrals over the unit triangle, where a confusion of x and y does not show because of symmetry; the statement is on all polynomials, bounds and depths.", "anchors": ["viennamath/manipulation/integrate.hpp:integrate", "viennamath/manipulation/expand.hpp:expand", "viennamath/manipulation/simplify.hpp:simplify"]}
{"id": "C96", "title": "Coefficients taken again and again are the coefficients of the polynomial", "statement": "For a compile-time expression polynomial in x, taking coefficient(x, .) k times compiles and gives the polynomial without its first k coefficients, divided by x^k, with the right value also at x = 0; drop_dependent_terms of it is the coefficient of x^k, free of x; it is the k-th compile-time derivative at x = 0 divided by k!, so that the polynomial is the sum of its Taylor series.", "quantifier": "all expressions polynomial in x (with arbitrary coefficients in the other variables), all orders k, all points", "why_tests_cant": "Tests extract one coefficient of one or two expressions; they do not see what a repeated extraction does to terms lost or kept in excess by the first one, nor compare it with derivatives of any order.", "anchors": ["viennamath/manipulation/coefficient.hpp:coefficient", "viennamath/manipulation/drop_dependent_terms.hpp:drop_dependent_terms", "viennamath/manipulation/diff.hpp:diff"]}
{"id": "C97", "title": "A failing numerical integration tells what went wrong", "statement": "Whenever integrating a sum of integrals numerically throws, the thrown object can be caught as std::exception, and what() is true: either it says that there is no integral, and there is a summand that is neither an integral nor a zero, or it names a kind of node that one of the integrands really contains, and if this is a variable, it is another one than the integration variable.", "quantifier": "all well-formed expressions, all orders in which operands are visited", "why_tests_cant": "Tests look at integrations that succeed; the message belongs to the integrand after substitution of the midpoint and simplification, and nothing but a proof for all expressions shows that it is true of the integrand that was written.", "anchors": ["viennamath/runtime/numerical_quadrature.hpp:rt_numerical_quadrature", "viennamath/runtime/numerical_quadrature.hpp:rt_gauss_quad_1", "viennamath/exception.hpp:integration_without_integral_exception"]}
{"id": "C98", "title": "Repeated compile-time differentiation gives higher partial derivatives, in any order", "statement": "Applying diff for one variable after the other to a compile-time expression of constants, variables and + - * /, simplifying and expanding in between as one likes, gives the iterated partial derivative of the function the expression denotes, at every point where the expression is defined; the result is defined there. Neither the order of the variables nor where one simplifies or expands changes the value. Without simplification in between, every such derivative compiles.", "quantifier": "all such expressions, all finite sequences of manipulations, all permutations of the variables, all points in any dimension", "why_tests_cant": "Tests differentiate once or twice at single points; that mixed derivatives agree for every order and every intermediate simplification needs the theorem on mixed partial derivatives for the denoted functions.", "anchors": ["viennamath/manipulation/diff.hpp:result_of::diff", "viennamath/manipulation/simplify.hpp:result_of::simplify", "viennamath/manipulation/expand.hpp:result_of::expand"]}
{"id": "C99", "title": "A constant behaves like the number it holds, whatever its scalar type", "statement": "A runtime expression whose constants are of type int, long or float evaluates, unwraps, simplifies, differentiates, compares, substitutes and prints like the expression in which each constant is replaced by the double of the same value; exceptions included.", "quantifier": "all expressions with constants of any mixture of the four scalar types, all points, all orders of evaluation, all variables and function symbols, all searched expressions and replacements", "why_tests_cant": "The test programs use a long constant in a few sums at one point; whether a type test somewhere in comparison, substitution, differentiation or printing treats the types differently needs all expressions.", "anchors": ["viennamath/runtime/constant.hpp:rt_constant", "viennamath/manipulation/latex.hpp:rt_latex_constant_processor", "viennamath/manipulation/detail/unary_operations.hpp:diff_impl", "viennamath/manipulation/substitute.hpp:substitute"]}
{"id": "C100", "title": "Operators fold constants of any scalar type into the right constant", "statement": "Adding, subtracting, multiplying or dividing compile-time expressions and runtime constants of type int, long, float or double gives an expression with the value of the operation, whatever the mixture of types; nothing is truncated, the operation is accepted by the compiler independently of the scalar types, and it is never undefined.", "quantifier": "all operands, all four scalar types in any combination, all values of the constants, all points", "why_tests_cant": "The tests combine one long and one double constant of small value; truncation or overflow in one of the type combinations, or an overload that is rejected for one type only, does not show.", "anchors": ["viennamath/compiletime/promote_traits.hpp:promote_traits", "viennamath/runtime/operations/constant.hpp:operator+", "viennamath/compiletime/operations/ct_constant.hpp:operator+", "viennamath/compiletime/operations/ct_expr.hpp:operator-"]}
{"id": "C101", "title": "The shallow comparison and the short text tell the kind of an expression", "statement": "shallow_equal holds exactly for two expressions of the same kind (variable, function symbol, constant of a scalar type, unary, binary, vector), so it is an equivalence, and it holds whenever deep_equal does; substitution changes the kind only where the searched expression is found; shallow_str is the same text for two expressions exactly if they are of the same kind.", "quantifier": "all expressions, all scalar types of constants, all formats of numbers", "why_tests_cant": "Nothing in the tests calls shallow_equal or shallow_str; that the inherited default of shallow_str shows members, or that one class overrides one of them wrongly, is visible for particular kinds only.", "anchors": ["viennamath/runtime/expression_interface.hpp:shallow_str", "viennamath/runtime/expression_interface.hpp:shallow_equal", "viennamath/runtime/unary_expr.hpp:shallow_equal", "viennamath/runtime/constant.hpp:shallow_equal", "viennamath/runtime/vector_expr.hpp:shallow_str"]}
{"id": "C102", "title": "The Newton solver of the tutorial gives back all memory it uses", "statement": "newton_solve and newton_solve_impl return the point, or throw the exception, that the two equations and the guess determine, however the expressions lie in memory; afterwards exactly the nodes that were allocated before are allocated, with the same contents, and every object shows what it showed. Iterating does not use up memory, however long it goes on. If a request for memory fails, std::bad_alloc is thrown and nothing that was there has changed.", "quantifier": "for all pairs of equations of smooth functions, all guesses, all numbers of iterations, at any point of any program that uses its objects as they may be used, all patterns of failing requests for memory", "why_tests_cant": "The tutorial runs one system with one guess and never counts allocations; a derivative that is left behind once per iteration, or only if some request fails, shows in no output.", "anchors": ["examples/tutorials/newton_solve.cpp:newton_solve_impl", "examples/tutorials/newton_solve.cpp:newton_solve", "viennamath/manipulation/diff.hpp:diff", "viennamath/runtime/expr.hpp:rt_expr"]}
{"id": "C103", "title": "Threads may evaluate, print, integrate and solve the same expressions at the same time", "statement": "Programs that build and change expression objects, evaluate them, write their text or LaTeX code, integrate them numerically or run the Newton solver on them, and go on according to the results, have no undefined behaviour if they use their objects as they may be used, and every call gives what the values of the objects determine, or std::bad_alloc if a request for memory fails. Several threads may run such programs at the same time and use the same objects, as long as each changes only objects of its own: in every interleaving of their accesses to memory there is no data race, the shared objects show what they showed, and each thread gets the results it gets alone, independently of whether requests of other threads fail. When all have ended, with enough memory and no exceptions in statements, no memory has been lost.", "quantifier": "for all programs of statements and calls with control flow depending on the results, all numbers of threads, all divisions of the objects among them, all interleavings, all patterns of failing requests for memory; integrands in which numbers can be substituted, equations of smooth functions", "why_tests_cant": "Integration, LaTeX output and the solver copy, simplify and delete expressions behind a const interface; whether two such calls on one expression can disturb each other depends on the interleaving, of which a test sees one.", "anchors": ["viennamath/runtime/numerical_quadrature.hpp:rt_numerical_quadrature", "viennamath/manipulation/latex.hpp:rt_latex_translator", "viennamath/runtime/expr.hpp:operator()", "examples/tutorials/newton_solve.cpp:newton_solve"]}
{"id": "C104", "title": "Small numbers are never truncated at compile time", "statement": "Take for each number c in a compile-time expression |c|+1 (2 for 0) and multiply these numbers, except that for a quotient of two expressions without quotients they are added, less one. If the result is at most 2^31, then simplify() changes no value: whichever matching specialisation is selected, no numerator, denominator or integer leaves the range of int, the simplified expression has the exact value of the expression wherever that is defined, and the number computed for it is not larger. If simplify() does not compile, a division by zero or a part with several equally good specialisations has come up, and nothing else. There are expressions with a number larger than 2^31 by less than 0.02 percent that simplify() changes.", "quantifier": "all compile-time expressions with numbers that small, all points, all choices among matching specialisations, all ways a compiler converts long to int when the number does not fit", "why_tests_cant": "Numerators and denominators are computed in long, kept in static const int and wrap without notice; whether that happens depends on intermediate results of the rules taken, of which a test sees those of one expression.", "anchors": ["viennamath/manipulation/simplify.hpp:simplify_impl", "viennamath/forwards.h:gcd"]}
{"id": "C105", "title": "Manipulation functors with a state are called in an orderly way", "statement": "recursive_manipulation may be given a functor whose answers depend on what it has seen, that changes things, and that throws. Whatever it does, modifies() and operator() are each called at most once on a node; nothing is called below a node before modifies() has said no for that node, and nothing at all below a node that operator() was called on; operator() is called on each leaf that is reached and, at once, on each node that modifies() said yes for; one operand of a node is finished before the other is begun. If there is a result, it is the expression with the results of operator() in place of the nodes it was called on, and every other node was declined by modifies(). If an exception leaves, it is that of the last call. If the answers depend on the node alone, the result does not depend on which operand the compiler treats first; otherwise it may.", "quantifier": "all expressions, all functors with any state, all orders in which the compiler evaluates the operands", "why_tests_cant": "The order of the two recursive calls is left to the compiler, and the calls depend on the answers of the functor; a test sees one functor on one expression with one compiler.", "anchors": ["viennamath/runtime/binary_expr.hpp:recursive_manipulation", "viennamath/runtime/unary_expr.hpp:recursive_manipulation", "viennamath/runtime/expression_interface.hpp:recursive_manipulation", "viennamath/runtime/functor_wrapper.hpp:rt_manipulation_interface"]}
{"id": "C106", "title": "Derivatives of polynomials end in a number and then in 0", "statement": "Let e be written as a polynomial in some of its variables, with coefficients and divisors that are any smooth expressions in the others, and have a value (without a square root of 0) at some point. Each call of diff by one of these variables returns an expression written as a polynomial of a degree lower by one. After as many calls as the degree none of the variables occurs any more; if the coefficients are numbers, the result is then a single constant, the derivative of that order. Any further call returns literally the constant 0. The values of e along one variable are given exactly by the numbers to which its derivatives evaluate at one point (Taylor polynomial).", "quantifier": "all such expressions of any degree in any set of variables, all sequences of variables to differentiate by, all points, all orders of evaluation", "why_tests_cant": "Whether the simplifier removes everything that the product and quotient rules leave behind depends on the shape of the expression; tests look at a few shapes of low degree.", "anchors": ["viennamath/manipulation/diff.hpp:diff", "viennamath/manipulation/simplify.hpp:inplace_simplify", "viennamath/manipulation/detail/binary_operations.hpp:diff_impl", "viennamath/manipulation/detail/binary_operations.hpp:simplify_impl"]}
{"id": "C107", "title": "Manipulation functors with a state cannot corrupt memory", "statement": "Let a manipulation functor have a state of its own, which may refer to expressions, and let it give away what operator() returns, as in C87. Then rt_expr t(e->recursive_manipulation(functor)) has one of three outcomes. Either t holds the expression that the calls of the functor describe (C105), all other objects are as before, and the functor is in the state that these calls led to. Or the exception of the functor leaves, no object has changed, and the state is that after the call that threw. Or there is no memory, and no object has changed. What the functor refers to stays intact in all cases. The nodes of t are its own, so that any further use of the objects is as if each held a value of its own; if the functor keeps nothing that it allocates, nothing is leaked by a manipulation that returns. A functor that replaces a variable by copies of an expression in some object, even the manipulated one, and counts the replacements, is of this kind.", "quantifier": "all functors with any state meeting the contract, all expressions in objects of all programs, all orders of evaluation of arguments, all patterns of failing requests for memory, all further code", "why_tests_cant": "The functor is code of the user, interleaved with allocations of the library that may fail at any point; a test sees one functor and no failing allocation.", "anchors": ["viennamath/runtime/binary_expr.hpp:recursive_manipulation", "viennamath/runtime/unary_expr.hpp:recursive_manipulation", "viennamath/runtime/expression_interface.hpp:recursive_manipulation", "viennamath/runtime/functor_wrapper.hpp:rt_manipulation_interface", "viennamath/runtime/expr.hpp:rt_expr"]}
{"id": "C108", "title": "Traversal functors with a state see each node once, in order", "statement": "Let the two functions of a traversal functor have a state, look at where in the expression the node is, and throw. A traversal consists of calls of the two functions, none twice on the same node. step_into is called on the binary nodes that are reached and on nothing else, before anything happens at or below the node. If the functor declines, the node is visited at once and nothing below it is. Otherwise everything below the left operand comes first, then the node, then everything below the right operand; a node with one argument comes before what is below the argument. The functor ends in the state that these calls, in this order, lead to. If the traversal returns, all calls returned and every node was visited except those below a node that was declined. If an exception leaves it, the last call threw it and no other call threw. No other sequence of calls meets this description.", "quantifier": "all functors with any state, all expressions, all initial states", "why_tests_cant": "Whether the order is kept depends on the expression and on every answer of the functor so far; a test has one functor with one way of answering.", "anchors": ["viennamath/runtime/binary_expr.hpp:recursive_traversal", "viennamath/runtime/unary_expr.hpp:recursive_traversal", "viennamath/runtime/expression_interface.hpp:recursive_traversal", "viennamath/runtime/functor_wrapper.hpp:rt_traversal_interface"]}
{"id": "C109", "title": "Results of diff, substitute and apply_coordinate_system are already simplified", "statement": "What diff, both versions of substitute for expressions, and apply_coordinate_system return says that it cannot be simplified, is left as it is by inplace_simplify, and contains no trivial operation (two constants, adding or subtracting 0, multiplying by 0 or 1, dividing 0 or dividing by 1) in operands and arguments at any depth. If numbers are substituted for all variables of an expression made of constants, variables, + - * and /, the result is a single constant: the value of the expression where the variables have those values (for a variable listed twice, the number listed first). Substitution of symbolic intervals simplifies nothing, and entries of vectors are not simplified.", "quantifier": "all expressions with binary operators + - * /, all variables, all searched expressions and replacements", "why_tests_cant": "What substitution and differentiation leave behind depends on the shape of the expression; tests look at the results of a few.", "anchors": ["viennamath/manipulation/diff.hpp:diff", "viennamath/manipulation/substitute.hpp:substitute", "viennamath/manipulation/apply_coordinate_system.hpp:apply_coordinate_system", "viennamath/manipulation/simplify.hpp:inplace_simplify"]}
{"id": "C110", "title": "Compile-time derivatives of polynomials end in a number and then in 0", "statement": "Take a compile-time expression that is a polynomial of degree d in some variables (these are neither in the coefficients nor in what is divided by), differentiate it with result_of::diff by any of these variables in any order, simplify and expand anywhere in between, and simplify at the end, provided that this compiles. Every differentiation takes one off the degree. After d differentiations none of these variables is left in the type; for a polynomial in all its variables it is a single number (an integer or a quotient of two integers, not necessarily reduced), equal to the partial derivative if no number left the range of int on the way. After more than d differentiations the type is ct_constant<0>, whatever happens to numbers that leave the range. It does not always compile: the derivative of (p/q)*x is never simplified, for any two integers p and q.", "quantifier": "all compile-time polynomials, all sets of variables, all sequences of differentiations, simplifications and expansions, every treatment of overflow that keeps 0", "why_tests_cant": "How far an expression shrinks depends on which of about fifty specialisations match at each level; a test sees a few polynomials and a few orders.", "anchors": ["viennamath/manipulation/diff.hpp:result_of::diff", "viennamath/manipulation/simplify.hpp:result_of::simplify", "viennamath/manipulation/expand.hpp:result_of::expand"]}
{"id": "C111", "title": "Compile-time simplification nests a bounded number of templates", "statement": "Compilers give up when class templates are nested too deep. simplify() of a compile-time expression with n nodes nests at most 2n + 91 instantiations, whether it compiles or not, so that 404 nodes fit into the 900 levels of GCC and 466 nodes into the 1024 levels recommended by C++11; simplify() of a derivative at most 4n^2 + 91, where n is the number of nodes of the expression that is differentiated. The greatest common divisor of two numbers of type long nests at most 92, and some numbers need all of them. The bound has the right order: a sum of n+1 variables, in which there is nothing to simplify, needs n+2.", "quantifier": "all compile-time expressions with numbers of type long, all variables, every treatment of numbers that leave the range of int", "why_tests_cant": "How often the loop turns and how deep each turn goes depends on the expression; a test compiles a few small ones and would not see that the depth grows too fast.", "anchors": ["viennamath/manipulation/simplify.hpp:result_of::simplify", "viennamath/manipulation/simplify.hpp:detail::simplify_impl", "viennamath/forwards.h:result_of::gcd", "viennamath/manipulation/diff.hpp:result_of::diff"]}
{"id": "C112", "title": "expand() multiplies out completely: every product of addends once", "statement": "The addends of expand(e) are exactly the products that arise by choosing one addend from each factor, in all ways: each appears once, with the right sign, the same constants, variables and function symbols as factors and the same values of the denominators, in the order in which they are read from left to right. Nothing is merged, dropped or doubled. So their number is known in advance: sums add, products multiply, denominators do not count; n factors with k addends each give k^n. Without division the number of nodes of the result is known in advance, too.", "quantifier": "all compile-time expressions, all fields", "why_tests_cant": "A value test at some points cannot tell which addends were written, and nested products of sums go through expand and expand_with_factor in an order that depends on the whole expression.", "anchors": ["viennamath/manipulation/expand.hpp:result_of::expand", "viennamath/manipulation/expand.hpp:result_of::expand_with_factor", "viennamath/manipulation/expand.hpp:result_of::expand_product", "viennamath/manipulation/expand.hpp:result_of::has_plus_or_minus"]}
{"id": "C113", "title": "Expanding an expanded expression changes nothing", "statement": "expand(expand(e)) is the same expression as expand(e). If a second call changes the expression at all, then only the way denominators are written, and after a number of calls known in advance nothing changes any more.", "quantifier": "all compile-time expressions", "why_tests_cant": "Whether a second pass finds something to do depends on where quotients stand among products of sums; examples without nested quotients never show it.", "anchors": ["viennamath/manipulation/expand.hpp:result_of::expand", "viennamath/manipulation/expand.hpp:result_of::expand_with_factor"]}
{"id": "C114", "title": "LaTeX can read what is printed", "statement": "For every expression, equation and interval the text of the LaTeX translator is well set: each brace, parenthesis and bracket is closed by one of its kind in the right order, each \\left has its \\right with the matching delimiter, the only commands are the 16 commands of LaTeX that the library uses and those in texts given by the user (so none runs into the text that follows it), and the text is not empty. This holds after any calls of customize() with texts that are well set themselves. It holds in programs that copy, assign and destroy translators and add processors of their own, as long as these processors turn well set texts into well set texts. The text written to a stream closes what it opens, too.", "quantifier": "all expressions of any node kinds and depth, all equations and intervals, all histories of customize() calls, all number formats without brackets", "why_tests_cant": "Parentheses are opened and closed under conditions that depend on the operators of all enclosing nodes; a test compares the text of a few expressions.", "anchors": ["viennamath/manipulation/latex.hpp:rt_latex_translator::operator()", "viennamath/manipulation/latex.hpp:rt_latex_binary_expr_processor", "viennamath/manipulation/latex.hpp:rt_latex_unary_expr_processor", "viennamath/manipulation/latex.hpp:rt_latex_translator::customize", "viennamath/runtime/expr.hpp:operator<<", "viennamath/manipulation/latex.hpp:rt_latex_translator::add_processor"]}
{"id": "C115", "title": "Results are not nested much deeper than what they were made from", "statement": "The height of an expression (objects on the longest way from the outermost one to a leaf) bounds how deep calls of eval, clone and the destructor are nested. Simplifying never makes an expression higher. A derivative is at most three times as high, and no smaller factor holds for all expressions. Substitution, also of lists, adds at most the height of the (highest) replacement minus 1, which is attained; an interval put in for symbolic ones adds at most the height of its bounds minus 1; a coordinate system adds at most 16; a manipulation functor of the user adds to the whole at most what it adds at one place. Vectors count as high as the sum of their entries, because their products are written out as sums.", "quantifier": "all run-time expressions, all variables and function symbols, all searched expressions and replacements, all functors, any numeric type", "why_tests_cant": "A test measures some results; whether a long calculation can exhaust the stack depends on a bound for all of them.", "anchors": ["viennamath/manipulation/diff.hpp:diff", "viennamath/manipulation/simplify.hpp:inplace_simplify", "viennamath/manipulation/substitute.hpp:substitute", "viennamath/manipulation/apply_coordinate_system.hpp:apply_coordinate_system", "viennamath/manipulation/detail/binary_operations.hpp:diff_impl", "viennamath/runtime/vector_expr.hpp:operator*", "viennamath/runtime/expression_interface.hpp:recursive_manipulation"]}
{"id": "C116", "title": "Types of compile-time results do not explode except through expansion", "statement": "Counting the constants, variables, symbols and operations written in the type of a compile-time expression: simplify never gives a larger type, whichever of the matching rules a compiler picks; diff gives at most twice the square (and a square is needed); substitute gives at most the product of the sizes of the expression and the replacement; coefficient and drop_dependent_terms give at most the size of the expanded expression; integrate gives at most 2(A+B)+7 for each node of the expanded integrand, A and B being the sizes of the bounds, which is attained. So only expand, whose result size is known exactly (C112), can make types grow faster than a square.", "quantifier": "all compile-time expressions, all variables, factors, bounds and replacements for which the operation compiles, all choices among ambiguous rules", "why_tests_cant": "Compiling some examples shows the sizes of some types; whether a program that combines these operations stays compilable depends on bounds for all of them.", "anchors": ["viennamath/manipulation/simplify.hpp:simplify_impl", "viennamath/manipulation/diff.hpp:result_of::diff", "viennamath/manipulation/substitute.hpp:result_of::substitute", "viennamath/manipulation/coefficient.hpp:coefficient_impl", "viennamath/manipulation/drop_dependent_terms.hpp:drop_dependent_terms", "viennamath/manipulation/integrate.hpp:integrate_impl"]}
{"id": "C117", "title": "Operations need a stack no deeper than a small multiple of the height of the expression", "statement": "Counting how many calls of member functions of expression objects (eval, is_constant, unwrap, deep_equal, can_simplify, simplify, diff, substitute) are active at the same time: evaluation never has more than the height of the expression, and exactly as many if it returns a number; comparison no more than the height of the lower expression; a simplification pass no more than the height plus one; simplification until nothing changes no more than the height plus one; differentiation no more than three times the height plus one, and no smaller factor does; substitution (also of lists) no more than the height of the expression plus that of the (highest) replacement. This holds also if the operation throws. Before a result is returned, at some time at least as many calls are active as it is high. Vectors count as high as the sum of their entries.", "quantifier": "all run-time expressions, all points, variables, function symbols, searched expressions and replacements, all orders in which a compiler evaluates operands, any numeric type", "why_tests_cant": "Whether a deep expression exhausts the stack depends on the expression; a test that passes says nothing about the next one.", "anchors": ["viennamath/manipulation/eval.hpp:eval", "viennamath/manipulation/simplify.hpp:inplace_simplify", "viennamath/manipulation/diff.hpp:diff", "viennamath/manipulation/substitute.hpp:substitute", "viennamath/runtime/binary_expr.hpp:rt_binary_expr", "viennamath/runtime/unary_expr.hpp:rt_unary_expr", "viennamath/runtime/vector_expr.hpp:rt_vector_expr", "viennamath/manipulation/detail/binary_operations.hpp:simplify_impl"]}
{"id": "C118", "title": "The order of the pairs in a simultaneous substitution does not matter", "statement": "substitute() with lists of searched expressions and replacements gives the same outcome for every order of the pairs, as long as deep_equal tells any two of the searched expressions apart. Of two pairs with the same searched expression the later one has no effect. A pair whose searched expression equals no part of the expression has no effect, wherever it is in the lists. Empty lists only simplify, and lists of length one are an ordinary substitution.", "quantifier": "all expressions (vectors of any sizes and integrals included), all lists of pairs, all permutations of them, any numeric type whose comparison is symmetric and transitive", "why_tests_cant": "The number of orders grows with the factorial of the length of the lists, and whether an order matters depends on how each part of the expression compares with each searched expression.", "anchors": ["viennamath/manipulation/substitute.hpp:substitute", "viennamath/runtime/binary_expr.hpp:substitute", "viennamath/runtime/unary_expr.hpp:substitute", "viennamath/runtime/vector_expr.hpp:substitute", "viennamath/runtime/vector_expr.hpp:deep_equal"]}
{"id": "C119", "title": "Printed texts have linear length", "statement": "The LaTeX text and the plain text of an expression are at most as long as the texts of its numbers, variables, function symbols and indices (each counted as often as it occurs in the expression) plus 64 letters for each object of the expression. The same holds for equations, and for intervals in LaTeX, with 13 more letters. The plain text has at least one letter for each object. Nested parentheses therefore never let a text grow faster than the expression; for x - (x - (... - x)) the length in LaTeX is exactly 12 n + 7.", "quantifier": "all expressions (vectors of any sizes and integrals included), all customizations of the LaTeX translator, any way of printing numbers", "why_tests_cant": "A text printed twice at some kind of object makes the length exponential in the depth of nesting, but tests with shallow expressions show short texts in any case.", "anchors": ["viennamath/manipulation/latex.hpp:rt_latex_translator", "viennamath/runtime/expr.hpp:operator<<", "viennamath/runtime/binary_expr.hpp:deep_str", "viennamath/runtime/unary_expr.hpp:deep_str", "viennamath/runtime/vector_expr.hpp:deep_str", "viennamath/runtime/equation.hpp:operator<<"]}
{"id": "C120", "title": "Which expressions can be written", "statement": "Every run-time expression made of numbers, variables, sums, differences, products, quotients and the functions exp, sin, cos, tan, fabs, sqrt, log, log10 is built, as exactly this tree, by some formula of numbers, run-time variables, operators, functions and expr(...). No formula of these (or with compile-time objects and constants) that compiles builds any other expression, such as one with the identity operation in it. A formula of run-time objects that does not apply exp directly to a function call and in which no operator or function has numbers only as operands compiles and builds exactly the tree it is written as; additional expr(...) make no difference.", "quantifier": "all expressions, all formulas, whichever reading of the overloads for mixed constants", "why_tests_cant": "Formulas and expressions are infinitely many, and missing or surprising overloads for one combination of static types would be seen only by a test with this combination.", "anchors": ["viennamath/forwards.h:operator+", "viennamath/runtime/operations/rt_rt.hpp", "viennamath/runtime/expr.hpp:rt_expr", "viennamath/manipulation/detail/unary_operations.hpp", "viennamath/runtime/binary_expr.hpp:rt_binary_expr"]}
{"id": "C121", "title": "Compile-time formulas are folded completely", "statement": "A formula of compile-time constants, compile-time variables and operators, if it compiles, has a type in which nothing is left to fold: no two constants combined by +, - or *, no constant added to or subtracted from an expression that begins with a constant (or the other way round), no x + x, x - x, x / x, (x + X) - x, and no quotient of an expression by itself. Conversely every such expression, written down with the operators, has exactly the type written down. Writing down the type of a formula again therefore changes nothing. A formula compiles if its constants, added where it adds, subtracts or divides and multiplied where it multiplies (counting at least 1 for each constant and variable), do not exceed the largest long, and no constant in its type is larger than that number.", "quantifier": "all formulas of compile-time constants, variables and operators, all compile-time expressions", "why_tests_cant": "Overload resolution depends on the types of the operands, of which there are infinitely many; a test sees single types.", "anchors": ["viennamath/compiletime/operations/ct_constant.hpp", "viennamath/compiletime/operations/ct_expr.hpp", "viennamath/compiletime/operations/ct_variable.hpp", "viennamath/compiletime/operations/ct_ct.hpp", "viennamath/forwards.h:operator+"]}
