{
 "claims": [
  {
   "property": "C01",
   "status": "proved",
   "theorems": [
    "VM.Props.C01_eval_arith",
    "VM.Props.C01_order_irrelevant",
    "VM.Props.C01_ct_variable_unchecked"
   ],
   "note": "Holds for run-time expressions. C01_ct_variable_unchecked records that eval() of a single compile-time variable does not check the range."
  },
  {
   "property": "C02",
   "status": "proved",
   "theorems": [
    "VM.Props.C02_eval_frame",
    "VM.Props.C02_any_length"
   ],
   "note": ""
  },
  {
   "property": "C03",
   "status": "proved",
   "theorems": [
    "VM.Props.C03_scalar_eq_vector",
    "VM.Props.C03_variable_object_call"
   ],
   "note": "Holds for evaluation as an expression. Calling an rt_variable object with a scalar is only guarded by an assert (C03_variable_object_call)."
  },
  {
   "property": "C04",
   "status": "proved",
   "theorems": [
    "VM.Props.C04_symbolic_throws",
    "VM.Props.C04_eval_no_ub",
    "VM.Props.C04_not_symbolic"
   ],
   "note": ""
  },
  {
   "property": "C05",
   "status": "proved",
   "theorems": [
    "VM.Props.C05_is_constant",
    "VM.Props.C05_is_constant_iff",
    "VM.Props.C05_ill_formed"
   ],
   "note": "For expressions built by constructors and operators. C05_ill_formed: false for the node built by assigning a number to an rt_binary_expr."
  },
  {
   "property": "C06",
   "status": "proved",
   "theorems": [
    "VM.Props.C06_simplify_value",
    "VM.Props.C06_simplify_value_scalar",
    "VM.Props.C06_simplify_meaning",
    "VM.Props.C06_undefined_may_change",
    "VM.Props.C06_exception_may_vanish"
   ],
   "note": "value preserved for every arithmetic with SimpLaws; also for symbolic node kinds under every interpretation; limits shown"
  },
  {
   "property": "C07",
   "status": "proved",
   "theorems": [
    "VM.Props.C07_no_new_variables",
    "VM.Props.C07_stays_evaluable"
   ],
   "note": ""
  },
  {
   "property": "C08",
   "status": "proved",
   "theorems": [
    "VM.Props.C08_terminates",
    "VM.Props.C08_simplify_ok",
    "VM.Props.C08_dimension_mismatch",
    "VM.Props.C08_ill_formed"
   ],
   "note": "All vectors of one non-zero size is the dimension condition; the last two theorems show what happens outside of the hypotheses."
  },
  {
   "property": "C09",
   "status": "proved",
   "theorems": [
    "VM.Props.C09_normal_form",
    "VM.Props.C09_vector_entries_untouched",
    "VM.Props.C09_function_of_constant"
   ],
   "note": "Vector entries are excluded in the claim; C09_vector_entries_untouched records that they are never simplified."
  },
  {
   "property": "C10",
   "status": "proved",
   "theorems": [
    "VM.Props.C10_constant_folding"
   ],
   "note": ""
  },
  {
   "property": "C11",
   "status": "proved",
   "theorems": [
    "VM.Props.C11_derivative"
   ],
   "note": "Exact real arithmetic with an undefined value; rounding is C68."
  },
  {
   "property": "C12",
   "status": "proved",
   "theorems": [
    "VM.Props.C12_refuses"
   ],
   "note": "Well-formed expressions whose vectors all have the same positive size."
  },
  {
   "property": "C13",
   "status": "partial",
   "theorems": [
    "VM.Props.C13_zero_partial",
    "VM.Props.C13_not_zero",
    "VM.Props.C13_zero_or_undefined"
   ],
   "note": "False as stated: diff(sqrt(0/y), x) is the constant 0/0 (C13_not_zero). Proved when there is a point where e is defined and no square root argument is 0. For all smooth expressions without the variable the result is 0 or an expression that is undefined everywhere (C13_zero_or_undefined)."
  },
  {
   "property": "C14",
   "status": "proved",
   "theorems": [
    "VM.Props.C14_symbol_derivative",
    "VM.Props.C14_other_symbol"
   ],
   "note": "Exact real arithmetic with an undefined value. As in C11, no square root argument is 0 at the point."
  },
  {
   "property": "C15",
   "status": "proved",
   "theorems": [
    "VM.Props.C15_substitute_value"
   ],
   "note": "arbitrary e, r (a value exists only for integral-free e)"
  },
  {
   "property": "C16",
   "status": "proved",
   "theorems": [
    "VM.Props.C16_simultaneous",
    "VM.Props.C16_variables_at_once",
    "VM.Props.C16_lengths"
   ],
   "note": "structural part for vectors of one size; lists of different lengths fail an assertion"
  },
  {
   "property": "C17",
   "status": "proved",
   "theorems": [
    "VM.Props.C17_equals_for_equals"
   ],
   "note": "exact arithmetic equality of constants (EqbSound)"
  },
  {
   "property": "C18",
   "status": "proved",
   "theorems": [
    "VM.Props.C18_variable_gone"
   ],
   "note": "also with integrals when the variable is not bound and not in a bound"
  },
  {
   "property": "C19",
   "status": "proved",
   "theorems": [
    "VM.Props.C19_absent",
    "VM.Props.C19_absent_variable"
   ],
   "note": ""
  },
  {
   "property": "C20",
   "status": "partial",
   "theorems": [
    "VM.Props.C20_free_variable_partial",
    "VM.Props.C20_scoped",
    "VM.Props.C20_bound_variable",
    "VM.Props.C20_bounds",
    "VM.Props.C20_capture"
   ],
   "note": "False as stated: bound variables are replaced, bounds are not, and integration variables capture (three negations). Proved for variables that are neither bound nor in bounds, without capture. C20_scoped says for every expression which value the result has (dynamic scope)."
  },
  {
   "property": "C21",
   "status": "partial",
   "theorems": [
    "VM.Props.C21_refl",
    "VM.Props.C21_nan",
    "VM.Props.C21_equivalence_partial",
    "VM.Props.C21_undefined",
    "VM.Props.C21_not_symmetric",
    "VM.Props.C21_when_equal",
    "VM.Props.C21_answers"
   ],
   "note": "false of the code for vectors of different sizes (undefined behaviour, not symmetric); proved when all vectors have one size; for all expressions C21_when_equal says what is taken for equal, C21_answers when the comparison is defined"
  },
  {
   "property": "C22",
   "status": "partial",
   "theorems": [
    "VM.Props.C22_same_outcome",
    "VM.Props.C22_interchangeable_partial",
    "VM.Props.C22_iff_eq",
    "VM.Props.C22_intervals_ignored",
    "VM.Props.C22_what_differs",
    "VM.Props.C22_treated_alike",
    "VM.Props.C22_searched_alike"
   ],
   "note": "evaluation outcome: all expressions; other operations: false of the code for integrals, whose intervals are ignored by the comparison; there the outcomes are proved to be the same up to intervals (C22_treated_alike)"
  },
  {
   "property": "C23",
   "status": "partial",
   "theorems": [
    "VM.Props.C23_values_partial",
    "VM.Props.C23_others_unchanged_partial",
    "VM.Props.C23_no_garbage_partial",
    "VM.Props.C23_all_freed_partial",
    "VM.Props.C23_unset_undefined"
   ],
   "note": "All histories of declaration, construction, copy, assignment (self, own parts), combination, simplify, inplace_simplify, diff, substitute, substitution of intervals and destruction of rt_expr, rt_unary_expr and rt_binary_expr objects refine a store of independent values; the calls are modelled down to each allocation and release. The statements without leaks are for histories in which no gradient is differentiated and no diff throws (see C48). Missing: unset objects (undefined behaviour, proved). Allocation failure is C67."
  },
  {
   "property": "C24",
   "status": "partial",
   "theorems": [
    "VM.Props.C24_assign_partial",
    "VM.Props.C24_own_left_undefined",
    "VM.Props.C24_number_throws"
   ],
   "note": "Holds unless the source lies in the left operand of the target (then undefined behaviour, proved for all such cases); assigning a number or constant yields an object whose evaluation always throws."
  },
  {
   "property": "C25",
   "status": "proved",
   "theorems": [
    "VM.Props.C25_traversal",
    "VM.Props.C25_all_nodes",
    "VM.Props.C25_any_visitor"
   ],
   "note": "All expressions; visitors with any state, decisions and exceptions. Vector entries and integration bounds are not nodes of the traversal."
  },
  {
   "property": "C26",
   "status": "proved",
   "theorems": [
    "VM.Props.C26_nothing",
    "VM.Props.C26_value",
    "VM.Props.C26_replaced"
   ],
   "note": "C26_replaced: outermost modified nodes and leaves are replaced, replacements are inserted unvisited."
  },
  {
   "property": "C27",
   "status": "proved",
   "theorems": [
    "VM.Props.C27_midpoint",
    "VM.Props.C27_affine",
    "VM.Props.C27_additive"
   ],
   "note": "Midpoint for any arithmetic with the simplifier's laws; exactness and additivity over the reals (rounding: C69). Non-constant bounds are a failed assertion (undefined)."
  },
  {
   "property": "C28",
   "status": "partial",
   "theorems": [
    "VM.Props.C28_sum",
    "VM.Props.C28_rejects_partial",
    "VM.Props.C28_no_ub",
    "VM.Props.C28_symbolic",
    "VM.Props.C28_zero",
    "VM.Props.C28_symbolic_summand"
   ],
   "note": "The code dereferences a null pointer for a symbolic integral, and accepts constants of value zero (both proved). The partial theorem covers all well-formed expressions without symbolic integrals among the summands. With symbolic integrals among the summands there is never a number, and undefined behaviour unless another summand throws (C28_symbolic_summand)."
  },
  {
   "property": "C29",
   "status": "partial",
   "theorems": [
    "VM.Props.C29_interval_partial",
    "VM.Props.C29_result",
    "VM.Props.C29_other_interval",
    "VM.Props.C29_nested",
    "VM.Props.C29_vector"
   ],
   "note": "The code ignores the searched interval, does not descend into replaced integrals and skips vectors (proved as negations). The partial theorem covers expressions with the one interval k outside these places; C29_result says what happens for every expression."
  },
  {
   "property": "C30",
   "status": "partial",
   "theorems": [
    "VM.Props.C30_eliminates_partial",
    "VM.Props.C30_result",
    "VM.Props.C30_value",
    "VM.Props.C30_product",
    "VM.Props.C30_plain",
    "VM.Props.C30_equation",
    "VM.Props.C30_not_in_bounds"
   ],
   "note": "Eliminated everywhere except in integration bounds, where the code leaves them (C30_not_in_bounds); gradients must be of function symbols or of expressions that simplification cannot turn into one, which is all grad() accepts. Value, product rule, plain expressions and equations in full."
  },
  {
   "property": "C31",
   "status": "proved",
   "theorems": [
    "VM.Props.C31_add",
    "VM.Props.C31_sub",
    "VM.Props.C31_size_mismatch",
    "VM.Props.C31_scale",
    "VM.Props.C31_div",
    "VM.Props.C31_dot",
    "VM.Props.C31_dot_real",
    "VM.Props.C31_copy",
    "VM.Props.C31_zeros"
   ],
   "note": "Loops modelled entry by entry; all sizes; dot product also over the reals."
  },
  {
   "property": "C32",
   "status": "partial",
   "theorems": [
    "VM.Props.C32_unambiguous_partial",
    "VM.Props.C32_equation_partial",
    "VM.Props.C32_interval_partial",
    "VM.Props.C32_digits",
    "VM.Props.C32_tags"
   ],
   "note": "Proved for the character text of the default translator, for expressions, equations and intervals, over any arithmetic with a+(b+c)=(a+b)+c and a+(b-c)=(a+b)-c, when different constants of the two expressions are printed differently and function symbols carry the unknown or test tag. C32_digits and C32_tags show that both restrictions are needed (the stream prints six digits; every tag other than the test tag is printed as u)."
  },
  {
   "property": "C33",
   "status": "partial",
   "theorems": [
    "VM.Props.C33_variable_partial",
    "VM.Props.C33_symbol_partial",
    "VM.Props.C33_variable_in_expr",
    "VM.Props.C33_symbol_in_expr",
    "VM.Props.C33_nothing_else",
    "VM.Props.C33_copy_partial",
    "VM.Props.C33_copy_differs",
    "VM.Props.C33_empty"
   ],
   "note": "Proved for all histories of customize calls and non-empty strings. Two negations: a copy of a translator forgets all customisations (C33_copy_differs), and the empty string is printed as chi_unknown (C33_empty)."
  },
  {
   "property": "C34",
   "status": "partial",
   "theorems": [
    "VM.Props.C34_value_partial",
    "VM.Props.C34_selected_partial",
    "VM.Props.C34_division_free",
    "VM.Props.C34_selected_is_choice",
    "VM.Props.C34_truncation"
   ],
   "note": "Value preserved for every choice among matching specialisations, over any field of characteristic 0, as long as no numerator/denominator leaves the range of int (no condition for expressions without division). False otherwise: numerators are stored in static const int and wrap (65536/3*65536/5 simplifies to 0)."
  },
  {
   "property": "C35",
   "status": "proved",
   "theorems": [
    "VM.Props.C35_terminates",
    "VM.Props.C35_bound",
    "VM.Props.C35_recursions"
   ],
   "note": "No infinite run of the loop for any choice among matching specialisations; bound 2*nodes; the model's loop and gcd satisfy their defining equations. The inner recursion of simplify_impl is structural."
  },
  {
   "property": "C36",
   "status": "partial",
   "theorems": [
    "VM.Props.C36_sum_partial",
    "VM.Props.C36_difference_partial",
    "VM.Props.C36_product_partial",
    "VM.Props.C36_quotient_partial",
    "VM.Props.C36_unit_fraction_rejected",
    "VM.Props.C36_truncation"
   ],
   "note": "Exact and in lowest terms (sign may sit in the denominator, or an integer) when numerator and denominator before reduction fit into int. Outside: products with a numerator 1 are ambiguous specialisations (compile error), and overflow of int is silent."
  },
  {
   "property": "C37",
   "status": "partial",
   "theorems": [
    "VM.Props.C37_value",
    "VM.Props.C37_shape_partial",
    "VM.Props.C37_no_sum_factor_partial",
    "VM.Props.C37_denominator"
   ],
   "note": "Value part complete in every field. Shape: holds outside denominators for every expression, and everywhere if denominators below products are expanded; false otherwise (witness)."
  },
  {
   "property": "C38",
   "status": "proved",
   "theorems": [
    "VM.Props.C38_derivative"
   ],
   "note": "HasDerivAt over the reals for every expression without function symbols, at every point where it is defined."
  },
  {
   "property": "C39",
   "status": "proved",
   "theorems": [
    "VM.Props.C39_value",
    "VM.Props.C39_undefined",
    "VM.Props.C39_removed"
   ],
   "note": "For every field."
  },
  {
   "property": "C40",
   "status": "partial",
   "theorems": [
    "VM.Props.C40_exact_partial",
    "VM.Props.C40_reduced_partial",
    "VM.Props.C40_not_reduced",
    "VM.Props.C40_rejected",
    "VM.Props.C40_minus_zero_rejected",
    "VM.Props.C40_truncation"
   ],
   "note": "If evaluation compiles without a number leaving int, the expression is defined at the point and the result is exact; reduced unless it is a quotient of two integer-valued parts. Negations: 5/x at 10 is left as 5/10, x-y at (5,0) does not compile, int overflow."
  },
  {
   "property": "C41",
   "status": "partial",
   "theorems": [
    "VM.Props.C41_coefficient",
    "VM.Props.C41_split_partial",
    "VM.Props.C41_split_division_free_partial",
    "VM.Props.C41_rejected"
   ],
   "note": "Holds whenever drop_dependent_terms compiles and no number leaves int; drop_dependent_terms(x, 5-x) does not compile."
  },
  {
   "property": "C42",
   "status": "partial",
   "theorems": [
    "VM.Props.C42_single_variable_partial",
    "VM.Props.C42_parameters_partial",
    "VM.Props.C42_parameter_ignored",
    "VM.Props.C42_parameter_wrong",
    "VM.Props.C42_rejected"
   ],
   "note": "Exact for one variable, and with parameters if no term is a lone parameter; the code integrates a lone parameter y as if it were x."
  },
  {
   "property": "C43",
   "status": "partial",
   "theorems": [
    "VM.Props.C43_add",
    "VM.Props.C43_sub",
    "VM.Props.C43_mul",
    "VM.Props.C43_div_partial",
    "VM.Props.C43_div_self",
    "VM.Props.C43_no_constants",
    "VM.Props.C43_div_run_time_constants",
    "VM.Props.C43_div_at_zero",
    "VM.Props.C43_mul_accepts",
    "VM.Props.C43_div_accepts",
    "VM.Props.C43_add_accepts",
    "VM.Props.C43_sub_accepts",
    "VM.Props.C43_div_compiles"
   ],
   "note": "Addition, subtraction, multiplication: proved for all operands and overloads. Division: proved when an operand has no run-time constant inside, or when both operands are the same object; false otherwise, ((1+x)+2.0)/((1+x)+3.0) is the constant 1 (C43_div_run_time_constants). Arithmetic of a field, one scalar type; run-time expression operands only reach the generic operator and are not modelled. Which products, and quotients with a run-time constant, compile is decided exactly."
  },
  {
   "property": "C44",
   "status": "proved",
   "theorems": [
    "VM.Props.C44_converts",
    "VM.Props.C44_value",
    "VM.Props.C44_out_of_range",
    "VM.Props.C44_same_order",
    "VM.Props.C44_at_constant",
    "VM.Props.C44_at_constant_differs",
    "VM.Props.C44_expr_assign",
    "VM.Props.C44_binary_assign_partial",
    "VM.Props.C44_binary_assign_constants"
   ],
   "note": "Construction of expr from any compile-time expression of constants, variables and binary operations, at every vector, for every numeric type. Additional facts: single-number arguments, assignment; assigning constants to a binary_expr gives an expression that cannot be evaluated."
  },
  {
   "property": "C45",
   "status": "proved",
   "theorems": [
    "VM.Props.C45_identifies",
    "VM.Props.C45_identifies_deep",
    "VM.Props.C45_equation",
    "VM.Props.C45_object",
    "VM.Props.C45_digits",
    "VM.Props.C45_tags"
   ],
   "note": "Unique readability of the stream output of run-time expressions (all node kinds) and equations. The hypotheses on constants and tags are necessary: C45_digits and C45_tags."
  },
  {
   "property": "C46",
   "status": "proved",
   "theorems": [
    "VM.Props.C46_no_trivial_operation",
    "VM.Props.C46_numbers_fold",
    "VM.Props.C46_idempotent",
    "VM.Props.C46_zero_divisor_rejected",
    "VM.Props.C46_zero_divisor_inside",
    "VM.Props.C46_zero_divisor_hidden"
   ],
   "note": "For every conversion long to int."
  },
  {
   "property": "C47",
   "status": "partial",
   "theorems": [
    "VM.Props.C47_numbers",
    "VM.Props.C47_constants_partial",
    "VM.Props.C47_truncation",
    "VM.Props.C47_variable_unchecked",
    "VM.Props.C47_compiles"
   ],
   "note": "A vector with a number in it: proved for any arithmetic. A vector of constants: in exact arithmetic and when no number leaves the range of int; false otherwise (C47_truncation). A lone variable is not bounds checked (C47_variable_unchecked)."
  },
  {
   "property": "C48",
   "status": "partial",
   "theorems": [
    "VM.Props.C48_clean_partial",
    "VM.Props.C48_throw_partial",
    "VM.Props.C48_gradient_leaks",
    "VM.Props.C48_gradients_lose",
    "VM.Props.C48_exception_leaks"
   ],
   "note": "Exact memory after each call, for all reachable states, arguments and evaluation orders, unless a gradient is differentiated or the call throws; both leak (concrete cases proved; for nested gradients the loss is exponential, C48_gradients_lose), and then what was live before is still shown unchanged. Allocation failure is C67."
  },
  {
   "property": "C49",
   "status": "partial",
   "theorems": [
    "VM.Props.C49_value_partial",
    "VM.Props.C49_quotient",
    "VM.Props.C49_compiles",
    "VM.Props.C49_constant_inside"
   ],
   "note": "Value: all formulas that compile, exact real arithmetic, except quotients with run-time constants in numerator and denominator (false there, C49_quotient). Compilation: decided exactly for run-time formulas (fails only for exp of a function call); with compile-time operands some formulas do not compile (C49_constant_inside). Function symbols, gradients and integrals are the subject of C64; ct_unary_expr is not modelled."
  },
  {
   "property": "C50",
   "status": "partial",
   "theorems": [
    "VM.Props.C50_values_partial",
    "VM.Props.C50_three",
    "VM.Props.C50_compiles",
    "VM.Props.C50_dangling",
    "VM.Props.C50_alias",
    "VM.Props.C50_leave"
   ],
   "note": "False for vectors with one or two entries, which hold references (C50_dangling, C50_alias, C50_leave). Proved for vectors with three entries, and for all programs that use shorter vectors only while the variables they refer to keep their values. Entries of type double, evaluation by rt_expr."
  },
  {
   "property": "C51",
   "status": "partial",
   "theorems": [
    "VM.Props.C51_equation_partial",
    "VM.Props.C51_interval_partial",
    "VM.Props.C51_equation_compiles",
    "VM.Props.C51_interval_compiles",
    "VM.Props.C51_constants_lost"
   ],
   "note": "False for some combinations of operand types, which do not compile (decided exactly), and for compile-time operands with run-time constants inside (C51_constants_lost). Exact real arithmetic; formulas as in C49."
  },
  {
   "property": "C52",
   "status": "partial",
   "theorems": [
    "VM.Props.C52_identifies_partial",
    "VM.Props.C52_equation_partial",
    "VM.Props.C52_interval_partial",
    "VM.Props.C52_vector_partial",
    "VM.Props.C52_compiles",
    "VM.Props.C52_sides_compile",
    "VM.Props.C52_vector_compiles"
   ],
   "note": "False for function symbols, and for equations and intervals with run-time constants inside: these cannot be written (decided exactly). Everything that can be written is identified by its text. Vector entries are compile-time expressions or constants."
  },
  {
   "property": "C53",
   "status": "proved",
   "theorems": [
    "VM.Props.C53_simplify",
    "VM.Props.C53_passes",
    "VM.Props.C53_diff",
    "VM.Props.C53_substitute",
    "VM.Props.C53_substituteMany",
    "VM.Props.C53_diff_quadratic"
   ],
   "note": "Nodes are counted with the entries of vectors and the bodies of integrals. C53_diff_quadratic: the bound for derivatives cannot be improved to a linear one."
  },
  {
   "property": "C54",
   "status": "proved",
   "theorems": [
    "VM.Props.C54_iterated",
    "VM.Props.C54_order"
   ],
   "note": "Exact real arithmetic."
  },
  {
   "property": "C55",
   "status": "proved",
   "theorems": [
    "VM.Props.C55_chain_rule"
   ],
   "note": "Exact real arithmetic."
  },
  {
   "property": "C56",
   "status": "partial",
   "theorems": [
    "VM.Props.C56_simplify_compiles",
    "VM.Props.C56_simplify_partial",
    "VM.Props.C56_inplace",
    "VM.Props.C56_diff_compiles",
    "VM.Props.C56_diff_partial",
    "VM.Props.C56_diff_compiletime",
    "VM.Props.C56_diff_symbol",
    "VM.Props.C56_substitute_compiles",
    "VM.Props.C56_substitute_partial",
    "VM.Props.C56_substitute_compiletime",
    "VM.Props.C56_substitute_hollow",
    "VM.Props.C56_substitute_missed",
    "VM.Props.C56_lists_compile",
    "VM.Props.C56_lists_partial",
    "VM.Props.C56_lists_ignored",
    "VM.Props.C56_fails"
   ],
   "note": "Which calls compile is decided exactly; where a call compiles on run-time objects the outcome is that for the expr, and on compile-time objects it is so after simplification. The full claim is false: many calls do not compile, run-time replacements in compile-time expressions are lost, a function symbol differentiated by a variable behaves differently (C56_fails, C56_diff_symbol, C56_substitute_hollow, C56_substitute_missed), and substitution of lists or of an interval compiles only for an expr or, without any effect, for a compile-time expression (C56_lists_compile, C56_lists_ignored). Not modelled: other interface and scalar types, ct_unary_expr."
  },
  {
   "property": "C57",
   "status": "proved",
   "theorems": [
    "VM.Props.C57_eval",
    "VM.Props.C57_eval_throws",
    "VM.Props.C57_simplify",
    "VM.Props.C57_equal",
    "VM.Props.C57_diff",
    "VM.Props.C57_substitute",
    "VM.Props.C57_substituteMany",
    "VM.Props.C57_quadrature",
    "VM.Props.C57_interval",
    "VM.Props.C57_identified"
   ],
   "note": "All operations of the statement, all kinds of nodes, any numeric type. Exceptions of evaluation agree up to the index they report."
  },
  {
   "property": "C58",
   "status": "partial",
   "theorems": [
    "VM.Props.C58_eval_site",
    "VM.Props.C58_eval_partial",
    "VM.Props.C58_eval_formal",
    "VM.Props.C58_eval_index",
    "VM.Props.C58_eval_arith",
    "VM.Props.C58_unwrap_partial",
    "VM.Props.C58_diff_site",
    "VM.Props.C58_diff",
    "VM.Props.C58_diff_own"
   ],
   "note": "Proved in full for diff. Evaluation: false for variables out of range (what() is undefined behaviour) and for formal derivatives (a string literal is thrown, not a std::exception); these are the only exceptions to the claim."
  },
  {
   "property": "C59",
   "status": "proved",
   "theorems": [
    "VM.Props.C59_diff",
    "VM.Props.C59_diff_fails",
    "VM.Props.C59_substitute",
    "VM.Props.C59_substitute_fails",
    "VM.Props.C59_derivative",
    "VM.Props.C59_dot"
   ],
   "note": "Real arithmetic for the values. The entries of the result are compared with the results for the entries up to the final simplification, which does not descend into vectors. Substituting for a vector (deep_equal on vectors) is not covered here."
  },
  {
   "property": "C60",
   "status": "partial",
   "theorems": [
    "VM.Props.C60_call_partial",
    "VM.Props.C60_eval_partial",
    "VM.Props.C60_later_variable",
    "VM.Props.C60_call_compiles",
    "VM.Props.C60_eval_is_call"
   ],
   "note": "False for variables other than the first one called with a single number (C60_later_variable); proved for everything else. Only the default numeric type; which overload is selected for each kind of argument is part of the model."
  },
  {
   "property": "C61",
   "status": "proved",
   "theorems": [
    "VM.Props.C61_text_iff",
    "VM.Props.C61_equation_iff",
    "VM.Props.C61_interval_iff",
    "VM.Props.C61_any_translator",
    "VM.Props.C61_vectors",
    "VM.Props.C61_integral"
   ],
   "note": "For the character text of the default translator. C61_vectors shows why vectors are left out: all of them are printed as the same text."
  },
  {
   "property": "C62",
   "status": "proved",
   "theorems": [
    "VM.Props.C62_values",
    "VM.Props.C62_owners",
    "VM.Props.C62_no_leak",
    "VM.Props.C62_copy",
    "VM.Props.C62_default",
    "VM.Props.C62_handed_twice"
   ],
   "note": "Rules are opaque (any type of rules with a clone function that returns). C62_default and C62_handed_twice show that the two provisos of the statement are needed."
  },
  {
   "property": "C63",
   "status": "proved",
   "theorems": [
    "VM.Props.C63_value",
    "VM.Props.C63_midpoint",
    "VM.Props.C63_exact",
    "VM.Props.C63_scaled_gradient"
   ],
   "note": "Numbers are exact reals. C63_scaled_gradient shows that products of a number and a vector, which the statement does not list, are indeed not supported."
  },
  {
   "property": "C64",
   "status": "partial",
   "theorems": [
    "VM.Props.C64_compiles",
    "VM.Props.C64_form_compiles",
    "VM.Props.C64_value_partial",
    "VM.Props.C64_midpoint_partial",
    "VM.Props.C64_exact_partial",
    "VM.Props.C64_vector_times_gradient",
    "VM.Props.C64_laplace"
   ],
   "note": "Proved for texts in which a vector inside of an expression (a gradient, or expr(v)) is only multiplied with another one and no Laplacian occurs. The full claim is false of the code, negations proved: a vector object times a gradient builds a vector instead of the scalar product (C64_vector_times_gradient), Laplacians (C64_laplace) and scaled gradients (C63_scaled_gradient) never become evaluable."
  },
  {
   "property": "C65",
   "status": "proved",
   "theorems": [
    "VM.Props.C65_step",
    "VM.Props.C65_singular",
    "VM.Props.C65_quadratic",
    "VM.Props.C65_converges",
    "VM.Props.C65_result",
    "VM.Props.C65_short",
    "VM.Props.C65_loses_solution",
    "VM.Props.C65_gives_up",
    "VM.Props.C65_endless"
   ],
   "note": "Exact real arithmetic with an undefined value; rounding is C71."
  },
  {
   "property": "C66",
   "status": "proved",
   "theorems": [
    "VM.Props.C66_error",
    "VM.Props.C66_composite",
    "VM.Props.C66_converges",
    "VM.Props.C66_sharp"
   ],
   "note": "Exact real arithmetic; rounding is C69."
  },
  {
   "property": "C67",
   "status": "partial",
   "theorems": [
    "VM.Props.C67_safe",
    "VM.Props.C67_others",
    "VM.Props.C67_unchanged_partial",
    "VM.Props.C67_inplace_partial",
    "VM.Props.C67_which",
    "VM.Props.C67_half_assigned",
    "VM.Props.C67_half_assigned_unary",
    "VM.Props.C67_leaks"
   ],
   "note": "All programs with handlers, all sets of failing requests. Safety, isolation and the strong guarantee for construction and assignment of rt_expr hold; assignment to an rt_binary_expr, or of a number to an rt_unary_expr, can be left half done (proved), and failed calls lose memory (proved)."
  },
  {
   "property": "C68",
   "status": "proved",
   "theorems": [
    "VM.Props.C68_evaluation",
    "VM.Props.C68_simplify",
    "VM.Props.C68_derivative",
    "VM.Props.C68_polynomial_running",
    "VM.Props.C68_polynomial",
    "VM.Props.C68_positive",
    "VM.Props.C68_cancellation",
    "VM.Props.C68_sqrt_zero"
   ],
   "note": "Floating point arithmetic in the standard model (relative and absolute rounding error, overflow, library functions of that accuracy); infinities and NaN are one value and the sign of zero is not kept. C68_cancellation and C68_sqrt_zero show why the claim is not about relative error and excludes square roots of zero."
  },
  {
   "property": "C69",
   "status": "proved",
   "theorems": [
    "VM.Props.C69_accuracy",
    "VM.Props.C69_error",
    "VM.Props.C69_tolerance"
   ],
   "note": "Floating point arithmetic as in C68; the one-point rule."
  },
  {
   "property": "C70",
   "status": "proved",
   "theorems": [
    "VM.Props.C70_requests",
    "VM.Props.C70_enough",
    "VM.Props.C70_cleanup",
    "VM.Props.C70_diff_polynomial",
    "VM.Props.C70_gradients_exponential",
    "VM.Props.C48_gradients_lose"
   ],
   "note": "Counts requests for memory, not read-only visits; a node with its operator object is one request."
  },
  {
   "property": "C71",
   "status": "proved",
   "theorems": [
    "VM.Props.C71_step",
    "VM.Props.C71_converges",
    "VM.Props.C71_endless"
   ],
   "note": "Floating point arithmetic as in C68; literals are rounded too; NaN and infinities compare false with everything."
  },
  {
   "property": "C72",
   "status": "proved",
   "theorems": [
    "VM.Props.C72_threads",
    "VM.Props.C72_shared",
    "VM.Props.C72_exist",
    "VM.Props.C72_race",
    "VM.Props.C72_accesses"
   ],
   "note": "Any number of threads, all interleavings of single accesses to memory; includes absence of data races. C72_race: false for threads that change shared objects."
  },
  {
   "property": "C73",
   "status": "proved",
   "theorems": [
    "VM.Props.C73_number",
    "VM.Props.C73_wrap",
    "VM.Props.C73_copy"
   ],
   "note": "Enough memory is assumed (allocation failure is C67). Assignment between unary expression objects does not compile and is not modelled; objects holding integrals are not modelled."
  },
  {
   "property": "C74",
   "status": "proved",
   "theorems": [
    "VM.Props.C74_element",
    "VM.Props.C74_assembly",
    "VM.Props.C74_converges"
   ],
   "note": "Exact real arithmetic; one dimension (in more dimensions the library has no integration). That the integrands are twice differentiable is a hypothesis."
  },
  {
   "property": "C75",
   "status": "partial",
   "theorems": [
    "VM.Props.C75_values_partial",
    "VM.Props.C75_owners_partial",
    "VM.Props.C75_no_leak_partial",
    "VM.Props.C75_added",
    "VM.Props.C75_library",
    "VM.Props.C75_user",
    "VM.Props.C75_shape",
    "VM.Props.C75_assigned_twice_deleted",
    "VM.Props.C75_assigned_lost",
    "VM.Props.C75_assigned_shares"
   ],
   "note": "Proved for programs that assign no translator to another one. With such an assignment the claim is false of the code (the compiler-generated assignment copies pointers): double deletes, use after release, lost and shared processors are proved from every reachable state. Not covered: processors of the user that throw or keep expressions."
  },
  {
   "property": "C76",
   "status": "proved",
   "theorems": [
    "VM.Props.C76_integral",
    "VM.Props.C76_integral_value",
    "VM.Props.C76_integral_unchanged",
    "VM.Props.C76_latex",
    "VM.Props.C76_latex_ends"
   ],
   "note": "Nodes on the heap; memory inside strings is not modelled. Memory lost after std::bad_alloc is admitted, as in C67."
  },
  {
   "property": "C77",
   "status": "partial",
   "theorems": [
    "VM.Props.C77_simplify_partial",
    "VM.Props.C77_simplify_exact_partial",
    "VM.Props.C77_substitute_partial",
    "VM.Props.C77_equal_partial",
    "VM.Props.C77_finite",
    "VM.Props.C77_sign_of_zero",
    "VM.Props.C77_equal_zeros",
    "VM.Props.C77_nan_may_vanish",
    "VM.Props.C77_arithmetic",
    "VM.Props.C77_functions"
   ],
   "note": "Proved for evaluations that divide nothing by zero, for every format; infinite values and intermediate results are admitted. Without the condition the claim is false: the sign of a zero may change and become the sign of an infinity (C77_sign_of_zero, C77_equal_zeros). That the modelled arithmetic is that of IEEE 754 is stated against extended real numbers (C77_arithmetic, C77_functions)."
  },
  {
   "property": "C78",
   "status": "partial",
   "theorems": [
    "VM.Props.C78_safe_partial",
    "VM.Props.C78_others",
    "VM.Props.C78_made",
    "VM.Props.C78_copied",
    "VM.Props.C78_unchanged",
    "VM.Props.C78_all_freed",
    "VM.Props.C78_interval_assign",
    "VM.Props.C78_interval_assign_undefined",
    "VM.Props.C78_unset",
    "VM.Props.C78_half_assigned"
   ],
   "note": "Proved for equations, and for intervals without assignment. False for assignment of intervals (operator= has no return: undefined behaviour, C78_interval_assign_undefined), for default constructed equations as a source of assignment (C78_unset), and assignment of equations is not all or nothing when memory runs out (C78_half_assigned)."
  },
  {
   "property": "C79",
   "status": "proved",
   "theorems": [
    "VM.Props.C79_program",
    "VM.Props.C79_threads",
    "VM.Props.C79_exist",
    "VM.Props.C79_stale"
   ],
   "note": "All programs, all allocators, any number of threads. C79_stale: for a program with a stale pointer reuse does show."
  },
  {
   "property": "C80",
   "status": "proved",
   "theorems": [
    "VM.Props.C80_safe",
    "VM.Props.C80_others",
    "VM.Props.C80_made",
    "VM.Props.C80_copied",
    "VM.Props.C80_sum",
    "VM.Props.C80_scaled",
    "VM.Props.C80_dot",
    "VM.Props.C80_unchanged",
    "VM.Props.C80_half_assigned",
    "VM.Props.C80_all_freed",
    "VM.Props.C80_undefined"
   ],
   "note": "Vectors as lists of expression objects in the heap model; assignment for equal sizes."
  },
  {
   "property": "C81",
   "status": "proved",
   "theorems": [
    "VM.Props.C81_eval",
    "VM.Props.C81_deep_equal",
    "VM.Props.C81_simplify",
    "VM.Props.C81_quadratic",
    "VM.Props.C81_substitute",
    "VM.Props.C81_diff",
    "VM.Props.C81_gradients_exponential",
    "VM.Props.C81_substituteMany",
    "VM.Props.C81_quadrature"
   ],
   "note": "Copies, destructors and member functions of operators are not counted; the assertion in the one-point rule is."
  },
  {
   "property": "C82",
   "status": "proved",
   "theorems": [
    "VM.Props.C82_sweep",
    "VM.Props.C82_parts",
    "VM.Props.C82_bottom_up",
    "VM.Props.C82_function_of_constants",
    "VM.Props.C82_undefined_part"
   ],
   "note": "Proved as stated, products of vectors included. The last two theorems show that the conditions in the quantifier are needed: the claim is false for functions of constants and for undefined parts."
  },
  {
   "property": "C83",
   "status": "proved",
   "theorems": [
    "VM.Props.C83_simplify_first",
    "VM.Props.C83_compose",
    "VM.Props.C83_at_once",
    "VM.Props.C83_function_of_constants",
    "VM.Props.C83_undefined",
    "VM.Props.C83_vectors"
   ],
   "note": "Proved as stated, products of vectors included. The last three theorems show that the conditions in the quantifier are needed (functions of constants, undefined parts, the variable in a vector)."
  },
  {
   "property": "C84",
   "status": "proved",
   "theorems": [
    "VM.Props.C84_eval",
    "VM.Props.C84_simplify",
    "VM.Props.C84_diff",
    "VM.Props.C84_substitute",
    "VM.Props.C84_derivatives",
    "VM.Props.C84_binary",
    "VM.Props.C84_too_large"
   ],
   "note": "Proved as stated; numbers with both zeros, infinities and NaN as in C77. The last theorem shows that the bound is needed."
  },
  {
   "property": "C85",
   "status": "proved",
   "theorems": [
    "VM.Props.C85_same_function",
    "VM.Props.C85_simplified_first",
    "VM.Props.C85_taylor",
    "VM.Props.C85_mean_value",
    "VM.Props.C85_constant"
   ],
   "note": "Exact real arithmetic."
  },
  {
   "property": "C86",
   "status": "proved",
   "theorems": [
    "VM.Props.C86_program",
    "VM.Props.C86_call",
    "VM.Props.C86_procedure",
    "VM.Props.C86_call_throws",
    "VM.Props.C86_no_garbage",
    "VM.Props.C86_all_freed",
    "VM.Props.C86_coords",
    "VM.Props.C86_coords_memory"
   ],
   "note": "Code built from statements of the memory model with local objects, results, sequences and try blocks; no_garbage and all_freed for code in which no call throws and none is known to lose memory (C48), without try blocks."
  },
  {
   "property": "C87",
   "status": "proved",
   "theorems": [
    "VM.Props.C87_manipulate",
    "VM.Props.C87_throws",
    "VM.Props.C87_afterwards",
    "VM.Props.C87_clean",
    "VM.Props.C87_recipes",
    "VM.Props.C87_argument_returned"
   ],
   "note": "Contract on the functor: GivesAway. Exceptions leave the nodes built so far behind (as C48); functors with a state of their own: C107."
  },
  {
   "property": "C88",
   "status": "proved",
   "theorems": [
    "VM.Props.C88_simplify",
    "VM.Props.C88_diff",
    "VM.Props.C88_substitute",
    "VM.Props.C88_substituteMany",
    "VM.Props.C88_interval",
    "VM.Props.C88_coordinates"
   ],
   "note": "All kinds of nodes, any numeric type."
  },
  {
   "property": "C89",
   "status": "proved",
   "theorems": [
    "VM.Props.C89_quadrature",
    "VM.Props.C89_converges",
    "VM.Props.C89_by_parts",
    "VM.Props.C89_integrate_diff",
    "VM.Props.C89_diff_integrate"
   ],
   "note": "Exact real arithmetic. The compile-time part is for polynomials in the integration variable alone: with parameters the code integrates wrongly (C42)."
  },
  {
   "property": "C90",
   "status": "partial",
   "theorems": [
    "VM.Props.C90_wrappers",
    "VM.Props.C90_nothing_left",
    "VM.Props.C90_copy_partial",
    "VM.Props.C90_twice"
   ],
   "note": "Proved for programs that give each functor to one wrapper and call only wrappers that have one. The part about copies is false: C90_copy_partial shows that copying any wrapper makes calls of the original undefined."
  },
  {
   "property": "C91",
   "status": "proved",
   "theorems": [
    "VM.Props.C91_dispatch",
    "VM.Props.C91_order",
    "VM.Props.C91_traversal"
   ],
   "note": "All classes of nodes of the default interface with one numeric type; constants of other numeric types are further classes the model does not have."
  },
  {
   "property": "C92",
   "status": "proved",
   "theorems": [
    "VM.Props.C92_diff",
    "VM.Props.C92_substitute_variable",
    "VM.Props.C92_substitute",
    "VM.Props.C92_simplify",
    "VM.Props.C92_integrate",
    "VM.Props.C92_affine"
   ],
   "note": "Integration: polynomials in the integration variable alone, since with parameters the code integrates wrongly (C42); exact real arithmetic."
  },
  {
   "property": "C93",
   "status": "partial",
   "theorems": [
    "VM.Props.C93_again_partial",
    "VM.Props.C93_equation_partial",
    "VM.Props.C93_simplify",
    "VM.Props.C93_not_again"
   ],
   "note": "Under the conditions of C30 (gradients of function symbols or of expressions that do not simplify to one, none in integration bounds); without them the code violates the claim (C93_not_again)."
  },
  {
   "property": "C94",
   "status": "proved",
   "theorems": [
    "VM.Props.C94_values",
    "VM.Props.C94_smooth",
    "VM.Props.C94_memory"
   ],
   "note": "Exact real arithmetic."
  },
  {
   "property": "C95",
   "status": "partial",
   "theorems": [
    "VM.Props.C95_iterated_partial",
    "VM.Props.C95_number",
    "VM.Props.C95_order_partial",
    "VM.Props.C95_lone_wrong"
   ],
   "note": "full claim is false of the code where an integrand has a single other variable as an addend (C95_lone_wrong); proved otherwise, for all depths"
  },
  {
   "property": "C96",
   "status": "partial",
   "theorems": [
    "VM.Props.C96_polynomial",
    "VM.Props.C96_coefficients",
    "VM.Props.C96_power_partial",
    "VM.Props.C96_derivatives",
    "VM.Props.C96_taylor"
   ],
   "note": "All parts hold; only drop_dependent_terms need not compile (C41_rejected)."
  },
  {
   "property": "C97",
   "status": "partial",
   "theorems": [
    "VM.Props.C97_throws",
    "VM.Props.C97_text_partial",
    "VM.Props.C97_formal"
   ],
   "note": "Holds except that an integrand with a formal derivative throws a string literal (proved)."
  },
  {
   "property": "C98",
   "status": "proved",
   "theorems": [
    "VM.Props.C98_iterated",
    "VM.Props.C98_order",
    "VM.Props.C98_exists"
   ],
   "note": "Exact real arithmetic; sequences in which a number leaves the range of int or that do not compile are left out."
  },
  {
   "property": "C99",
   "status": "partial",
   "theorems": [
    "VM.Props.C99_eval",
    "VM.Props.C99_constant",
    "VM.Props.C99_simplify",
    "VM.Props.C99_diff",
    "VM.Props.C99_symbol_partial",
    "VM.Props.C99_gradient",
    "VM.Props.C99_equal_sound",
    "VM.Props.C99_equal_partial",
    "VM.Props.C99_not_equal",
    "VM.Props.C99_substitute_partial",
    "VM.Props.C99_substitute_variable",
    "VM.Props.C99_not_found",
    "VM.Props.C99_text_partial",
    "VM.Props.C99_text_digits",
    "VM.Props.C99_latex_partial",
    "VM.Props.C99_latex_lost"
   ],
   "note": "The code violates the claim: constants of different types never compare equal, are not found by substitution, spoil the Gateaux derivative of a gradient, print all their digits, and print as an unknown symbol in LaTeX; these negations are proved. Evaluation, unwrapping, simplification and differentiation by variables are proved without conditions."
  },
  {
   "property": "C100",
   "status": "partial",
   "theorems": [
    "VM.Props.C100_fold",
    "VM.Props.C100_add",
    "VM.Props.C100_sub",
    "VM.Props.C100_mul",
    "VM.Props.C100_div_partial",
    "VM.Props.C100_div_wrong",
    "VM.Props.C100_defined",
    "VM.Props.C100_overflow",
    "VM.Props.C100_doubles",
    "VM.Props.C100_accepted_partial",
    "VM.Props.C100_rejected"
   ],
   "note": "The code violates the claim: folding whole constants may overflow, one overload is accepted for double only, and quotients of operands of one type are 1; these are proved. Everything else is proved: the value, when overflow occurs, which operands are accepted."
  },
  {
   "property": "C101",
   "status": "partial",
   "theorems": [
    "VM.Props.C101_kind",
    "VM.Props.C101_equal",
    "VM.Props.C101_substitute",
    "VM.Props.C101_text_partial",
    "VM.Props.C101_text_sound",
    "VM.Props.C101_text_wrong"
   ],
   "note": "Full for shallow_equal. shallow_str identifies the kind for unary, binary and vector expressions only; variables and constants show their members (C101_text_wrong)."
  },
  {
   "property": "C102",
   "status": "proved",
   "theorems": [
    "VM.Props.C102_step",
    "VM.Props.C102_solve",
    "VM.Props.C102_running",
    "VM.Props.C102_enough",
    "VM.Props.C102_unchanged",
    "VM.Props.C102_result",
    "VM.Props.C102_modulus"
   ],
   "note": "The memory of std::vector is not modelled; evaluations only read. C102_modulus shows that smoothness of the equations is needed."
  },
  {
   "property": "C103",
   "status": "proved",
   "theorems": [
    "VM.Props.C103_program",
    "VM.Props.C103_threads",
    "VM.Props.C103_answer",
    "VM.Props.C103_shared",
    "VM.Props.C103_exist"
   ],
   "note": "Programs of statements and calls (evaluation, text, LaTeX, one-point integration, Newton solver cut off after a number of iterations), alone and in threads, over the heap model; interleaving of single accesses to sequentially consistent memory, as in C72."
  },
  {
   "property": "C104",
   "status": "proved",
   "theorems": [
    "VM.Props.C104_exact",
    "VM.Props.C104_selected",
    "VM.Props.C104_rejected",
    "VM.Props.C104_threshold"
   ],
   "note": "Complements C34 and C36, whose condition is on the intermediate results, with a condition on the expression."
  },
  {
   "property": "C105",
   "status": "proved",
   "theorems": [
    "VM.Props.C105_calls",
    "VM.Props.C105_order",
    "VM.Props.C105_stateless",
    "VM.Props.C105_order_shows"
   ],
   "note": ""
  },
  {
   "property": "C106",
   "status": "proved",
   "theorems": [
    "VM.Props.C106_degree",
    "VM.Props.C106_coefficient",
    "VM.Props.C106_zero",
    "VM.Props.C106_number",
    "VM.Props.C106_taylor"
   ],
   "note": "Exact real arithmetic. A point where the expression has a value is needed: without one the derivative can be 0/0 (C13_not_zero)."
  },
  {
   "property": "C107",
   "status": "proved",
   "theorems": [
    "VM.Props.C107_manipulate",
    "VM.Props.C107_calls",
    "VM.Props.C107_afterwards",
    "VM.Props.C107_clean",
    "VM.Props.C107_replacer",
    "VM.Props.C107_refers"
   ],
   "note": "Contract on the functor: Honest. A functor may not free or change nodes that were there before the call. Exceptions leave the nodes built so far behind (as C48)."
  },
  {
   "property": "C108",
   "status": "proved",
   "theorems": [
    "VM.Props.C108_calls",
    "VM.Props.C108_only",
    "VM.Props.C108_visitor"
   ],
   "note": "The state of the functor after an exception is described as well. Entries of vectors and the bounds of integrals are not visited by the code and have no positions (C25)."
  },
  {
   "property": "C109",
   "status": "proved",
   "theorems": [
    "VM.Props.C109_diff",
    "VM.Props.C109_substitute",
    "VM.Props.C109_substituteMany",
    "VM.Props.C109_coords",
    "VM.Props.C109_numbers",
    "VM.Props.C109_interval_untidy",
    "VM.Props.C109_vector_untidy"
   ],
   "note": "The last two show where the claim ends."
  },
  {
   "property": "C110",
   "status": "proved",
   "theorems": [
    "VM.Props.C110_degree",
    "VM.Props.C110_coefficient",
    "VM.Props.C110_zero",
    "VM.Props.C110_number",
    "VM.Props.C110_fraction_rejected"
   ],
   "note": "For every choice among the matching specialisations and every treatment of overflow that keeps 0. C110_number (values) for runs in which no number leaves the range of int. That (p/q)*x does not get through is part of the claim and proved."
  },
  {
   "property": "C111",
   "status": "proved",
   "theorems": [
    "VM.Props.C111_gcd",
    "VM.Props.C111_simplify",
    "VM.Props.C111_derivative",
    "VM.Props.C111_linear",
    "VM.Props.C111_counted"
   ],
   "note": "Counted are nested instantiations of simplify, simplify_impl and gcd. Levels a compiler counts for other reasons are not."
  },
  {
   "property": "C112",
   "status": "proved",
   "theorems": [
    "VM.Props.C112_addends",
    "VM.Props.C112_count",
    "VM.Props.C112_power",
    "VM.Props.C112_size",
    "VM.Props.C112_distinguishes"
   ],
   "note": "Exact list of addends, for every expression; denominators are compared by value because expand may or may not expand them (C113). The size of the result for expressions without division."
  },
  {
   "property": "C113",
   "status": "partial",
   "theorems": [
    "VM.Props.C113_once_partial",
    "VM.Props.C113_settles",
    "VM.Props.C113_addends",
    "VM.Props.C113_changes_again"
   ],
   "note": "Idempotent if the denominators below products are expanded (in particular without division); false otherwise (witness). For all expressions: a bounded number of calls settles, and the addends never change."
  },
  {
   "property": "C114",
   "status": "proved",
   "theorems": [
    "VM.Props.C114_well_set",
    "VM.Props.C114_equation",
    "VM.Props.C114_interval",
    "VM.Props.C114_not_empty",
    "VM.Props.C114_plain",
    "VM.Props.C114_given",
    "VM.Props.C114_processors",
    "VM.Props.C114_stream",
    "VM.Props.C114_stream_equation"
   ],
   "note": "All expressions and customisations with well set texts; numbers are written without brackets and backslashes (C114_plain). Processors added by the user have to keep texts well set (C114_processors)."
  },
  {
   "property": "C115",
   "status": "proved",
   "theorems": [
    "VM.Props.C115_simplify",
    "VM.Props.C115_diff",
    "VM.Props.C115_diffs",
    "VM.Props.C115_substitute",
    "VM.Props.C115_substituteMany",
    "VM.Props.C115_interval",
    "VM.Props.C115_coords",
    "VM.Props.C115_manipulate",
    "VM.Props.C115_reach",
    "VM.Props.C115_diff_sharp",
    "VM.Props.C115_substitute_sharp",
    "VM.Props.C115_vectors"
   ],
   "note": "Heights of the expressions; how deep the calls of the library are nested is C117."
  },
  {
   "property": "C116",
   "status": "proved",
   "theorems": [
    "VM.Props.C116_simplify",
    "VM.Props.C116_diff",
    "VM.Props.C116_diff_sharp",
    "VM.Props.C116_substitute",
    "VM.Props.C116_coefficient",
    "VM.Props.C116_integrate",
    "VM.Props.C116_integrate_divFree",
    "VM.Props.C116_integrate_sharp"
   ],
   "note": "For every choice among matching rules and every conversion to int. Sizes of types, not of what compilers instantiate on the way."
  },
  {
   "property": "C117",
   "status": "proved",
   "theorems": [
    "VM.Props.C117_eval",
    "VM.Props.C117_deep_equal",
    "VM.Props.C117_pass",
    "VM.Props.C117_simplify",
    "VM.Props.C117_diff",
    "VM.Props.C117_substitute",
    "VM.Props.C117_substituteMany",
    "VM.Props.C117_atLeast",
    "VM.Props.C117_diff_sharp"
   ],
   "note": "Calls counted as for C81; clone, destructors and the operators of rt_expr are not counted. Heights of vectors as in C115."
  },
  {
   "property": "C118",
   "status": "proved",
   "theorems": [
    "VM.Props.C118_order",
    "VM.Props.C118_variables",
    "VM.Props.C118_duplicate",
    "VM.Props.C118_absent",
    "VM.Props.C118_none",
    "VM.Props.C118_one",
    "VM.Props.C118_integrals"
   ],
   "note": "The last theorem shows that the order matters for integrals that differ in their bounds only, which deep_equal takes for equal."
  },
  {
   "property": "C119",
   "status": "proved",
   "theorems": [
    "VM.Props.C119_latex",
    "VM.Props.C119_latex_pairs",
    "VM.Props.C119_plain",
    "VM.Props.C119_equation",
    "VM.Props.C119_plain_least",
    "VM.Props.C119_parentheses"
   ],
   "note": "Linear bounds for LaTeX and plain text; lower bound for plain text; exact length for nested differences."
  },
  {
   "property": "C120",
   "status": "proved",
   "theorems": [
    "VM.Props.C120_every",
    "VM.Props.C120_only",
    "VM.Props.C120_exactly",
    "VM.Props.C120_tree",
    "VM.Props.C120_alike"
   ],
   "note": "all formulas of numbers, constants, variables, expr, the four operators and the functions; function symbols, vectors, integrals and derivatives are not part of the formulas"
  },
  {
   "property": "C121",
   "status": "proved",
   "theorems": [
    "VM.Props.C121_folded",
    "VM.Props.C121_itself",
    "VM.Props.C121_exactly",
    "VM.Props.C121_again",
    "VM.Props.C121_one_constant",
    "VM.Props.C121_compiles"
   ],
   "note": "formulas without run-time constants and function symbols; overflow of a folded constant is a formula that does not compile"
  }
 ]
}