{
 "claims": [
  {
   "property": "C01",
   "status": "partial",
   "theorems": [
    "Verif.Cg.binary_denotes",
    "Verif.Cg.compound_denotes",
    "Verif.Cg.neg_denotes",
    "Verif.Cg.record_denotes",
    "Verif.Cg.record_succeeds",
    "Verif.Cg.recorded_has_valuation",
    "Verif.Cg.generated_code_computes_program",
    "Verif.Cg.div_self_counterexample",
    "Verif.Cg.nan_product_counterexample",
    "Verif.Cg.nan_sign_counterexample"
   ],
   "note": "Proved for all programs over any arithmetic with the usual field laws wherever the direct program is defined, joined with code generation. Counterexamples: x/x at 0, 0*NaN, sign(NaN)."
  },
  {
   "property": "C02",
   "status": "partial",
   "theorems": [
    "Verif.Cg.known_value_correct",
    "Verif.Cg.binary_known_iff",
    "Verif.Cg.compound_known_iff",
    "Verif.Cg.unary_known_iff",
    "Verif.Cg.nan_product_counterexample"
   ],
   "note": "When a value is known: proved for all operations. That it is the right value: for all programs over any arithmetic with the usual field laws, wherever the direct program is defined; not for NaN (0*x is recorded with the known value 0, counterexample)."
  },
  {
   "property": "C03",
   "status": "partial",
   "theorems": [
    "Verif.Cg.binary_rejects_mixed",
    "Verif.Cg.condExp_rejects_mixed",
    "Verif.Cg.no_mixed_graph_partial",
    "Verif.Cg.compound_mixes_counterexample",
    "Verif.Cg.pow_mixes_counterexample"
   ],
   "note": "Holds for + - * / and CondExp; false for compound assignments and pow (counterexamples)."
  },
  {
   "property": "C04",
   "status": "partial",
   "theorems": [
    "Verif.Cg.condExp_denotes",
    "Verif.Cg.compare_constants",
    "Verif.Cg.compare_variable_raises",
    "Verif.Cg.compare_variable_eq",
    "Verif.Cg.condExp_signed_zero_counterexample"
   ],
   "note": "Folded and recorded conditionals, all comparisons, for arithmetics in which values that compare equal are the same. With signed zeros the choice between 0.0 and -0.0 is folded to the first (counterexample)."
  },
  {
   "property": "C05",
   "status": "partial",
   "theorems": [
    "Verif.Codegen.generateCode_correct",
    "Verif.Codegen.graph_has_valuation",
    "Verif.Codegen.valuation_unique",
    "Verif.Codegen.alias_dependent_counterexample",
    "Verif.Codegen.sign_of_alias_counterexample",
    "Verif.Codegen.zero_dependent_counterexample"
   ],
   "note": "Proved for all acyclic scalar graphs (no loops, arrays, atomics) except two code defects excluded by WF and shown by counterexamples: a dependent alias used as argument, sign of an alias."
  },
  {
   "property": "C06",
   "status": "partial",
   "theorems": [
    "Verif.Codegen.generateCode_defBeforeUse",
    "Verif.Codegen.alias_dependent_counterexample"
   ],
   "note": "Holds for all well formed requests; fails when a dependent alias is an argument of an earlier dependent (counterexample)."
  },
  {
   "property": "C07",
   "status": "partial",
   "theorems": [
    "Verif.Codegen.reuse_invisible",
    "Verif.Codegen.stale_temporary_name_counterexample"
   ],
   "note": "Every statement assigns the same value with and without reuse, for all well formed requests (see C05 for what WF excludes), interpretations and inputs, when the nodes carry no names of earlier generations. With such names two live temporaries can share a variable (counterexample)."
  },
  {
   "property": "C08",
   "status": "partial",
   "theorems": [
    "Verif.Codegen.temporaries_declared",
    "Verif.Codegen.temporaries_declared_counterexample",
    "Verif.Arrays.arrays_placed"
   ],
   "note": "Scalar temporaries: proved for well formed requests whose nodes carry no names of earlier generations; false with such names (counterexample: v[1] written, one temporary declared). Array storage: all cells are below the reported size, for programs with valid lifetimes."
  },
  {
   "property": "C09",
   "status": "partial",
   "theorems": [
    "Verif.Codegen.inputs_not_written",
    "Verif.Print.names_differ"
   ],
   "note": "No statement writes an input, for well formed requests (WF) whose nodes carry no names of earlier generations; requests outside of this are not covered; the printed names of different variables are different texts (array elements and scalars), for all indices."
  },
  {
   "property": "C10",
   "status": "partial",
   "theorems": [
    "Verif.Codegen.dependent_written_once",
    "Verif.Codegen.dependent_in_range",
    "Verif.Codegen.zero_dependent_counterexample"
   ],
   "note": "Exactly once without zeroDependents; with zeroDependents+ignoreZeroDepAssign and no operation a zero dependent is never written (counterexample)."
  },
  {
   "property": "C11",
   "status": "partial",
   "theorems": [
    "Verif.Arrays.storage_disjoint",
    "Verif.Arrays.storage_reused",
    "Verif.Arrays.arrays_placed",
    "Verif.Arrays.signed_zero_counterexample",
    "Verif.Arrays.unused_counterexample"
   ],
   "note": "Storage part proved for all histories of reservations and releases and for all programs (disjointness, bounds, reuse of gaps, forbidden cells). The statement about cached values holds if values which compare equal are the same (printed_arrays_correct_partial keeps it as an invariant) and is false for a negative zero; an array which is never used is released outside of the vector."
  },
  {
   "property": "C12",
   "status": "partial",
   "theorems": [
    "Verif.Codegen.history_independent_partial",
    "Verif.Codegen.generate_repeatable",
    "Verif.Codegen.permuted_dependents_counterexample",
    "Verif.Codegen.stale_temporary_name_counterexample",
    "Verif.Codegen.reset_counterexample"
   ],
   "note": "Same request repeated: same program any number of times. Different requests: same as a new handler when the nodes carry no names. Counterexamples show that stale names and reset() break the unrestricted claim."
  },
  {
   "property": "C13",
   "status": "partial",
   "theorems": [
    "Verif.Print.printed_value_partial",
    "Verif.Print.printed_value_exact",
    "Verif.Print.stack_prints",
    "Verif.Print.printed_body_reads",
    "Verif.Print.printed_body_executes",
    "Verif.Print.printed_function_correct",
    "Verif.Print.intSafe_of_no_sign",
    "Verif.Print.int_division_counterexample",
    "Verif.Print.regrouping_counterexample",
    "Verif.Print.regrouping_product_counterexample"
   ],
   "note": "Printed expressions and whole function bodies, read with the C grammar and computed with C int/double arithmetic, give the recorded values: with exact arithmetic for all expressions in which no operation has two operands printed as int, and with any arithmetic when the printed grouping is the recorded one. Counterexamples: division of ints (1/(sign(x)+1)), regrouping of sums and products under rounding. Texts are tokens, digits of constants are not modelled."
  },
  {
   "property": "C14",
   "status": "proved",
   "theorems": [
    "Verif.Index.detect_reproduces",
    "Verif.Index.detectV_reproduces",
    "Verif.Index.detectV_eq",
    "Verif.Index.detect_reproduces_64",
    "Verif.Index.detect_section_count",
    "Verif.Index.detect_linear"
   ],
   "note": "For all maps and vectors, over every commutative ring of values, in particular 64 bit machine arithmetic."
  },
  {
   "property": "C15",
   "status": "partial",
   "theorems": [
    "Verif.Index.linear_computes",
    "Verif.Index.sectioned_computes",
    "Verif.Index.detect_computes",
    "Verif.Index.plane_computes",
    "Verif.Index.random2_computes",
    "Verif.Index.random_computes",
    "Verif.Index.plane_overflow_counterexample"
   ],
   "note": "The printed tokens, read with the C grammar and evaluated with C integer types (literals int/long, loop variables unsigned long), give the pattern value. Detected patterns: keys below 2^31, values within 2^30 (planes: 0 to 2^29). Counterexample: constant parts of a plane added as int overflow."
  },
  {
   "property": "C16",
   "status": "proved",
   "theorems": [
    "Verif.Index.plane_reproduces",
    "Verif.Index.plane_reproduces_64"
   ],
   "note": "For all tables of index pairs."
  },
  {
   "property": "C17",
   "status": "proved",
   "theorems": [
    "Verif.Index.array_holds",
    "Verif.Index.matrix_holds",
    "Verif.Index.random_computes",
    "Verif.Index.table_names"
   ],
   "note": "Array and matrix initialisers read back; new table names differ from all others."
  },
  {
   "property": "C18",
   "status": "proved",
   "theorems": [
    "Verif.Ranges.condition_selects",
    "Verif.Ranges.condition_exact",
    "Verif.Ranges.condition_empty"
   ],
   "note": "Condition built for a set of iterations and printed as C; empty set has no condition (asserted precondition)."
  },
  {
   "property": "C19",
   "status": "partial",
   "theorems": [
    "Verif.Ranges.chain_runs_own_branch",
    "Verif.Ranges.chain_defined_iff",
    "Verif.Ranges.chain_single_branch_counterexample"
   ],
   "note": "Non-reused chains, whenever building succeeds. Building dereferences null exactly when the first branch takes every local iteration (counterexample)."
  },
  {
   "property": "C20",
   "status": "partial",
   "theorems": [
    "Verif.Ranges.combineOverlap_covers",
    "Verif.Ranges.combineOverlap_separated",
    "Verif.Ranges.invert_covers",
    "Verif.Ranges.invert_invert_covers",
    "Verif.Ranges.elseRanges_sound_partial",
    "Verif.Ranges.elseRanges_exact_single",
    "Verif.Ranges.elseRanges_exact_counterexample",
    "Verif.Ranges.combineNonOverlap_counterexample"
   ],
   "note": "Union and complement are exact. The else-branch ranges are a sound over-approximation; exactness fails with an else-if (counterexample)."
  },
  {
   "property": "C21",
   "status": "partial",
   "theorems": [
    "Verif.Solve.solveFor_correct_partial",
    "Verif.Solve.solveFor_assign_partial",
    "Verif.Solve.attained_iff",
    "Verif.Solve.cosh_root_counterexample",
    "Verif.Solve.solveFor_self_counterexample"
   ],
   "note": "over the real numbers, any graph with one route from the expression to the variable: the result does not depend on the variable, has the value needed to make the expression zero, every root in the domain of the inverses equals it, assigning it makes the expression zero; the range in which each operation can be inverted is given explicitly. Not for expression = variable: solveFor(x, x) returns x (proved); of the two roots of cosh(x) = c only the nonnegative one is returned (proved)"
  },
  {
   "property": "C22",
   "status": "proved",
   "theorems": [
    "Verif.Solve.isSolvable_iff",
    "Verif.Solve.isSolvablePath_iff"
   ],
   "note": "isSolvable is true iff solveFor returns and false iff it raises, for every recorded graph, expression and variable, any number of routes"
  },
  {
   "property": "C23",
   "status": "partial",
   "theorems": [
    "Verif.Solve.collectAddSub_value_partial",
    "Verif.Solve.collectVariable_value_partial",
    "Verif.Solve.collectAddSub_iff",
    "Verif.Solve.linear_iff",
    "Verif.Solve.collect_counterexample",
    "Verif.Solve.solveFor_collect_counterexample"
   ],
   "note": "Proved: which expressions are collected and which raise an exception; the result is s*variable + e with s, e independent of the variable, and sub-expression and whole expression keep their value in every evaluation, if every subtraction on a route is entered on the side of the operation before it. Otherwise false: x + (x - 3) becomes -3, solveFor((3 - x) + 3x) is -3/4 (proved)."
  },
  {
   "property": "C24",
   "status": "partial",
   "theorems": [
    "Verif.Eval.evaluate_correct",
    "Verif.Eval.evaluate_cg_denotes",
    "Verif.Eval.wrong_size_rejected",
    "Verif.Eval.reentrant_rejected",
    "Verif.Eval.requests_independent",
    "Verif.Eval.unsupported_counterexample"
   ],
   "note": "Proved for all acyclic graphs over the operations known to evaluators, all operand orders, previous states and request sequences, for numbers and for CG objects. Counterexample: acosh, asinh, atanh, erf, erfc, expm1 and log1p can be recorded but raise an exception. Arrays, atomic functions, prints and names are not modelled."
  },
  {
   "property": "C25",
   "status": "partial",
   "theorems": [
    "Verif.Subst.substitute_meaning",
    "Verif.Subst.substitute_correct_partial",
    "Verif.Subst.substitute_succeeds",
    "Verif.Subst.undo_restores",
    "Verif.Subst.appended_meaning",
    "Verif.Subst.undo_removed",
    "Verif.Subst.removeIndependent_iff",
    "Verif.Subst.removeIndependent_refuses",
    "Verif.Subst.substitute_self_counterexample"
   ],
   "note": "Substitution denotes the original with the solution put in (any equation whose solution does not depend on the variable; the side conditions are proved for a single occurrence of the variable, over the reals the equation then holds). Undo and removal are complete. False when the equation is the variable itself (self alias); not discharged for equations solved after collecting several occurrences, where solveFor itself is wrong (C23)."
  },
  {
   "property": "C26",
   "status": "proved",
   "theorems": [
    "Verif.Sparsity.addMatrix_spec",
    "Verif.Sparsity.addTrans_spec",
    "Verif.Sparsity.transpose_correct",
    "Verif.Sparsity.mult_spec",
    "Verif.Sparsity.multTrans_spec",
    "Verif.Sparsity.multT_spec",
    "Verif.Sparsity.multT_transposes",
    "Verif.Sparsity.intersects_iff",
    "Verif.Sparsity.addMatrix_assert_counterexample"
   ],
   "note": "Boolean algebra of the sparsity products for all patterns in range. The assertion of addMatrixSparsity is the wrong way round (counterexample)."
  },
  {
   "property": "C27",
   "status": "proved",
   "theorems": [
    "Verif.Sparsity.indexes_spec",
    "Verif.Sparsity.generateSet_indexes",
    "Verif.Sparsity.indexes_generateSet",
    "Verif.Sparsity.indexesBool_spec"
   ],
   "note": "Round trips between sets and index vectors."
  },
  {
   "property": "C28",
   "status": "proved",
   "theorems": [
    "Verif.Dae.augmentPath_correct",
    "Verif.Dae.augmentPath_iff",
    "Verif.Dae.augmentPathA_correct",
    "Verif.Dae.augmentPathA_iff"
   ],
   "note": "For all graphs in which equations and variables agree about the assignment, both strategies: result, unchanged parts, marked singular set, success iff an assignment exists."
  },
  {
   "property": "C29",
   "status": "partial",
   "theorems": [
    "Verif.Dae.pantelides_correct_partial",
    "Verif.Dae.derivative_equation",
    "Verif.Dae.unassigned_counterexample"
   ],
   "note": "On normal return every equation which has no derivative is assigned to a distinct variable it contains, which has no derivative; links of equations and variables are consistent, a differentiated equation contains exactly the variables of its origin and their derivatives; no null dereference. Equations which were differentiated after a failed attempt stay unassigned (counterexample), so the full statement is false."
  },
  {
   "property": "C30",
   "status": "partial",
   "theorems": [
    "Verif.Dae.structuralIndex_correct_partial",
    "Verif.Dae.ode_index_counterexample"
   ],
   "note": "After the Pantelides loop the index is one more than the largest number of differentiations of an original equation. The ODE case is false: an ODE is reported with index 1, and the theorem shows 0 is never returned when there is a time dependent variable."
  },
  {
   "property": "C31",
   "status": "partial",
   "theorems": [
    "Verif.Pool.one_place",
    "Verif.Pool.at_most_once",
    "Verif.Pool.none_lost",
    "Verif.Pool.exactly_once_at_rest",
    "Verif.Pool.exactly_once_counterexample"
   ],
   "note": "For all interleavings, thread counts and strategies no job is executed twice or lost; at rest each was executed exactly once. Exceptions: destroying the pool drops queued jobs (counterexample) and groups queued when the strategy is changed away from static are never executed (see C33)."
  },
  {
   "property": "C32",
   "status": "proved",
   "theorems": [
    "Verif.Pool.wait_waits"
   ],
   "note": "All interleavings and strategies, jobs added by any thread before the call; pool not destroyed meanwhile."
  },
  {
   "property": "C33",
   "status": "partial",
   "theorems": [
    "Verif.Pool.activity_ends_partial",
    "Verif.Pool.rest_means_done_partial",
    "Verif.Pool.can_move_partial",
    "Verif.Pool.groups_stuck",
    "Verif.Pool.strategy_change_counterexample",
    "Verif.Pool.two_waiters_counterexample"
   ],
   "note": "Proved for one waiting thread at a time and strategy changes only when no work group is queued. Counterexamples: livelock after a strategy change, second waiter never woken."
  },
  {
   "property": "C34",
   "status": "partial",
   "theorems": [
    "Verif.Pool.guided_safe_partial",
    "Verif.Pool.guided_prefix",
    "Verif.Pool.guided_null_iff",
    "Verif.Pool.guided_null_counterexample",
    "Verif.Pool.guided_clock_counterexample",
    "Verif.Pool.guided_rounding_counterexample"
   ],
   "note": "Safe with exact arithmetic, maxgroupwork <= threads and a working clock. Counterexamples dereference NULL: larger maxgroupwork, clock failure, rounding of the stored total."
  },
  {
   "property": "C35",
   "status": "partial",
   "theorems": [
    "Verif.Pool.order_perm",
    "Verif.Pool.order_rank",
    "Verif.Pool.queue_descending_iff",
    "Verif.Pool.queue_order_counterexample",
    "Verif.Pool.order_unchanged",
    "Verif.Pool.ref_min"
   ],
   "note": "The order is a permutation and holds ranks; the queue is descending exactly when the permutation is its own inverse (counterexample 2,1,3)."
  },
  {
   "property": "C36",
   "status": "partial",
   "theorems": [
    "Verif.Pool.static_fresh",
    "Verif.Pool.static_reuse_partial",
    "Verif.Pool.static_two_calls_partial",
    "Verif.Pool.static_reuse_counterexample",
    "Verif.Pool.static_times_counterexample"
   ],
   "note": "Proved whenever the table is computed or its entries are valid; a table reused with fewer threads is out of bounds (counterexample)."
  },
  {
   "property": "C37",
   "status": "partial",
   "theorems": [
    "Verif.Orders.setLess_strictWeak",
    "Verif.Orders.rowIterLess_strictWeak",
    "Verif.Orders.contribLess_strictWeak",
    "Verif.Orders.pairLess_strictWeak",
    "Verif.Orders.uniquePair_eq",
    "Verif.Orders.indepNodeLess_strictWeak",
    "Verif.Orders.indexedIndepLess_strictWeak",
    "Verif.Orders.vnodeLess_strictWeak",
    "Verif.Orders.varLess_strictWeak",
    "Verif.Orders.varLess_exact",
    "Verif.Orders.comparePair_threeWay",
    "Verif.Orders.pathNodeLess_partial",
    "Verif.Orders.pathNodeLess_counterexample",
    "Verif.Orders.eqLess_partial",
    "Verif.Orders.eqLess_counterexample",
    "Verif.Orders.comparePair_nan_counterexample"
   ],
   "note": "Proved for all comparators except OperationPathNode::operator< and sortEquationByAssignedOrder2, which are not strict weak orders (counterexamples), and comparePair with NaN."
  },
  {
   "property": "C38",
   "status": "partial",
   "theorems": [
    "Verif.Strings.pieces_total",
    "Verif.Strings.replaceString_spec",
    "Verif.Strings.replaceString_char",
    "Verif.Strings.replaceString_char_no_occurrence",
    "Verif.Strings.replaceString_no_occurrence_partial",
    "Verif.Strings.replaceString_empty_counterexample",
    "Verif.Strings.replaceString_leaves_counterexample",
    "Verif.Strings.explode_spec",
    "Verif.Strings.implode_spec",
    "Verif.Strings.implode_explode",
    "Verif.Strings.implode_explode_partial",
    "Verif.Strings.implode_explode_counterexample",
    "Verif.Strings.explode_empty_counterexample",
    "Verif.Strings.explode_implode"
   ],
   "note": "Exact results proved for all texts. The claim itself is false: trailing delimiter lost, empty pattern never terminates, replacing can create new occurrences (counterexamples)."
  },
  {
   "property": "C39",
   "status": "partial",
   "theorems": [
    "Verif.Marks.marks_correct_partial",
    "Verif.Marks.visit_starts_clean",
    "Verif.Marks.reset_counterexample",
    "Verif.Marks.overflow_counterexample"
   ],
   "note": "Proved for all sequences of node creation, deletion, visits, marks and annotations without reset() and with less than 2^64 - 1 visits. False after reset() (stale marks and annotations of the new node) and when the visit counter wraps."
  },
  {
   "property": "C40",
   "status": "partial",
   "theorems": [
    "Verif.Paths.findPaths_sound",
    "Verif.Paths.findPaths_nonempty",
    "Verif.Paths.findPaths_complete_partial",
    "Verif.Paths.findPathGraph_exact",
    "Verif.Paths.no_bifurcation_unique",
    "Verif.Paths.findSingleBifurcation_correct",
    "Verif.Paths.missing_paths_counterexample",
    "Verif.Paths.limit_exceeded_counterexample"
   ],
   "note": "Soundness, distinctness and existence proved for all acyclic graphs and limits; completeness only when each argument of a shared node leads to the target in at most one way. Counterexamples: 3 of 4 routes found with room for ten; 4 paths returned for a limit of 3. findPathGraph and findSingleBifurcation are exact below the limit."
  },
  {
   "property": "C41",
   "status": "partial",
   "theorems": [
    "Verif.Strings.printed_text_partial",
    "Verif.Strings.print_backslash_counterexample",
    "Verif.Strings.print_backslash_n_counterexample",
    "Verif.Strings.print_percent_counterexample"
   ],
   "note": "Proved for texts without backslash and percent; counterexamples otherwise."
  },
  {
   "property": "C42",
   "status": "proved",
   "theorems": [
    "Verif.Index.offset_sound",
    "Verif.Index.encapsulate_eval",
    "Verif.Index.offset_family"
   ],
   "note": "For all linear and sectioned patterns, over every commutative ring."
  },
  {
   "property": "C43",
   "status": "partial",
   "theorems": [
    "Verif.Dae.pantelides_ends",
    "Verif.Dae.pantelides_regular",
    "Verif.Dae.algebraic_accepted",
    "Verif.Dae.algebraic_singular_endless",
    "Verif.Dae.nontermination_counterexample",
    "Verif.Dae.rejected_counterexample",
    "Verif.Dae.rejected_small_counterexample"
   ],
   "note": "Proved: the loop ends on regular systems; a normal return implies regularity; systems without derivatives are accepted when regular. False in the code: singular systems without derivatives loop forever (proved for all of them), and a regular system can be rejected depending on the order of the equations (counterexample)."
  },
  {
   "property": "C44",
   "status": "partial",
   "theorems": [
    "Verif.Arrays.printed_arrays_correct_partial",
    "Verif.Arrays.clobber_counterexample",
    "Verif.Arrays.signed_zero_counterexample",
    "Verif.Arrays.loop_precision_counterexample"
   ],
   "note": "Proved for all programs in which arguments of arrays are constants, expressions without array elements read for the last time, or elements themselves; constants exact in loops. False otherwise: an element inside of an expression can be overwritten before it is read; constants in loops lose digits. Missing: conditional scopes, index loops, sparse arrays index values."
  },
  {
   "property": "C45",
   "status": "partial",
   "theorems": [
    "Verif.Deriv.sparse_jacobian_partial",
    "Verif.Deriv.sparse_jacobian_atomics_partial",
    "Verif.Deriv.sparse_jacobian_threads_partial",
    "Verif.Deriv.sparse_hessian_partial",
    "Verif.Deriv.sparse_hessian_threads_partial",
    "Verif.Deriv.repeated_element_counterexample",
    "Verif.Deriv.repeated_element_zero_counterexample",
    "Verif.Deriv.hessian_threads_weights_counterexample",
    "Verif.Deriv.hessian_threads_bounds_counterexample",
    "Verif.Deriv.hessian_symmetric_pair_counterexample"
   ],
   "note": "Proved when no element is requested twice (and, for Hessians, no two requested elements are evaluated as one), and for Hessians with threads, the elements of every row are consecutive in the request. False otherwise: repeated elements leave places unwritten, and the jobs of the Hessian with threads get the weights from the wrong pointer. Missing: loops."
  },
  {
   "property": "C46",
   "status": "partial",
   "theorems": [
    "Verif.Deriv.forward_one_partial",
    "Verif.Deriv.reverse_one_partial",
    "Verif.Deriv.reverse_two_partial",
    "Verif.Deriv.reverse_two_rejects",
    "Verif.Deriv.sparse_forward_one_partial",
    "Verif.Deriv.sparse_reverse_one_partial",
    "Verif.Deriv.sparse_reverse_two_partial",
    "Verif.Deriv.sparse_forward_one_counterexample",
    "Verif.Deriv.forward_one_repeated_counterexample",
    "Verif.Deriv.sparse_forward_one_bounds_counterexample"
   ],
   "note": "Proved when no element is requested twice and, for the methods with sparse directions, every index named has elements. False otherwise: repeated elements count twice or overflow a buffer, a row or column without elements makes the methods throw. Rounding is excluded."
  },
  {
   "property": "C47",
   "status": "proved",
   "theorems": [
    "Verif.Deriv.sparsity_of_position",
    "Verif.Deriv.sparsity_table",
    "Verif.Deriv.sparsity_of_equation",
    "Verif.Deriv.sparsity_table_counterexample"
   ],
   "note": "Exact for all requests and positions. (A map with an empty vector would not compile, no caller makes one.)"
  },
  {
   "property": "C48",
   "status": "proved",
   "theorems": [
    "Verif.Deriv.coloring_correct",
    "Verif.Deriv.equation_patterns",
    "Verif.Deriv.hessian_elements",
    "Verif.Deriv.hessian_elements_custom"
   ],
   "note": "CppAD is a parameter: its sparsity sweeps are taken to be exact, i.e. the pattern for several equations is the union of their patterns, and an equation has second derivatives only for variables it depends on."
  },
  {
   "property": "C49",
   "status": "partial",
   "theorems": [
    "Verif.Deriv.direct_hessian",
    "Verif.Deriv.direct_hessian_rejects",
    "Verif.Deriv.direct_hessian_pair_counterexample",
    "Verif.Deriv.dense_hessian"
   ],
   "note": "Exact when no element is evaluated twice, rejected otherwise. False: both elements of a symmetric pair cannot be requested if only one of them is in the pattern. Missing: loops."
  },
  {
   "property": "C50",
   "status": "partial",
   "theorems": [
    "Verif.Atomic.forward_zero",
    "Verif.Atomic.forward_one",
    "Verif.Atomic.reverse_zero",
    "Verif.Atomic.reverse_one_partial",
    "Verif.Atomic.user_forward_zero",
    "Verif.Atomic.user_forward_one",
    "Verif.Atomic.user_reverse_zero",
    "Verif.Atomic.user_reverse_one_partial",
    "Verif.Atomic.model_forward_zero",
    "Verif.Atomic.model_forward_one",
    "Verif.Atomic.model_reverse_zero",
    "Verif.Atomic.model_reverse_one_partial",
    "Verif.Atomic.reverse_one_direction_zero",
    "Verif.Atomic.forward_both_zero",
    "Verif.Atomic.reverse_one_direction_counterexample",
    "Verif.Atomic.reverse_one_weights_counterexample",
    "Verif.Atomic.forward_zero_parameters_counterexample",
    "Verif.Atomic.user_results_counterexample",
    "Verif.Atomic.model_forward_one_counterexample"
   ],
   "note": "Values, Jacobian times direction, weights times Jacobian and the partial derivatives with respect to the argument are right, for atomic functions of the user and for compiled models (for the latter, if the derivatives named exist). False: partial derivatives with respect to the direction are always recorded as zero (proved for all functions), and both orders requested at once give zero values."
  },
  {
   "property": "C51",
   "status": "partial",
   "theorems": [
    "Verif.Atomic.forSparseJac_spec",
    "Verif.Atomic.revSparseJac_spec",
    "Verif.Atomic.revSparseHes_spec",
    "Verif.Atomic.custom_spec",
    "Verif.Atomic.bridge_forJac_spec",
    "Verif.Atomic.bridge_revJac_spec",
    "Verif.Atomic.bridge_revHes_spec",
    "Verif.Atomic.bridge_uses",
    "Verif.Atomic.new_remembers",
    "Verif.Atomic.custom_remembers",
    "Verif.Atomic.forSparseJac_flags",
    "Verif.Atomic.revSparseJac_flags",
    "Verif.Atomic.revSparseHes_flags",
    "Verif.Atomic.revSparseHes_flags_counterexample",
    "Verif.Atomic.triangle_counterexample",
    "Verif.Atomic.setHes_counterexample"
   ],
   "note": "Exact for all patterns, sequences of calls, and any custom Jacobian. The Hessian pattern must be the full one: elements are lost if the user chose one triangle only (counterexample); flags of a vector given with true elements are never cleared, and a Hessian kept from before is not dropped when other elements are chosen (counterexamples)."
  },
  {
   "property": "C52",
   "status": "partial",
   "theorems": [
    "Verif.Atomic.scratch_partial",
    "Verif.Atomic.scratch_overwritten_counterexample",
    "Verif.Atomic.scratch_freed_counterexample"
   ],
   "note": "Proved if no call follows a result stored in the elements the call uses, and no call needs more memory than there is. False otherwise: the results are replaced by those of the atomic function, or stored in freed memory."
  },
  {
   "property": "C53",
   "status": "proved",
   "theorems": [
    "Verif.Patterns.patterns_are_shapes",
    "Verif.Patterns.constant_arguments"
   ],
   "note": "For all graphs in which an alias has a node as argument and dependents which are no independents (the caller replaces those by aliases). NaN constants are excluded."
  },
  {
   "property": "C54",
   "status": "partial",
   "theorems": [
    "Verif.Patterns.iteration_of_reference",
    "Verif.Patterns.iteration_computes_dependent_partial",
    "Verif.Patterns.shared_operation_counterexample",
    "Verif.Patterns.common_operation_counterexample",
    "Verif.Patterns.swapped_operations_counterexample",
    "Verif.Patterns.equal_constants_counterexample"
   ],
   "note": "Proved for the reference, and for dependents whose expression has one counterpart for each operation of the reference and does not use an operation of the reference in another place. False otherwise, and not checked by the code. Missing: loops made of several equations."
  },
  {
   "property": "C55",
   "status": "partial",
   "theorems": [
    "Verif.Funcs.split_text",
    "Verif.Funcs.split_sizes",
    "Verif.Funcs.split_right_partial",
    "Verif.Funcs.local_arguments",
    "Verif.Funcs.split_calls_counterexample",
    "Verif.Funcs.split_ifs_counterexample",
    "Verif.Funcs.split_indexed_counterexample"
   ],
   "note": "Proved when outside of loops there are only counted statements. False for calls of atomic functions outside of loops (the memory of assigned struct members is not cleared when a function starts), for conditional blocks and indexed dependents outside of loops, and with index arguments."
  },
  {
   "property": "C56",
   "status": "proved",
   "theorems": [
    "Verif.Funcs.one_function_right",
    "Verif.Funcs.structs_declared",
    "Verif.Funcs.structs_not_declared",
    "Verif.Funcs.kinds_counterexample",
    "Verif.Funcs.scope_counterexample",
    "Verif.Funcs.dense_array_shown"
   ],
   "note": "The two conditions on kinds and blocks are needed, as the counterexamples show."
  },
  {
   "property": "C57",
   "status": "proved",
   "theorems": [
    "Verif.Loops.jacobian_right",
    "Verif.Loops.jacobian_refused_iff",
    "Verif.Loops.forward0_right"
   ],
   "note": "For all models whose tables fit together (Model.Ok: sizes, each equation computed once, fewer than 2^64 iterations) and whose sparsity patterns cover the derivatives. The derivatives of the tapes are parameters (CppAD). For the values, each tape equation is used in some iteration."
  },
  {
   "property": "C58",
   "status": "proved",
   "theorems": [
    "Verif.Loops.contributions_right"
   ],
   "note": "For fewer than 2^64 iterations; each contribution is used in some iteration and has a location where it is used, as the callers ensure."
  },
  {
   "property": "C59",
   "status": "partial",
   "theorems": [
    "Verif.Loops.hessian_right_partial",
    "Verif.Loops.hessian_repeated",
    "Verif.Loops.hessian_right_counterexample",
    "Verif.Loops.hessian_temporary_counterexample",
    "Verif.Loops.hessian_bounds_counterexample"
   ],
   "note": "False in the code: the row of a temporary is searched for the number of a variable of the whole model instead of the number of its tape variable, so that contributions are missing; and a vector with one row for each equation of the model is indexed by equations outside of loops and temporaries. Without these two (Findable, and not more rows than equations) proved for all models whose tables fit together and requests without repetitions; requests with repetitions are refused."
  },
  {
   "property": "C60",
   "status": "partial",
   "theorems": [
    "Verif.Scopes.values_enclosed_partial",
    "Verif.Scopes.values_computed_partial",
    "Verif.Scopes.common_innermost",
    "Verif.Scopes.three_branches_counterexample",
    "Verif.Scopes.moved_user_counterexample"
   ],
   "note": "Proved for all values except conditional temporaries, which are shown to be declared in a scope enclosing their uses. False for conditional temporaries: the condition is not extended for a third branch, and not when an operation using the temporary is moved. Aliases and arrays are left out."
  },
  {
   "property": "C61",
   "status": "proved",
   "theorems": [
    "Verif.Scopes.scopes_nested"
   ],
   "note": "For all graphs of models with loops which are not nested, in which values outside of a loop used in it are arguments of its first node (as the generator arranges)."
  },
  {
   "property": "C62",
   "status": "proved",
   "theorems": [
    "Verif.Scopes.Move.locate_ends",
    "Verif.Scopes.Move.moved_constant",
    "Verif.Scopes.Move.moved_used",
    "Verif.Scopes.Move.constants_moved",
    "Verif.Scopes.Move.moved_kinds",
    "Verif.Scopes.Move.tmp_in_loop",
    "Verif.Scopes.Move.values_same",
    "Verif.Scopes.Move.values_right",
    "Verif.Scopes.Move.depends_same",
    "Verif.Scopes.Move.new_assigned",
    "Verif.Scopes.Move.array_argument_counterexample",
    "Verif.Scopes.Move.tmp_moved_counterexample"
   ],
   "note": "The counterexamples show that both exceptions of the statement are needed: arguments of arrays and atomic functions are left in the loop on purpose, and a temporary used by an operation without dependence on the index would be assigned before the loop (the code which makes these uses them only in branches on the index)."
  },
  {
   "property": "C63",
   "status": "proved",
   "theorems": [
    "Verif.Colors.elements_right",
    "Verif.Colors.rest_same",
    "Verif.Colors.sweeps_le",
    "Verif.Colors.again_same",
    "Verif.Colors.not_in_pattern_counterexample"
   ],
   "note": "index_sort and the forward and reverse modes of CppAD are parameters: any function which sorts positions, and functions which give the product of the Jacobian (Hessian) and the direction over any commutative semiring. The counterexample shows why requested elements must be in the pattern: with assertions compiled out, the value of another element is returned."
  },
  {
   "property": "C64",
   "status": "proved",
   "theorems": [
    "Verif.Colors.loop_elements_right",
    "Verif.Colors.coloring_same",
    "Verif.Colors.no_variables_counterexample"
   ],
   "note": "Parameters for CppAD as in C63. The counterexample is the last sentence of the statement: without independent variables the variant for atomic functions calls zero order forward mode with no value for a tape with one variable."
  },
  {
   "property": "C65",
   "status": "partial",
   "theorems": [
    "Verif.Scopes.Order.order_right_partial",
    "Verif.Scopes.Order.marked_order_partial",
    "Verif.Scopes.Order.evaluated_twice_counterexample"
   ],
   "note": "Proved for all graphs in which every value is in a scope around its uses, and that the scopes of C60 are of this kind when no conditional temporary is made. False with conditional temporaries: a value can be computed twice. Missing: aliases, prints and optimizeIfs, and scopes with conditional temporaries."
  },
  {
   "property": "C66",
   "status": "partial",
   "theorems": [
    "Verif.Scopes.Join.joined_same_partial",
    "Verif.Scopes.Join.arguments_kept",
    "Verif.Scopes.Join.marked_joined_partial"
   ],
   "note": "Missing: graphs with uses of conditional temporaries (they have arguments, which Nested excludes; the order itself can be wrong there, see C65). arguments_kept: what operations use is not changed, for all graphs. Proved for all placed graphs which fulfil Nested (every value in a scope around its uses, as in C65), in which ends of conditionals are not outside of all loops. marked_joined_partial: the graphs made by C60 without conditional temporaries are of this kind. That all such conditionals are joined is only shown in examples."
  },
  {
   "property": "C67",
   "status": "proved",
   "theorems": [
    "Verif.Atomic.Locate.atomics_located"
   ],
   "note": "For all acyclic operation graphs in which independents have no arguments and calls have the arrays of arguments and results as first arguments. Dependence is by arguments of operations (the graph recorded in the tape is given)."
  },
  {
   "property": "C68",
   "status": "partial",
   "theorems": [
    "Verif.Library.life_partial",
    "Verif.Library.life_without_moves",
    "Verif.Library.moved_library_counterexample",
    "Verif.Library.moved_library_other_counterexample",
    "Verif.Library.moved_model_counterexample",
    "Verif.Library.moved_model_evaluated_counterexample",
    "Verif.Library.moved_model_atomic_counterexample"
   ],
   "note": "Proved for all sequences in which objects are only moved while nothing refers to them, in particular without moves. False in general: after a library or a model was moved, models and libraries still know each other by the old addresses; five kinds of use of deleted objects."
  },
  {
   "property": "C69",
   "status": "proved",
   "theorems": [
    "Verif.Library.Names.source_generated_iff",
    "Verif.Library.Names.calls_reach_functions",
    "Verif.Library.Names.arrays_declared",
    "Verif.Library.Names.special_name_counterexample",
    "Verif.Library.Names.same_name_counterexample"
   ],
   "note": "Calls printed are calls found in the graph (order of evaluation, C65). The theorem special_name_counterexample shows that names with backslashes have to be excluded."
  },
  {
   "property": "C70",
   "status": "partial",
   "theorems": [
    "Verif.Library.Call.after_any_calls",
    "Verif.Library.Call.values_right",
    "Verif.Library.Call.values_right_arrays",
    "Verif.Library.Call.variables_marked",
    "Verif.Library.Call.variables_not_marked",
    "Verif.Library.Call.jacobian_right",
    "Verif.Library.Call.hessian_right",
    "Verif.Library.Call.hessian_of_equation_partial",
    "Verif.Library.Call.sparse_jacobian_dense",
    "Verif.Library.Call.sparse_jacobian_view",
    "Verif.Library.Call.sparse_jacobian_arrays",
    "Verif.Library.Call.sparse_jacobian_vectors_partial",
    "Verif.Library.Call.sparse_hessian_dense",
    "Verif.Library.Call.sparse_hessian_view",
    "Verif.Library.Call.sparse_hessian_arrays",
    "Verif.Library.Call.sparse_hessian_vectors",
    "Verif.Library.Call.sparsity_right",
    "Verif.Library.Call.sparsity_reported",
    "Verif.Library.Call.hessian_of_equation_counterexample",
    "Verif.Library.Call.sparse_jacobian_vectors_counterexample",
    "Verif.Library.Call.marks_kept_counterexample"
   ],
   "note": "False in the code: Hessian(x, i) for vector classes which do not set new elements (hessian_of_equation_counterexample), the size of x in SparseJacobian with vectors (sparse_jacobian_vectors_counterexample), marks which were set before are kept (marks_kept_counterexample). Products with directions are in C46."
  },
  {
   "property": "C71",
   "status": "partial",
   "theorems": [
    "Verif.Formula.latex_one_reading",
    "Verif.Formula.mathml_one_reading",
    "Verif.Formula.latex_means_partial",
    "Verif.Formula.mathml_means_partial",
    "Verif.Formula.latex_enclosed_means_partial",
    "Verif.Formula.mathml_enclosed_means_partial",
    "Verif.Formula.negative_base_counterexample",
    "Verif.Formula.power_of_power_counterexample",
    "Verif.Formula.exponent_base_counterexample",
    "Verif.Formula.alias_negative_counterexample"
   ],
   "note": "False in the code for powers whose base is a negative number, a power or a number printed with an exponent (unless setPowBaseEnclose(true)), and for factors which are aliases of negative numbers. The digits are taken as exact. Conditional assignments, loops, arrays and the names of variables are not part of the formulas."
  },
  {
   "property": "C72",
   "status": "partial",
   "theorems": [
    "Verif.Dae.Dummy.run_defined",
    "Verif.Dae.Dummy.count_right",
    "Verif.Dae.Dummy.relations_kept_partial",
    "Verif.Dae.Dummy.selection_found",
    "Verif.Dae.Dummy.avoided_if_possible",
    "Verif.Dae.Dummy.info_right",
    "Verif.Dae.Dummy.option_no_influence",
    "Verif.Dae.Dummy.option_counterexample",
    "Verif.Dae.Dummy.relations_counterexample",
    "Verif.Dae.Dummy.assertion_counterexample"
   ],
   "note": "False in the code if there are as many candidates as equations in a stage: all are selected without looking at the matrix (and an assertion made after the insertion always fails in debug builds). The option for algebraic variables has no influence on which derivatives are selected. The QR decomposition is a parameter with the properties expected of it (there is one for every matrix); its numerical errors are not modelled. For other values than those for which the Jacobian was determined nothing is claimed."
  },
  {
   "property": "C73",
   "status": "partial",
   "theorems": [
    "Verif.Dae.Reorder.reorder_defined",
    "Verif.Dae.Reorder.reorder_right",
    "Verif.Dae.Reorder.variable_order",
    "Verif.Dae.Reorder.equation_order",
    "Verif.Dae.Reorder.remove_undefined",
    "Verif.Dae.Reorder.remove_right_partial",
    "Verif.Dae.Reorder.semi_defined",
    "Verif.Dae.Reorder.semi_right",
    "Verif.Dae.Reorder.model_right",
    "Verif.Dae.Reorder.documented_order_counterexample",
    "Verif.Dae.Reorder.equation_derivatives_counterexample",
    "Verif.Dae.Reorder.remove_undefined_counterexample",
    "Verif.Dae.Reorder.second_order_counterexample"
   ],
   "note": "False in the code: after a reordering the information which equation is the derivative of which is not moved, so it names other equations; every removal of a variable uses elements beyond the end of a vector, what is proved is what happens if nothing is there; with second derivatives an explicit equation belongs to no variable; derivatives come before the differential variables, other than documented. Substitutions in the equations are a parameter which says whether they succeed."
  },
  {
   "property": "C74",
   "status": "partial",
   "theorems": [
    "Verif.Names.independent_place",
    "Verif.Names.own_names",
    "Verif.Names.dependent_place",
    "Verif.Names.temporary_place",
    "Verif.Names.names_differ",
    "Verif.Names.consecutive_right",
    "Verif.Names.run_right",
    "Verif.Names.consecutive_complete",
    "Verif.Names.consecutive_defined_partial",
    "Verif.Names.same_array_partial",
    "Verif.Names.same_array_own_names",
    "Verif.Names.own_names_undefined_counterexample",
    "Verif.Names.same_array_counterexample",
    "Verif.Names.scalar_temporaries_counterexample"
   ],
   "note": "False in the code: the generator with own names reads an element behind the vector of names for the variable which follows the last named one; the wrappers for multipliers say that a variable with an own name is in the same array as others; temporaries which are not in an array are still said to be consecutive in one. The claim about same arrays is proved for generators without wrappers and for wrappers of generators without own names. MathML and expressions for indexes in loops are not modelled."
  },
  {
   "property": "C75",
   "status": "partial",
   "theorems": [
    "Verif.Dae.Soares.soares_correct",
    "Verif.Dae.Soares.soares_regular",
    "Verif.Dae.Soares.soares_rejected_partial",
    "Verif.Dae.Soares.soares_corrected",
    "Verif.Dae.Soares.regular_rejected_counterexample"
   ],
   "note": "False in the code: regular systems can be rejected from the second round on, because equations which were differentiated stay colored during the second search. Proved instead: a system rejected in the first round is not regular, and with all equations uncolored exactly the regular systems are accepted. The removal of the derivatives added last, done afterwards, is in C77."
  },
  {
   "property": "C76",
   "status": "partial",
   "theorems": [
    "Verif.Dae.Elim.elimination_correct",
    "Verif.Dae.Elim.elimination_corrected",
    "Verif.Dae.Elim.substitution_kept_iff",
    "Verif.Dae.Elim.removed_edge_counterexample",
    "Verif.Dae.Elim.removed_edge_nonlinear_counterexample",
    "Verif.Dae.Elim.stale_assignment_counterexample",
    "Verif.Dae.Elim.semi_explicit_counterexample",
    "Verif.Dae.Elim.marks_kept_counterexample"
   ],
   "note": "False in the code: an edge which is removed stays in the list of the variable, so an equation which cannot be solved is tried and the exception ends the generation (also for regular linear systems; with the edge removed on both sides there are no exceptions when there are only dummy derivatives); a variable recorded before is kept for an equation which gets none, though it may now belong to another one; derivatives assigned for information only are accepted as solved; marks of earlier searches are kept, so possible assignments are missed. The handler is a parameter: what can be solved and what residuals depend on after a substitution."
  },
  {
   "property": "C77",
   "status": "partial",
   "theorems": [
    "Verif.Dae.Remove.reduced_information_right_partial",
    "Verif.Dae.Remove.reduceIndex_right_partial",
    "Verif.Dae.Remove.unused_derivative_counterexample",
    "Verif.Dae.Remove.dangling_assignment_counterexample"
   ],
   "note": "False in the code for a given derivative which occurs in no given equation: it is removed though it is on the tape, and what is recorded about other variables and equations is wrong. Also, variables which stay can be assigned to equations which were freed, and printResultInfo follows that pointer. Proved for systems in which every given derivative occurs in an equation (Occurs), every variable has at most one derivative (OneDerivative) and constants have no antiderivative (ConstantsPlain). The new tape is in C78."
  },
  {
   "property": "C78",
   "status": "partial",
   "theorems": [
    "Verif.Dae.Tape.new_equations_right_partial",
    "Verif.Dae.Tape.new_equations_iterated_partial",
    "Verif.Dae.Tape.solutions_same_partial",
    "Verif.Dae.Tape.reduced_system_right_partial",
    "Verif.Dae.Tape.forward_same_as_reverse",
    "Verif.Dae.Tape.forward_asserts",
    "Verif.Dae.Tape.missing_derivative_counterexample"
   ],
   "note": "Proved for tapes of sums, products and differentiable functions of one variable, at points where these are defined; comparisons, conditional expressions, functions of two variables other than these, and atomic functions of the user are not covered. The information has to be right (Right, proved in C77 for the method of Soares and Secchi; for that of Pantelides this is a hypothesis), and at most one variable is the time (OneTime). With the wrong information of C77 a wrong equation is generated."
  },
  {
   "property": "C79",
   "status": "partial",
   "theorems": [
    "Verif.Loops.For1.column_right_partial",
    "Verif.Loops.For1.column_with_free_partial",
    "Verif.Loops.For1.column_absent",
    "Verif.Loops.For1.forward_right_partial",
    "Verif.Loops.For1.sparse_right_partial",
    "Verif.Loops.For1.stale_counterexample",
    "Verif.Loops.For1.generation_counterexample"
   ],
   "note": "column_right_partial and forward_right_partial hold for requests which meet DirectToo; without it the source generation can throw (generation_counterexample). ForwardOne of the library does not set its array to zero between calls, so that it is wrong for columns all of whose elements are in loops (stale_counterexample); right for columns with an element outside of the loops (sparse_right_partial)."
  },
  {
   "property": "C80",
   "status": "partial",
   "theorems": [
    "Verif.Loops.Rev1.row_right",
    "Verif.Loops.Rev1.row_sets",
    "Verif.Loops.Rev1.row_adds",
    "Verif.Loops.Rev1.row_absent",
    "Verif.Loops.Rev1.reverse_right",
    "Verif.Loops.Rev1.sparse_right_partial",
    "Verif.Loops.Rev1.stale_counterexample"
   ],
   "note": "sparse_reverse_one and reverse_one are right for all requests (row_right, row_sets, row_adds, row_absent, reverse_right). ReverseOne of the library does not set its array to zero between calls, so that it is wrong for equations in loops (stale_counterexample); right for equations outside of the loops (sparse_right_partial)."
  },
  {
   "property": "C81",
   "status": "partial",
   "theorems": [
    "Verif.Loops.Rev2.row_right_partial",
    "Verif.Loops.Rev2.row_sets_partial",
    "Verif.Loops.Rev2.row_adds_partial",
    "Verif.Loops.Rev2.product_right_partial",
    "Verif.Loops.Rev2.missing_factor_counterexample",
    "Verif.Loops.Rev2.stale_counterexample"
   ],
   "note": "The tables of the requested elements and the second derivatives of the tapes are given (their analysis is C59). Second derivatives for two variables which do not depend on the iteration, from equations which are not in all iterations, are added without the component of the direction (missing_factor_counterexample), so the theorems ask that there are none or that the component is one. ReverseTwo of the library does not set its array to zero between rows, so that it is wrong for rows all of whose equations are in loops (stale_counterexample); product_right_partial is for the other rows."
  },
  {
   "property": "C82",
   "status": "partial",
   "theorems": [
    "Verif.Loops.Usage.matrix_right_partial",
    "Verif.Loops.Usage.element_position",
    "Verif.Loops.Usage.overflow_counterexample",
    "Verif.Loops.Usage.repeated_counterexample"
   ],
   "note": "What the functions add and assign is given (C79\u2013C81 are about them). The temporary array is as long as the longest row which is not passed directly, but a group with one such row gets it for all of its rows: a longer row is stored beyond its end (overflow_counterexample), so the theorem asks that there is room. For elements requested twice both positions have the location of the first (repeated_counterexample), so each element is to be requested once."
  },
  {
   "property": "C83",
   "status": "partial",
   "theorems": [
    "Verif.Loops.Deps.deps_right",
    "Verif.Loops.Deps.deps_defined_partial",
    "Verif.Loops.Deps.parameter_counterexample"
   ],
   "note": "What is printed is right (deps_right), but if a parameter is assigned to a variable after one which is assigned an element of an array, a null pointer is used (parameter_counterexample), so that something is printed is proved for variables which are not assigned parameters. All variables are taken to use the same index, which the code does not check."
  },
  {
   "property": "C84",
   "status": "proved",
   "theorems": [
    "Verif.Eval.Atomic.evaluate_right",
    "Verif.Eval.Atomic.evaluate_rejects"
   ],
   "note": "The hypotheses describe recorded graphs: acyclic, elements belong to the result array of their call, result arrays belong to one call and are not arguments (C50); functions give as many results as asked for. The stack is deep enough. evaluate_rejects is for one requested element, whose array of results starts with parameters."
  },
  {
   "property": "C85",
   "status": "partial",
   "theorems": [
    "Verif.Eval.Known.known_right_partial",
    "Verif.Eval.Known.cleared_right",
    "Verif.Eval.Known.stale_counterexample",
    "Verif.Eval.Known.order_counterexample",
    "Verif.Eval.Known.failure_counterexample"
   ],
   "note": "Proved if no results are left from a failed evaluation, for order zero and functions which do not fail. Otherwise false: results of an evaluation which failed are kept (stale_counterexample), for higher orders two arrays of arguments are taken for arguments and results (order_counterexample), and failures reported by functions are ignored (failure_counterexample)."
  },
  {
   "property": "C86",
   "status": "partial",
   "theorems": [
    "Verif.Timer.timer_right",
    "Verif.Timer.running_right",
    "Verif.Timer.library_right_partial",
    "Verif.Timer.unfinished_counterexample",
    "Verif.Timer.exception_counterexample"
   ],
   "note": "Proved for the timer, and for the jobs of the creation of a dynamic library if all sources compile. The generation of sparse forward and reverse mode of models with atomic functions does not finish one of its jobs (unfinished_counterexample), and no running job is finished if a source does not compile (exception_counterexample). The jobs of other parts of the generation are given as nested jobs."
  },
  {
   "property": "C87",
   "status": "partial",
   "theorems": [
    "Verif.Library.Build.library_right_partial",
    "Verif.Library.Build.library_complete_partial",
    "Verif.Library.Build.temporary_right",
    "Verif.Library.Build.collision_counterexample"
   ],
   "note": "The objects are proved right if no two sources have the same name. Sources of different models can have the same name: then one object replaces another and nothing is reported (collision_counterexample). That files are left as they were is proved for all names, if no files had the names of the object files before. Sources saved to disk first are in C91, static libraries in C88."
  },
  {
   "property": "C88",
   "status": "partial",
   "theorems": [
    "Verif.Library.Build.static_members",
    "Verif.Library.Build.static_right_partial",
    "Verif.Library.Build.static_complete",
    "Verif.Library.Build.static_failed",
    "Verif.Library.Build.old_member_counterexample"
   ],
   "note": "Proved if there was no library before. Otherwise members of before with other names are kept (static_members, for all libraries), so objects of models which are not used any more stay in the library (old_member_counterexample). What ar does with the flag r is taken from its manual. Names of sources have no folder."
  },
  {
   "property": "C89",
   "status": "partial",
   "theorems": [
    "Verif.Library.Sources.library_fits",
    "Verif.Library.Sources.pool_there_partial",
    "Verif.Library.Sources.pool_asked_partial",
    "Verif.Library.Sources.stale_model_counterexample",
    "Verif.Library.Sources.other_library_counterexample",
    "Verif.Library.Sources.stale_library_counterexample"
   ],
   "note": "The first sentence is proved for all sequences (library_fits). The second one is proved if no setting is changed after it was used: the threads of the library are set before any sources are generated, settings of a model are made before that or before the model is added, and the models are used for no other library. Otherwise it is false: sources of models and of the library are kept if settings change, so a model can call a pool which is not in the library (stale_model_counterexample, other_library_counterexample), and threads asked for later are not used (stale_library_counterexample). Texts of sources are replaced by the pools which they call or define."
  },
  {
   "property": "C90",
   "status": "partial",
   "theorems": [
    "Verif.Library.Save.saved_last",
    "Verif.Library.Save.saved_right_partial",
    "Verif.Library.Save.save_failed",
    "Verif.Library.Save.closed_same",
    "Verif.Library.Save.lost_counterexample",
    "Verif.Library.Save.replaced_counterexample"
   ],
   "note": "Proved if all files can be opened and no two sources have the same name; with equal names the last source is kept (saved_last). Otherwise it is false: if a file cannot be opened nothing is saved and there is no exception (lost_counterexample), and a source of the user replaces one of a model with the same name (replaced_counterexample). A file which is open is taken to be written completely; paths are compared as texts."
  },
  {
   "property": "C91",
   "status": "partial",
   "theorems": [
    "Verif.Library.Build.disk_same_partial",
    "Verif.Library.Build.disk_library_partial",
    "Verif.Library.Build.disk_saved_partial",
    "Verif.Library.Build.disk_missing",
    "Verif.Library.Build.old_source_counterexample"
   ],
   "note": "The first two sentences are proved if all source files can be opened and are no object files, the second one also if no two sources have the same name. The last one is proved if there was no such file before; otherwise the text of before is compiled without exception (old_source_counterexample). The folders are taken to be there, a file which is open to be written completely."
  }
 ]
}