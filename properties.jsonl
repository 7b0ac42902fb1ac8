{"id": "C01", "title": "Arithmetic on CG objects is sound", "statement": "For any two CG operands (each a constant or a recorded variable, of one handler), the CG returned by +, -, *, / and unary minus denotes the arithmetic result of what the operands denote, whatever values the independent variables take, no matter which of the shortcuts (0+x, x-0, 0*x, 1*x, x/1, 0/x, x/x, constant folding) fired; compound assignments denote the same result as the binary operators.", "quantifier": "all operand pairs, all recorded graphs, all values of the independent variables over a field (division by a non-zero denominator)", "why_tests_cant": "tests fix a handful of expressions and inputs; the shortcut rules depend on the shape of both operands and of the whole recorded graph", "anchors": ["include/cppad/cg/arithmetic.hpp: operator+,-,*,/", "include/cppad/cg/arithmetic_assign.hpp: operator+=,-=,*=,/=", "include/cppad/cg/unary.hpp"]}
{"id": "C02", "title": "Known values follow the operations", "statement": "If a CG object reports a known value (isValueDefined) then, when the independents hold the values given to them with setValue, evaluating the recorded expression yields exactly that value; and the result of an operation reports a known value exactly when both operands do (or a shortcut made it a constant).", "quantifier": "all sequences of CG operations", "why_tests_cant": "values are propagated by every operator separately; tests look at single operators", "anchors": ["include/cppad/cg/arithmetic.hpp", "include/cppad/cg/cg.hpp: getValue/setValue/isValueDefined", "include/cppad/cg/variable.hpp", "include/cppad/cg/default.hpp"]}
{"id": "C03", "title": "Operands of different handlers are rejected", "statement": "Combining variables recorded by two different CodeHandlers raises CGException and never yields an expression that mixes both graphs.", "quantifier": "all pairs of operands and all binary operations of the public API", "why_tests_cant": "each operator has its own code path, tests would have to cover the cross product of operators and operand kinds", "anchors": ["include/cppad/cg/arithmetic.hpp: getHandler use", "include/cppad/cg/arithmetic_assign.hpp", "include/cppad/cg/math_other.hpp: pow", "include/cppad/cg/cond_exp_op.hpp"]}
{"id": "C04", "title": "Conditional expressions select the right branch", "statement": "CondExpLt/Le/Eq/Ge/Gt denotes the true-case when the comparison holds for the denoted operands and the false-case otherwise, both when it is folded at recording time and when it is emitted as a node; the comparison operators on constants agree with the comparison of their values and ordering comparisons on non-constants raise.", "quantifier": "all operands, all comparison kinds, all input values", "why_tests_cant": "folding depends on which of four operands are constant (16 combinations times 5 relations)", "anchors": ["include/cppad/cg/cond_exp_op.hpp", "include/cppad/cg/compare.hpp", "include/cppad/cg/lang/c/language_c.hpp: printConditionalAssignment"]}
{"id": "C05", "title": "Generated code computes the recorded model", "statement": "Running the statements emitted by generateCode top to bottom, with x holding any inputs and every other variable initially undefined, terminates without reading an undefined variable and leaves in each y[i] the value obtained by evaluating the recorded expression of dependent i directly on the graph.", "quantifier": "all recorded acyclic graphs (scope-free operations), all dependent vectors (including repeated, constant and independent entries), all inputs, any interpretation of the scalar operations", "why_tests_cant": "a test compares a few generated models numerically; it cannot cover every sharing pattern of the graph, which decides variable creation, ordering and reuse", "anchors": ["include/cppad/cg/code_handler_impl.hpp: generateCode, markCodeBlockUsed, checkVariableCreation, addToEvaluationQueue, reduceTemporaryVariables", "include/cppad/cg/lang/c/language_c.hpp: generateSourceCode"]}
{"id": "C06", "title": "No variable is read before it is assigned", "statement": "In the emitted statement sequence every temporary and dependent that is read has been assigned by an earlier statement of the same run.", "quantifier": "all recorded graphs and dependent vectors", "why_tests_cant": "depends on the evaluation order chosen for the whole graph", "anchors": ["include/cppad/cg/code_handler_impl.hpp: checkVariableCreation, addToEvaluationQueue", "include/cppad/cg/lang/c/language_c.hpp: generateSourceCode"]}
{"id": "C07", "title": "Reusing temporaries never clobbers a live value", "statement": "With temporary reuse enabled (setReuseVariableIDs) two temporaries share storage only if the last read of the first one precedes the write of the second, hence code generated with and without reuse computes the same dependents.", "quantifier": "all evaluation orders, all use patterns of temporaries", "why_tests_cant": "clobbering needs a specific interleaving of lifetimes in a graph; sampling can miss it", "anchors": ["include/cppad/cg/code_handler_impl.hpp: reduceTemporaryVariables, determineLastTempVarUsage, isTemporary"]}
{"id": "C08", "title": "The declared number of temporaries is enough", "statement": "Every temporary index written or read in the emitted code is smaller than the number reported by getTemporaryVariableCount (the size of the array v the caller allocates); likewise array storage indices are below getTemporaryArraySize.", "quantifier": "all recorded graphs, with and without reuse", "why_tests_cant": "an overflow of v only shows for graphs whose lifetimes exceed the count by one", "anchors": ["include/cppad/cg/code_handler_impl.hpp: getTemporaryVariableCount, reduceTemporaryVariables", "include/cppad/cg/array_id_compresser.hpp", "include/cppad/cg/lang/c/lang_c_default_var_name_gen.hpp"]}
{"id": "C09", "title": "Inputs are never overwritten", "statement": "No emitted statement assigns to an independent variable, and the three families of names (independent, dependent, temporary) never collide.", "quantifier": "all recorded graphs and all identifiers, for the default name generator", "why_tests_cant": "names come from numeric ids assigned in several passes", "anchors": ["include/cppad/cg/lang/c/lang_c_default_var_name_gen.hpp", "include/cppad/cg/code_handler_impl.hpp: generateCode"]}
{"id": "C10", "title": "Every dependent is assigned", "statement": "Each requested dependent y[i] is assigned by the emitted code exactly once, also when several dependents share one expression, are constants, or are independents (except for constant zeros when zero assignments are switched off).", "quantifier": "all dependent vectors", "why_tests_cant": "combinations of duplicates, constants and zeros are unbounded", "anchors": ["include/cppad/cg/lang/c/language_c.hpp: generateSourceCode (duplicates, zero dependents)"]}
{"id": "C11", "title": "Arrays that are alive at the same time never share storage", "statement": "Storage ranges handed out for array temporaries are disjoint from every range still in use, stay below the reported array size, and a released range can be reused; cached element values used to skip an assignment are exactly the values stored there.", "quantifier": "all sequences of reservations and releases, all sizes", "why_tests_cant": "fragmentation and merging of free ranges depend on the full allocation history", "anchors": ["include/cppad/cg/array_id_compresser.hpp: reserveArraySpace, addFreeArraySpace", "include/cppad/cg/code_handler_impl.hpp: reduceTemporaryVariables", "include/cppad/cg/lang/c/language_c_arrays.hpp: pushArrayCreationOp"]}
{"id": "C12", "title": "Generating code twice gives equivalent code", "statement": "Calling generateCode again on the same handler (with any dependents and any name generator settings), also after reset-like calls, yields code that is correct for that call, independent of the calls made before.", "quantifier": "all call histories on one handler", "why_tests_cant": "the state kept between calls (names, ids, usage counters) is only exposed by particular histories", "anchors": ["include/cppad/cg/code_handler_impl.hpp: generateCode, reset, resetManagedNodes", "include/cppad/cg/lang/c/language_c.hpp: names"]}
{"id": "C13", "title": "Printed C expressions mean what was recorded", "statement": "The text printed for an expression, read with the C grammar (precedence and associativity), has the value of the recorded expression: parentheses are placed wherever they are needed.", "quantifier": "all nested expressions over + - * / unary minus, function calls, variables and constants, over a field", "why_tests_cant": "parenthesis omission depends on pairs of nested operators at arbitrary depth", "anchors": ["include/cppad/cg/lang/c/language_c.hpp: printOperationAdd, printOperationMinus, printOperationMul, printOperationDiv, printOperationUnaryMinus, encloseInParenthesesDiv, encloseInParenthesesMul"]}
{"id": "C14", "title": "A detected index pattern reproduces every index", "statement": "For any finite list (or map) of iteration -> index the pattern returned by IndexPattern::detect evaluates, at every given iteration, to exactly the given index (linear, sectioned or random).", "quantifier": "all finite index lists and maps, 64 bit wrap-around arithmetic included", "why_tests_cant": "section detection has several boundary cases (constant tails, limits on the number of sections)", "anchors": ["include/cppad/cg/patterns/index/index_pattern_impl.hpp: detect", "include/cppad/cg/patterns/index/sectioned_index_pattern.hpp: detectLinearSections", "include/cppad/cg/patterns/index/linear_index_pattern.hpp"]}
{"id": "C15", "title": "Printed index expressions compute the pattern", "statement": "The C expression printed for a (linear, sectioned, plane) index pattern evaluates, for every value of the loop index where the pattern is defined, to the value of the pattern.", "quantifier": "all pattern parameters and index values", "why_tests_cant": "neutral parts are omitted case by case (offset, dx, dy, b) giving many combinations", "anchors": ["include/cppad/cg/lang/c/language_c_index_patterns.hpp: indexPattern2String, linearIndexPattern2String"]}
{"id": "C16", "title": "A detected plane reproduces every index pair", "statement": "When Plane2DIndexPattern::detectPlane2D returns a pattern, it evaluates to the given value at every given pair of indices.", "quantifier": "all finite maps of index pairs to indices", "why_tests_cant": "detection only looks at rows and columns separately and verifies combinations", "anchors": ["include/cppad/cg/patterns/index/plane_2d_index_pattern.hpp: detectPlane2D"]}
{"id": "C17", "title": "Printed random-pattern tables hold the pattern", "statement": "The static array or matrix printed for a random index pattern contains at the position of each key the value of the pattern.", "quantifier": "all finite random patterns", "why_tests_cant": "gaps in the keys must be filled positionally", "anchors": ["include/cppad/cg/lang/c/language_c_index_patterns.hpp: printRandomIndexPatternDeclaration, printStaticIndexMatrix", "include/cppad/cg/lang/c/language_c.hpp: printStaticIndexArray"]}
{"id": "C18", "title": "Iteration conditions select exactly the requested iterations", "statement": "The condition generated for a branch is true for every iteration of the branch and false for every other loop iteration that was not handled by an earlier branch.", "quantifier": "all iteration sets, all previously used sets, all loop lengths", "why_tests_cant": "run-length compression with open-ended bounds depends on the joint layout of two sets", "anchors": ["include/cppad/cg/model/patterns/model_c_source_gen_loops.hpp: createIndexConditionExpression", "include/cppad/cg/lang/c/language_c.hpp: printIndexCondExpr"]}
{"id": "C19", "title": "An if/else-if/else chain runs the branch of the iteration", "statement": "For the chain built for a family of disjoint iteration sets, at every iteration belonging to one of the sets exactly the branch of that set is executed; when the sets do not cover the loop no branch runs for the uncovered iterations.", "quantifier": "all families of disjoint iteration sets with distinct (size, first) keys", "why_tests_cant": "later conditions deliberately overlap earlier ones", "anchors": ["include/cppad/cg/model/patterns/model_c_source_gen_loops.hpp: createConditionalContribution"]}
{"id": "C20", "title": "Iteration range algebra", "statement": "Combining two lists of iteration ranges yields a list covering exactly the union, and inverting yields exactly the complement in 0..SIZE_MAX; results are again ordered lists.", "quantifier": "all ordered range lists, including those touching SIZE_MAX", "why_tests_cant": "merging of adjacent/overlapping intervals has boundary cases at overflow", "anchors": ["include/cppad/cg/range.hpp: combineOverlapingIterationRanges, combineNonOverlapingIterationRanges, invertIterationRanges, ifBranchIterationRanges"]}
{"id": "C21", "title": "Solving for a variable is correct", "statement": "When solveFor(expression, variable) returns an expression without the variable occurring elsewhere, assigning that value to the variable makes the expression zero, wherever the inverse operations are defined; any root in the domain is the returned one.", "quantifier": "all expressions with the variable on a single path and all input values, over the reals", "why_tests_cant": "each operation has its own inverse and argument-position rule", "anchors": ["include/cppad/cg/solver.hpp: solveFor"]}
{"id": "C22", "title": "isSolvable predicts solveFor", "statement": "isSolvable answers true exactly when solveFor on the same path does not raise.", "quantifier": "all paths through the supported operations", "why_tests_cant": "two separate switch statements must agree for every operation and argument position", "anchors": ["include/cppad/cg/solver.hpp: isSolvable, solveFor"]}
{"id": "C23", "title": "Collecting a variable preserves the expression", "statement": "collectVariable rewrites an expression in which a variable occurs on several paths of additions/subtractions into a*variable + rest with the same value.", "quantifier": "all expressions accepted by isCollectable..., all values", "why_tests_cant": "sign handling depends on the argument position along each path", "anchors": ["include/cppad/cg/collect_variable.hpp: collectVariable, collectVariableAddSub"]}
{"id": "C24", "title": "Graph evaluation through Evaluator is faithful", "statement": "Evaluator::evaluate returns for each requested dependent the value of the recorded expression for the given independents; it reports a wrong number of independents as an error and memoisation does not change results; a re-entrant call is rejected.", "quantifier": "all graphs, all inputs, all evaluation requests in sequence", "why_tests_cant": "sharing and evaluation order vary without bound", "anchors": ["include/cppad/cg/evaluator/evaluator.hpp: evaluate, evalOperations"]}
{"id": "C25", "title": "Independent substitution preserves meaning", "statement": "After substituteIndependent(indep, solution) the graph denotes the original expressions with the solution put in place of the variable; undoSubstituteIndependent restores the original meaning, removeIndependent refuses variables still in use.", "quantifier": "all graphs, variables and solutions not depending on the variable", "why_tests_cant": "aliases change the meaning of shared nodes globally", "anchors": ["include/cppad/cg/graph_mod.hpp: substituteIndependent, undoSubstituteIndependent, removeIndependent"]}
{"id": "C26", "title": "Sparsity algebra equals boolean matrix algebra", "statement": "addMatrixSparsity, addTransMatrixSparsity, transposePattern, multMatrixMatrixSparsity, multMatrixTransMatrixSparsity, multMatrixMatrixSparsityTrans compute exactly the boolean sum, transpose and products of the patterns (accumulated on the output).", "quantifier": "all patterns and sizes", "why_tests_cant": "product patterns are unbounded", "anchors": ["include/cppad/cg/util.hpp: addMatrixSparsity, addTransMatrixSparsity, transposePattern, multMatrixMatrixSparsity, multMatrixTransMatrixSparsity, multMatrixMatrixSparsityTrans"]}
{"id": "C27", "title": "Sparsity index lists round-trip", "statement": "generateSparsitySet of the row/column lists produced by generateSparsityIndexes gives the original pattern back; the lists are row-major ordered without duplicates and have one entry per non-zero.", "quantifier": "all patterns", "why_tests_cant": "all sizes and contents", "anchors": ["include/cppad/cg/extra/sparsity.hpp: generateSparsityIndexes, generateSparsitySet"]}
{"id": "C28", "title": "Augmenting paths keep a valid assignment", "statement": "During structural analysis of a DAE an augmentation attempt keeps the equation/variable assignment one-to-one along incidences; on success the equation becomes assigned and no assigned equation loses its assignment, on failure the assignment is unchanged and the marked equations exhibit a structurally singular subset (more equations than reachable variables).", "quantifier": "all bipartite graphs and assignments, both look-ahead strategies", "why_tests_cant": "graph shapes and recursion orders are unbounded", "anchors": ["include/cppad/cg/dae_index_reduction/augment_path_depth_lookahead.hpp", "include/cppad/cg/dae_index_reduction/augment_path_depth_lookahead_a.hpp", "include/cppad/cg/dae_index_reduction/bipartite_nodes.hpp"]}
{"id": "C29", "title": "Index reduction ends with every equation assigned", "statement": "When Pantelides' loop returns normally every equation of the extended system is assigned to a distinct variable it contains; differentiation links are consistent: a differentiated equation contains the derivatives of the variables of its origin.", "quantifier": "all bipartite graphs", "why_tests_cant": "number of differentiations is data dependent", "anchors": ["include/cppad/cg/dae_index_reduction/pantelides.hpp: detectSubset2Dif", "include/cppad/cg/dae_index_reduction/bipartite_graph.hpp: createDerivate, dirtyDifferentiateEq"]}
{"id": "C30", "title": "Structural index is reported correctly", "statement": "getStructuralIndex returns 0 for an ODE (no algebraic variables, no equation differentiated) and otherwise follows the documented count of differentiations.", "quantifier": "all reduced systems", "why_tests_cant": "depends on the structure of chains of derivatives", "anchors": ["include/cppad/cg/dae_index_reduction/bipartite_graph.hpp: getStructuralIndex"]}
{"id": "C31", "title": "Thread pool runs every job exactly once", "statement": "Each job given to cppadcg_thpool_add_job(s) is executed exactly once, by one thread, under any scheduling strategy and any interleaving of the threads.", "quantifier": "all interleavings, thread counts, job lists and strategies", "why_tests_cant": "interleavings cannot be enumerated by running the code", "anchors": ["include/cppad/cg/model/threadpool/pthread_pool.c: thread_do, jobqueue_pull, jobqueue_push_internal, jobqueue_multipush, jobqueue_push_static_jobs"]}
{"id": "C32", "title": "Waiting on the pool really waits", "statement": "When cppadcg_thpool_wait returns, every job added before the call (by the calling thread) has finished.", "quantifier": "all interleavings", "why_tests_cant": "a race between the counters read in the wait condition would show only rarely", "anchors": ["include/cppad/cg/model/threadpool/pthread_pool.c: thpool_wait, thread_do, jobqueue_pull"]}
{"id": "C33", "title": "The pool cannot get stuck", "statement": "As long as a job is queued or running some thread can take a step, no wake-up is lost, and a waiter is notified once all work is done; this includes changing the scheduling strategy between calls.", "quantifier": "all interleavings and strategy changes", "why_tests_cant": "lost wake-ups and livelocks depend on rare interleavings", "anchors": ["include/cppad/cg/model/threadpool/pthread_pool.c: bsem_post, bsem_wait, jobqueue_pull, thpool_wait, cppadcg_thpool_set_scheduler_strategy"]}
{"id": "C34", "title": "Guided scheduling never runs past the queue", "statement": "Under guided scheduling the group of jobs taken by a thread is a prefix of the queue with at least one job, and the traversal never dereferences a missing job.", "quantifier": "all queues, elapsed times, thread counts and settings of the maximum group work", "why_tests_cant": "depends on accumulated times versus a target", "anchors": ["include/cppad/cg/model/threadpool/pthread_pool.c: jobqueue_pull (guided branch)"]}
{"id": "C35", "title": "Job order follows measured times", "statement": "After cppadcg_thpool_update_order the order array is a permutation of the jobs, and jobs are queued in descending order of reference time.", "quantifier": "all time vectors", "why_tests_cant": "wrong for permutations that are not involutions only", "anchors": ["include/cppad/cg/model/threadpool/pthread_pool.c: cppadcg_thpool_update_order, thpool_add_jobs"]}
{"id": "C36", "title": "Static scheduling places each job in one group", "statement": "Static scheduling distributes every job to exactly one work group, each group is filled exactly up to the size it was allocated with, and all thread numbers used are valid.", "quantifier": "all job lists, times, thread counts, and earlier calls on the same tables", "why_tests_cant": "buffer sizes come from counts made in a separate pass", "anchors": ["include/cppad/cg/model/threadpool/pthread_pool.c: jobqueue_push_static_jobs"]}
{"id": "C37", "title": "Ordering relations used for sorting and maps are strict weak orders", "statement": "The comparators given to std::sort/std::map/std::set are irreflexive, asymmetric and transitive with transitive incomparability, and comparators used as keys identify only equal objects.", "quantifier": "all elements compared", "why_tests_cant": "a violated axiom is undefined behaviour that may stay invisible", "anchors": ["include/cppad/cg/util.hpp: SetComparator, compare", "include/cppad/cg/operation_path_node.hpp: operator<", "include/cppad/cg/dae_index_reduction/dummy_deriv_util.hpp: sortVariablesByOrder, sortEquationByAssignedOrder2", "include/cppad/cg/patterns/independent_node_sorter.hpp"]}
{"id": "C38", "title": "String helpers", "statement": "explode followed by implode with the same delimiter restores the text; replaceString leaves no occurrence when the replacement does not contain the searched text and terminates; for every input.", "quantifier": "all strings, delimiters", "why_tests_cant": "boundary positions of delimiters", "anchors": ["include/cppad/cg/util.hpp: explode, implode, replaceString"]}
{"id": "C39", "title": "Visit marks and per-node data stay consistent", "statement": "After startNewOperationTreeVisit no node counts as visited until it is marked, for any number of visits; per-node annotations keep belonging to the same node when other nodes are deleted from the handler.", "quantifier": "all sequences of node creation, deletion and visits", "why_tests_cant": "requires long histories", "anchors": ["include/cppad/cg/code_handler_impl.hpp: startNewOperationTreeVisit, isVisited, markVisited, deleteManagedNodes", "include/cppad/cg/code_handler_vector.hpp: adjustSize, nodesErased"]}
{"id": "C40", "title": "Path search is exact", "statement": "Every path returned by findPaths leads from the root to the target through the recorded arguments, paths are pairwise different, and fewer than the limit were returned only if there are no others.", "quantifier": "all graphs, targets and limits", "why_tests_cant": "number of paths may be exponential", "anchors": ["include/cppad/cg/operation_path.hpp: findPaths, findPathGraph"]}
{"id": "C41", "title": "Text of print operations", "statement": "The string literal written for a print operation is well formed C and running it prints the given text before the value, the value and the given text after it.", "quantifier": "all texts", "why_tests_cant": "escaping fails only for particular characters and positions", "anchors": ["include/cppad/cg/lang/c/language_c.hpp: pushPrintOperation", "include/cppad/cg/util.hpp: replaceString"]}
{"id": "C42", "title": "Offset copies of an index pattern", "statement": "When isOffsetBy accepts a pattern as a reference pattern plus an offset, the pattern is at every index the reference plus that offset; the plane built by encapsulateIndexPattern for a family of such copies evaluates at (x, i) to copy i of the family at x.", "quantifier": "all linear and sectioned patterns, all offsets, all indexes, arithmetic modulo 2^64 or exact", "why_tests_cant": "The check compares section parameters only; that equal parameters imply equal values at every index, including indexes never seen, is a statement over unboundedly many patterns and indexes.", "anchors": ["include/cppad/cg/lang/c/language_c_index_patterns.hpp: isOffsetBy (319-405), encapsulateIndexPattern (409-438)", "include/cppad/cg/lang/c/language_c_arrays.hpp: printArrayCreationUsingLoop (196-216)"]}
{"id": "C43", "title": "Index reduction ends exactly on structurally regular systems", "statement": "If the equations of a DAE can be matched with variables no one of which is a derivative of another (a structurally regular system) then Pantelides' loop ends and accepts the system; a structurally singular system is never accepted, it is rejected by an exception.", "quantifier": "all variable descriptions accepted by the constructor and all sparsity patterns", "why_tests_cant": "the number of differentiations is not bounded by the size of the system and the failing inputs make the loop run forever", "anchors": ["include/cppad/cg/dae_index_reduction/pantelides.hpp: detectSubset2Dif", "include/cppad/cg/dae_index_reduction/bipartite_graph.hpp: BipartiteGraph"]}
{"id": "C44", "title": "Sharing storage between arrays is invisible", "statement": "A generated function whose array temporaries share one memory block, which skips assignments of values known to be in place and groups assignments into loops, computes the same variables as the same operations with separate storage for every array.", "quantifier": "all sequences of assignments, array creations and external calls, all initial memory contents", "why_tests_cant": "overwriting depends on the allocation history and on which values are inlined; most programs never hit the bad layout", "anchors": ["include/cppad/cg/code_handler_impl.hpp: reduceTemporaryVariables", "include/cppad/cg/array_id_compresser.hpp: reserveArraySpace", "include/cppad/cg/lang/c/language_c_arrays.hpp: pushArrayCreationOp, printArrayCreationUsingLoop, markArrayChanged"]}
{"id": "C45", "title": "Every requested element of a sparse Jacobian or Hessian is stored in its place", "statement": "The generated functions sparse_jacobian and sparse_hessian, which call one function for each row or column and copy the results, store in place e of the output the derivative for the e-th element requested by the user, in forward and reverse mode, with and without atomic functions, with one or with several threads in any interleaving; nothing outside of the output is accessed.", "quantifier": "all lists of requested elements, all derivative functions, all inputs and weights, all interleavings of the jobs", "why_tests_cant": "the layout depends on how the requested order relates to the sorted rows and columns, and with threads on the schedule; tests use a few natural orders", "anchors": ["include/cppad/cg/model/model_c_source_gen_jac.hpp: generateSparseJacobianForRevSource (151-420)", "include/cppad/cg/model/model_c_source_gen_hes.hpp: generateSparseHessianSourceFromRev2 (226-470)", "include/cppad/cg/model/model_c_source_gen_impl.hpp: determineOrderByCol, determineOrderByRow (585-643)"]}
{"id": "C46", "title": "Directional products", "statement": "The generated forward_one, reverse_one and reverse_two compute the product of the Jacobian with a direction, of weights with the Jacobian and of the Hessian of the weighted sum with a direction, and change nothing else; the methods ForwardOne, ReverseOne and ReverseTwo with the indexes of a sparse direction give the same products.", "quantifier": "all requested elements outside of which the derivatives are zero, all inputs, directions and weights", "why_tests_cant": "rows and columns without elements and directions with zeros take different paths; the buffers are sized by the sparsity", "anchors": ["include/cppad/cg/model/model_c_source_gen_for1.hpp: generateForwardOneSources", "include/cppad/cg/model/model_c_source_gen_rev1.hpp: generateReverseOneSources", "include/cppad/cg/model/model_c_source_gen_rev2.hpp: generateReverseTwoSources", "include/cppad/cg/model/functor_generic_model.hpp: ForwardOne, ReverseOne, ReverseTwo (395-650)"]}
{"id": "C47", "title": "Generated sparsity tables", "statement": "For every position, also outside of the tables, the generated sparsity functions of the directional products return the number and the indexes of the requested elements of that position in the requested order, and zero and null if there are none; the sparsity function of the Hessians of the equations returns for each equation its rows and columns; all arrays named in the tables are declared.", "quantifier": "all lists of requested elements, all patterns, all positions", "why_tests_cant": "gaps between positions and trailing empty rows change the tables; each pattern is compiled into other text", "anchors": ["include/cppad/cg/model/model_c_source_gen_impl.hpp: generateSparsity1DSource2 (498-560), generateSparsity2DSource2 (415-496)"]}
{"id": "C48", "title": "Sparsity patterns of the Hessians of single equations", "statement": "The equations are grouped into colors such that no two equations of a color use a common considered variable, and the Hessian patterns retrieved for each equation from the pattern of the sum over its color are exactly the patterns of that equation: all their elements in order, or those of the elements given by the user, in the order given, which are in the pattern.", "quantifier": "all Jacobian and Hessian patterns, all lists of elements given by the user", "why_tests_cant": "wrong grouping only shows for particular overlaps of the variables of equations; the number of patterns is exponential", "anchors": ["include/cppad/cg/model/model_c_source_gen_impl.hpp: colorByRow (256-311)", "include/cppad/cg/model/model_c_source_gen_hes.hpp: determineHessianSparsity (544-660)"]}
{"id": "C49", "title": "Use of symmetry in generated Hessians", "statement": "The directly generated sparse Hessian gives every requested element the second derivative, where one of two symmetric elements is copied from the other and where CppAD's pattern may contain only one of the two; only requests with a repeated element are rejected. The dense Hessian, whose lower half is copied from the upper half, is the Hessian.", "quantifier": "all symmetric Hessians, all patterns, all lists of requested elements", "why_tests_cant": "which elements are copied depends on the order and the symmetry of the request and of the pattern", "anchors": ["include/cppad/cg/model/model_c_source_gen_hes.hpp: generateSparseHessianSourceDirectly (93-224), generateHessianSource (20-76), determineSecondOrderElements4Eval (517-541)"]}
{"id": "C50", "title": "Recorded calls of atomic functions", "statement": "The Taylor coefficients and partial derivatives recorded for a call of an atomic function have, when the generated function runs, the values of the function, of the product of its Jacobian with the direction, of the weights with its Jacobian and of the derivatives of that product with respect to argument and direction, whether the called function is an atomic function of the user or a compiled model.", "quantifier": "all functions with their sparsity, all arguments, directions and weights, each of them a constant or a variable, all inputs of the generated function", "why_tests_cant": "which arrays are passed and which results are dropped depends on what is constant and on the sparsity; wrong partials only show in particular nestings", "anchors": ["include/cppad/cg/abstract_atomic_fun.hpp: forward, reverse (95-396)", "include/cppad/cg/lang/c/language_c.hpp: pushAtomicForwardOp, pushAtomicReverseOp (1791-1880)", "include/cppad/cg/model/atomic_external_function_wrapper.hpp", "include/cppad/cg/model/generic_model_external_function_wrapper.hpp"]}
{"id": "C51", "title": "Sparsity functions of atomic functions", "statement": "The sparsity functions of an atomic function made from a compiled model or from a recorded function return exactly the products of the Jacobian pattern with the given pattern and, for second derivatives, the union of the product with the selected Hessians and of the products with the Jacobian, and the selected arguments; patterns chosen by the user replace the detected ones where they are given, and patterns kept from an earlier call are the right ones.", "quantifier": "all patterns, all sequences of calls of the sparsity functions and of changes of the chosen elements", "why_tests_cant": "a superfluous or missing element only shows for particular patterns and orders of calls", "anchors": ["include/cppad/cg/model/atomic_generic_model.hpp: for_sparse_jac, rev_sparse_jac, rev_sparse_hes (92-226)", "include/cppad/cg/atomic_fun_bridge.hpp: for_sparse_jac, rev_sparse_jac, rev_sparse_hes", "include/cppad/cg/custom_position.hpp"]}
{"id": "C52", "title": "Memory shared with called atomic functions", "statement": "The results a generated function stores for the methods ForwardOne, ReverseOne and ReverseTwo with a sparse direction are the ones read afterwards, also if the generated function calls atomic functions.", "quantifier": "all sequences of assignments, results and calls, all numbers of results of the called functions, all capacities of the vectors", "why_tests_cant": "depends on the order in which results are stored and calls are made, and on the memory the vectors happen to have", "anchors": ["include/cppad/cg/model/functor_generic_model.hpp: ForwardOne, ReverseOne, ReverseTwo (466-641)", "include/cppad/cg/model/atomic_external_function_wrapper.hpp (32-95)"]}
{"id": "C53", "title": "Groups of equations with the same pattern", "statement": "The search for patterns puts two candidates into the same group exactly if their expressions have the same operations with the same information and equal constants in the same places, with independents at the same places; every such class with at least two members is found once, and its first member is the reference.", "quantifier": "all graphs of operations (shared operations, aliases), all dependents, all sets of candidates", "why_tests_cant": "nodes are coloured and comparisons of coloured nodes are skipped, so errors depend on which operations are shared and on earlier comparisons", "anchors": ["include/cppad/cg/patterns/equation_pattern.hpp: testAdd, comparePath, saveIndependent (106-392)", "include/cppad/cg/patterns/dependent_pattern_matcher.hpp: findRelatedVariables (786-843)"]}
{"id": "C54", "title": "Iterations of a loop compute their equations", "statement": "The iteration of a dependent of a pattern, i.e. the expression of the reference with the independents of the iteration at the positions with an index and with operations without index computed before the loop, has the value of the dependent.", "quantifier": "all graphs of operations, all patterns found, all dependents, all values of the independents and interpretations of the operations", "why_tests_cant": "needs expressions which share operations in different ways, and values for which the difference shows", "anchors": ["include/cppad/cg/patterns/equation_pattern.hpp: saveIndependent, detectNonIndexedIndependents, findIndexedPath", "include/cppad/cg/patterns/loop.hpp: makeGraphClones, createIndependentClone (940-1014)"]}
{"id": "C55", "title": "Splitting of the code into several functions", "statement": "The functions into which the code is split when a number of assignments is reached do together, called one after another, what the single function does: no code is lost or outside of a function, no block is cut in two, each function has at most the given number of plain assignments, is called with its parameters, and reads only variables and structs which have a value.", "quantifier": "all limits, all sequences of operations with loops, conditional blocks and atomic function calls, all interpretations of the statements, all memory states", "why_tests_cant": "the default limit is 20000 assignments, so tests with small models never split; errors depend on what happens to be in which function", "anchors": ["include/cppad/cg/lang/c/language_c.hpp: generateSourceCode (663-960), saveLocalFunction (1048-1089)"]}
{"id": "C56", "title": "Structs given to atomic functions", "statement": "Within a function every call of an atomic function is given the arrays of its operation: the members of the Array structs, which are only assigned when they differ from what was last assigned, have the data, size, and nonzeros of the arrays when the call is made, also in loops and conditional blocks; all structs used are declared with enough elements. Structs are used for one kind of array and arrays belong to the block of the call, as the generator ensures.", "quantifier": "all code with loops and conditional blocks, any number of iterations, all sequences of calls in forward and reverse mode", "why_tests_cant": "which members are assigned depends on all earlier calls; a skipped assignment only matters for particular sequences of calls and iterations", "anchors": ["include/cppad/cg/lang/c/language_c_arrays.hpp: printArrayStructInit (335-436)", "include/cppad/cg/lang/c/language_c.hpp: pushAtomicForwardOp, pushAtomicReverseOp (1791-1879), generateArrayContainersDeclaration (389-415)", "include/cppad/cg/code_handler_impl.hpp: 1473-1505"]}
{"id": "C57", "title": "Sparse Jacobian and values of models with loops", "statement": "The function generated for the sparse Jacobian of a model with loops gives at the place of each requested element the derivative by the chain rule, through the indexed variables, the non-indexed variables, and the temporaries computed before the loop, at the iteration that computes the equation, and changes no other place; the function for the values gives each equation the value of its iteration. A request is refused exactly when it repeats an element of a loop equation.", "quantifier": "all sets of loops with any number of iterations, missing iterations, any index patterns, all sparsity patterns covering the derivatives, all requests, any commutative ring of values", "why_tests_cant": "the generated loop body depends on which iterations need which element: shared if-else nodes, conditions, iteration counts and index patterns combine in ways that tests only sample", "anchors": ["include/cppad/cg/model/patterns/model_c_source_gen_loops_jac.hpp: 37-519", "include/cppad/cg/model/patterns/model_c_source_gen_loops.hpp: createLoopEnd (180-215), findExistingIfElse (350-376), createConditionalContribution (455-630), createLoopResult (648-720)", "include/cppad/cg/model/patterns/model_c_source_gen_loops_for0.hpp: 25-131"]}
{"id": "C58", "title": "Conditional contributions in generated loops", "statement": "Whatever contributions are added to a generated loop, each with a value and, for each iteration, a location of the result and how often the value is added there, code is generated, running the loop reaches a value for every result in every iteration, and each element of the result grows by the sum over all iterations and contributions of the values, as often as given, whether the contribution is used in all iterations, in some with a condition, or with different numbers of additions in different iterations.", "quantifier": "all numbers of iterations, all sequences of contributions (which share if-else nodes), locations and numbers of additions, any commutative ring of values", "why_tests_cant": "if-else nodes are shared between contributions with the same iterations and counts, and index patterns are chosen by the places: the combinations are unbounded", "anchors": ["include/cppad/cg/model/patterns/model_c_source_gen_loops_hess.hpp: createHessianContribution (988-1094)", "include/cppad/cg/model/patterns/model_c_source_gen_loops.hpp: findExistingIfElse, createConditionalContribution (350-630)"]}
{"id": "C59", "title": "Sparse Hessian of models with loops", "statement": "The function generated for the sparse Hessian of a model with loops gives at the place of each requested element the second derivative of the weighted sum of all equations by the chain rule, through indexed variables, non-indexed variables and temporaries, and changes no other place; elements above the diagonal whose transposed element is requested are copies. A request is refused exactly when it repeats an element.", "quantifier": "all sets of loops with any number of iterations, missing iterations, all symmetric sparsity patterns covering the derivatives, all requests, any commutative ring of values", "why_tests_cant": "each pair of variables goes through up to nine combinations of kinds of variables for each group of equations; errors show only for particular numberings of variables and sizes", "anchors": ["include/cppad/cg/model/patterns/model_c_source_gen_loops_hess.hpp: 51-1094", "include/cppad/cg/patterns/loop_free_model.hpp: 173-400", "include/cppad/cg/patterns/iter_equation_group.hpp: 84-170", "include/cppad/cg/model/model_c_source_gen_hes.hpp: 105-156"]}
{"id": "C60", "title": "Values are computed in the iterations which use them", "statement": "In the code of a model with loops and conditionals on the iteration, whenever an operation is run all values it uses have been computed, in the same iteration of the loop or outside of the loop, wherever the operations are placed in loops and branches.", "quantifier": "all operation graphs with any number of loops, which are not nested, and conditionals in them, any uses of values in several branches, all iterations", "why_tests_cant": "the scope of a value is moved with every new use, moves those of its arguments, and may turn it into a conditional temporary: results depend on the order of the uses and the shape of the graph", "anchors": ["include/cppad/cg/code_handler_impl.hpp: markCodeBlockUsed, handleTemporaryVarInDiffScopes, replaceWithConditionalTempVar, updateTemporaryVarInDiffScopes, restoreTemporaryVar, updateVarScopeUsage, findFirstDifferentScope (737-1270)", "include/cppad/cg/range.hpp: ifBranchIterationRanges (152-206)"]}
{"id": "C61", "title": "Scopes nest", "statement": "Each scope made for the loops and conditionals of a model begins with a node which is placed in it and ends with the node given in its path, and a loop or conditional ends in the scope around it.", "quantifier": "all operation graphs with any number of loops, which are not nested, and conditionals in them", "why_tests_cant": "scopes are made in the order of a depth-first visit and by conditional temporaries added on the way", "anchors": ["include/cppad/cg/code_handler_impl.hpp: markCodeBlockUsed, replaceWithConditionalTempVar (737-1065)"]}
{"id": "C62", "title": "Values which do not change in a loop are computed before it", "statement": "The values added to the first node of a loop, to be computed before it, do not depend on the index of the loop and are values of nodes of the loop. Every value without dependence on the index which an operation of the loop depending on it uses is among them, unless the operation is an element of an array or a call of an atomic function, or the value is an independent variable, a declaration or a constant; for an assignment to a temporary the value assigned is among them. No assignment to a temporary is computed before the loop. All operations compute the same values as before, and the search ends without an access outside of its tables.", "quantifier": "all operation graphs without cycles in which assignments to temporaries are used only by operations depending on the index, all loops", "why_tests_cant": "results depend on the shape of the graph and on which values are shared; a value wrongly moved is wrong only in some iterations, one not moved is wrong only if it is used outside too", "anchors": ["include/cppad/cg/model/patterns/model_c_source_gen_loops.hpp: moveNonIndexedOutsideLoop, LoopNonIndexedLocator (240-347)", "include/cppad/cg/code_handler_vector.hpp: 99-138"]}
{"id": "C63", "title": "Elements of sparse Jacobians and Hessians evaluated together by colors are right", "statement": "sparseForJacHessian stores in jac[k] the element of the Jacobian in row jac_row[k] and column jac_col[k], and in hes[h][k] the element of the Hessian of the h-th weighted sum in row hes_row[k] and column hes_col[k], for every k of the request, if the elements requested are in the sparsity patterns and the patterns contain all elements which are not zero. Elements after those of the request and the sizes of the vectors stay the same, no array is accessed outside of its bounds, and no more than one forward and one reverse sweep are counted for each variable. A later call with the work object returned gives the same results as one with an empty work object.", "quantifier": "all numbers of equations and variables, patterns, requests (in any order, with repeated elements), weights, and all orders in which equal indices are sorted", "why_tests_cant": "two columns sharing a color wrongly give wrong values only for some patterns and requests; tests sample few of both", "anchors": ["include/cppad/cg/extra/sparse_forjac_hessian.hpp: 28-681"]}
{"id": "C64", "title": "Jacobian and Hessians of the model of a loop are the same with and without coloring", "statement": "generateLoopForJacHes stores in its maps the elements of the Jacobian and of all Hessians which have to be evaluated, leaves all other elements of the maps as they were and resizes the vectors of maps, if the elements are in the sparsity patterns and the patterns contain all elements which are not zero. Both ways to do so, by colors and one variable at a time (for models with atomic functions), give the same maps, including which rows of the Hessians exist. Only the one by colors can be used if there are no independent variables, in which case the tape has one.", "quantifier": "all numbers of equations, variables and weights, all patterns and parts of them which are evaluated, all maps there before", "why_tests_cant": "the variant used depends on whether or not atomic functions are in the model, tests compare results of few models", "anchors": ["include/cppad/cg/model/patterns/model_c_source_gen_loops_hess.hpp: 1096-1226", "include/cppad/cg/extra/sparse_forjac_hessian.hpp: 521-681"]}
{"id": "C65", "title": "In code with loops and conditionals every value is computed once, after the values it depends on and inside its scope", "statement": "The order of evaluation made by checkVariableCreation, addToEvaluationQueue and addScopeToVarOrder contains every node at most once, only nodes needed for the dependents, and all nodes which begin or end a scope. A node is after all nodes its value depends on. The nodes between the first and the last node of a scope are exactly those of this scope and of scopes in it. The vector of the final order has the right size (no element is written after its end or stays null). All operations which get their own variable are in it.", "quantifier": "all operation graphs with loops and conditionals, all nestings of scopes, all decisions on which operations get a variable", "why_tests_cant": "the order depends on the place of the first use of each value and the way scopes are entered from their end node; repeated or misplaced operations need several scopes sharing values", "anchors": ["include/cppad/cg/code_handler_impl.hpp: 345-397", "include/cppad/cg/code_handler_impl.hpp: 1225-1246", "include/cppad/cg/code_handler_impl.hpp: 1444-1633"]}
{"id": "C66", "title": "Joining adjoining conditionals with the same condition keeps what the code does", "statement": "optimizeIfs joins two conditionals without other branches and with the same condition if only declarations are between them. In every iteration the code after the joining runs the same operations in the same order as before; every operation is in the code once and none is lost, only beginnings and ends of conditionals disappear; braces match; declarations stay before everything they were before. The joining ends (the recursions over the moved operations visit a node once) and no vector is accessed outside of its bounds, also not the vector of the final order.", "quantifier": "all operation graphs in which every value is in a scope around its uses, with any nesting of scopes and any number of conditionals; all iterations; all decisions on which operations get a variable", "why_tests_cant": "several conditionals can be joined one after the other, inside of each other and with temporaries which go from one to the next; tests have few such loops", "anchors": ["include/cppad/cg/code_handler_impl.hpp: 374-397", "include/cppad/cg/code_handler_impl.hpp: 1270-1424"]}
{"id": "C67", "title": "The search for atomic functions finds exactly the calls which are needed", "statement": "findAtomicsUsage ends and reports exactly the atomic functions evaluated for some dependent variable, with exactly the pairs of numbers of arguments and results used in these evaluations and exactly the independent variables on which an evaluation depends, directly or through other atomic functions. Looking up the variables of a node visited before never fails.", "quantifier": "all operation graphs with any number of calls of any number of atomic functions, any sharing of subexpressions, all numbers of dependents, including constant ones", "why_tests_cant": "tests look at few models; a wrong set of variables only shows in models with nested calls and shared operations", "anchors": ["include/cppad/cg/atomic_dependency_locator.hpp: 62-144", "include/cppad/cg/model/model_c_source_gen_impl.hpp: 238-254"]}
{"id": "C68", "title": "Compiled libraries, models and atomic functions made from models can be used and deleted in any order", "statement": "No object is used after it is gone: libraries tell their models when they are closed, models tell their library when they are deleted. The evaluation of a model (directly or as an atomic function) gives the values of the library it came from as long as this library exists and raises an exception afterwards. Every library file is released exactly once, when its library object is deleted, and its clean up function is called before.", "quantifier": "all sequences of opening libraries, getting, evaluating, moving and deleting models and libraries and using models as atomic functions", "why_tests_cant": "tests delete objects in one order, in which wrong pointers are never followed", "anchors": ["include/cppad/cg/model/dynamic_lib/linux/linux_dynamiclib.hpp: 41-121", "include/cppad/cg/model/dynamic_lib/linux/linux_dynamiclib_model.hpp: 40-78", "include/cppad/cg/model/functor_generic_model.hpp: 104-138", "include/cppad/cg/model/functor_generic_model.hpp: 1053-1073", "include/cppad/cg/model/generic_model.hpp: 40-48"]}
{"id": "C69", "title": "Calls of atomic functions in compiled code reach the functions with the recorded names", "statement": "The positions by which the generated functions of a model call atomic functions and the names the library returns fit together over all source generations of the model: a compiled model accepts an external function iff its name is used, evaluates iff a function was given for every used name (otherwise an exception), and then every call reaches the function last given under the name of the recorded atomic function, with the recorded orders. The arrays used by calls are declared with sufficient lengths. Wrappers are never used after being deleted and all are deleted. Generation only succeeds if ids and names of the functions are unambiguous, otherwise there is an exception.", "quantifier": "all sequences of source generations with any calls of any functions whose names have no quotes, backslashes or line breaks; all sequences of giving functions and evaluating", "why_tests_cant": "tests use one or two atomic functions in the same order in all generated functions", "anchors": ["include/cppad/cg/code_handler_impl.hpp: 286-310", "include/cppad/cg/code_handler_impl.hpp: 416-430", "include/cppad/cg/code_handler_impl.hpp: 1473-1505", "include/cppad/cg/lang/c/language_c.hpp: 1792-1880", "include/cppad/cg/model/model_c_source_gen_impl.hpp: 217-236", "include/cppad/cg/model/functor_generic_model.hpp: 993-1008", "include/cppad/cg/model/functor_generic_model.hpp: 1076-1117"]}
{"id": "C70", "title": "Evaluation of compiled models through their interface", "statement": "The functions by which a compiled model is evaluated (values, Jacobian, Hessian, Hessian of one equation, all forms of sparse Jacobian and Hessian, with independents in one or several arrays) give the values of the compiled functions for the arguments given, in their places: dense matrices made from sparse ones have the elements at their rows and columns and zeros elsewhere, all forms of a sparsity pattern describe the same elements, dependents are marked as variables iff they depend on a variable. Wrong sizes, missing functions and closed libraries are reported by the error handler and no array is changed; nothing else is changed; nothing is read or written outside of the arrays; and earlier calls, also with errors and with arrays which no longer exist, have no influence.", "quantifier": "all libraries with consistent functions and sparsity patterns, all values, arrays and sequences of calls", "why_tests_cant": "tests call each function with the right sizes and fresh arrays", "anchors": ["include/cppad/cg/model/functor_generic_model.hpp: 159-445", "include/cppad/cg/model/functor_generic_model.hpp: 640-890", "include/cppad/cg/model/functor_generic_model.hpp: 1011-1051", "include/cppad/cg/model/generic_model.hpp: 383-395"]}
{"id": "C71", "title": "Displayed formulas mean what was recorded", "statement": "The LaTeX and MathML text printed for an expression, typeset (braces and mrow elements are not visible) and read with the usual conventions of displayed formulas (products without a sign, a sign belongs to the product which follows, a raised expression belongs to the one number, name, function value or parenthesis before it, numbers beside each other are not a product), has exactly one reading, the value of the recorded expression: parentheses and signs of multiplication are placed wherever they are needed, the names of functions are the usual ones.", "quantifier": "all nested expressions over + - * / unary minus, powers, functions, aliases, variables and constants printed with or without exponents, in a commutative ring with any quotient, powers and functions; all settings", "why_tests_cant": "the documents are only looked at; a missing parenthesis depends on pairs of nested operations, signs of constants and aliases at any depth", "anchors": ["include/cppad/cg/lang/latex/language_latex.hpp: 1199-1232, 1384-1657, 2069-2090", "include/cppad/cg/lang/mathml/language_mathml.hpp: 1355-1633, 2054-2081"]}
{"id": "C72", "title": "Relations dropped for dummy derivatives follow from the equations", "statement": "The selection of dummy derivatives ends without reading columns which do not exist. If it succeeds, derivatives are selected, none twice, exactly as many as there are differentiated equations, in the output information exactly the relations between dummy derivatives and their variables are dropped, and at the values for which the Jacobian was determined every dropped relation follows from the equations and the other relations. It succeeds if a regular selection is possible in every stage; variables to be avoided are selected only if no regular selection of the stage is without them; with the option to avoid converting algebraic variables, derivatives of algebraic variables are selected first.", "quantifier": "all systems with consistent derivatives of variables and equations, over any field, all Jacobians, normalisation constants, orders, options, and all QR decompositions with column pivoting", "why_tests_cant": "a wrong selection gives a system which looks right and has the right size, but drifts or is singular; it depends on numerical values and on several stages", "anchors": ["include/cppad/cg/dae_index_reduction/dummy_deriv.hpp: 299-405, 1312-1380, 1382-1567"]}
{"id": "C73", "title": "Information about the reduced system stays right when variables and equations are moved or removed", "statement": "After reordering, after the removal of variables and equations, and in the semi-explicit form, the information names the same variables as derivatives of the same variables, and assigns the same variables to the same equations (in the semi-explicit form: the variable instead of its derivative, and the equation is explicit then); exactly the chosen variables and equations are missing. Reordered variables are sorted by class, within a class those with derivatives come first, otherwise the order is kept; differential equations come first. Each equation of the new model is the recorded function of the equation with the same identifier, of the values at the new positions of its variables.", "quantifier": "all systems with unique identifiers and existing positions, without cycles of derivatives, all sorts which leave no inversions, all selections of removed variables and equations", "why_tests_cant": "a shifted position names another variable of the same model; only a system with several orders of differentiation and removed variables in certain places shows it", "anchors": ["include/cppad/cg/dae_index_reduction/dummy_deriv.hpp: 524-580, 613-708, 1116-1305", "include/cppad/cg/dae_index_reduction/bipartite_graph.hpp: 1007-1021"]}
{"id": "C74", "title": "Names of variables denote the right places", "statement": "The name of an independent variable is the element of the argument in which the variable lies, at its position there, or the name given by the user; dependents and temporaries likewise, and temporaries lie in the declared array. Different variables have different names. Variables said to be consecutive are neighbours in one argument without own names, so the loop which copies a run of them reads each one; neighbours are recognised. Variables are said to be in the same array only if they are.", "quantifier": "all generators of C and LaTeX names (default, with own names, with multipliers for Hessians, with both arguments for second order reverse mode), all identifiers from 1, all proper names", "why_tests_cant": "two variables with one name, or a run copied from the wrong argument, shows only for certain sizes and orders of the arguments", "anchors": ["include/cppad/cg/lang/c/lang_c_default_var_name_gen.hpp", "include/cppad/cg/lang/c/lang_c_custom_var_name_gen.hpp", "include/cppad/cg/lang/c/lang_c_default_hessian_var_name_gen.hpp", "include/cppad/cg/lang/c/lang_c_default_reverse2_var_name_gen.hpp", "include/cppad/cg/lang/latex/lang_latex_default_var_name_gen.hpp", "include/cppad/cg/lang/latex/lang_latex_custom_var_name_gen.hpp"]}
{"id": "C75", "title": "The method of Soares and Secchi always ends, and what it accepts is assigned", "statement": "The differentiation of marked equations ends after no more rounds than there are variables and two, also for singular systems, without null pointers. If it accepts a system, the system is structurally regular, all equations (the given ones and their derivatives) are assigned to distinct variables they contain, those which are not replaced by a derivative to highest derivatives, the derivative of an equation contains exactly the derivatives of its variables, and the given equations and variables are kept. Structurally regular systems are accepted.", "quantifier": "all descriptions of systems accepted by the constructor of the graph in which no variable has two derivatives, all orders in which marked equations are differentiated", "why_tests_cant": "whether the loop ends, or a regular system is rejected, depends on the structure of the system and on the order of its equations; tests use a few systems in one order", "anchors": ["include/cppad/cg/dae_index_reduction/soares_secchi.hpp: 167-236", "include/cppad/cg/dae_index_reduction/augment_path_depth_lookahead.hpp", "include/cppad/cg/dae_index_reduction/augment_path_depth_lookahead_a.hpp", "include/cppad/cg/dae_index_reduction/bipartite_graph.hpp: 384-425"]}
{"id": "C76", "title": "Equations chosen for elimination are solved one after the other, and eliminated variables are gone from the others", "statement": "The choice of an equation for each derivative of the original system and each dummy derivative ends, without null pointers. What it records are substitutions which can be carried out one after the other: no equation and no variable is used twice, and in the end only its own equation depends on an eliminated variable. Equations without elimination keep what was recorded or get another variable for which they can be solved, no variable twice. For a semi-explicit system every derivative is solved for. A variable for which no equation can be solved is kept and causes no exception.", "quantifier": "all systems and all behaviours of the handler for which a substitution removes a variable and adds only dependencies of the equation solved, all orders of sets of pointers, all sparsities which contain the dependencies", "why_tests_cant": "which equation is tried depends on the edges left after earlier substitutions; tests contain a few small systems in which these are all solvable", "anchors": ["include/cppad/cg/dae_index_reduction/dummy_deriv.hpp: 725-1114", "include/cppad/cg/dae_index_reduction/bipartite_nodes.hpp: 143-185, 356-405", "include/cppad/cg/dae_index_reduction/augment_path_depth_lookahead.hpp"]}
{"id": "C77", "title": "The information about a system reduced by the method of Soares and Secchi describes that system", "statement": "The equations differentiated last are removed again without access to freed nodes or endless loops, whatever their order. Afterwards nothing is returned if no derivative of a given equation is left; otherwise the information describes the equations which were not removed: given variables and equations come first and unchanged, all others are derivatives of earlier ones, links between variables and derivatives go both ways, orders and original antiderivatives are right, there is a variable for everything the equations contain and no other is added, and each equation is assigned to a variable it contains, no variable twice.", "quantifier": "all systems the method accepts, all orders of sets of pointers", "why_tests_cant": "removing a variable moves the indexes of all others; tests reduce one or two systems in which all given derivatives occur in equations", "anchors": ["include/cppad/cg/dae_index_reduction/soares_secchi.hpp: 115-147", "include/cppad/cg/dae_index_reduction/bipartite_graph.hpp: 95-110, 427-480, 517-596, 1024-1034"]}
{"id": "C78", "title": "The equations of the reduced system are the given ones and their time derivatives", "statement": "For right information about the reduced system, the new tape is made without exceptions or access out of range, with one independent variable for each variable of the information (the time which is added for the differentiation is taken out again). The given equations are unchanged. Every other equation is, wherever the variables follow their derivatives, the derivative with respect to time of the equation it is said to be the derivative of, so the reduced system has the same solutions. No call of the auxiliary function time_var is left.", "quantifier": "all systems with right information, all equations built of sums, products and functions of one variable, all trajectories of the variables", "why_tests_cant": "the derivatives are symbolic and repeated, through an atomic function with special derivatives; tests print or solve one or two reduced systems", "anchors": ["include/cppad/cg/dae_index_reduction/bipartite_graph.hpp: 526-550, 598-817", "include/cppad/cg/dae_index_reduction/time_diff.hpp: 24-176"]}
{"id": "C79", "title": "Forward mode of models with loops gives the product of the Jacobian with the direction", "statement": "For a model with loops, sparse_forward_one for a column gives, on an array of zeros, the derivatives of the requested equations with respect to that variable, by the chain rule over the tapes of the loops and the temporaries, times the factor; the grouping of the tape variables and iterations into loops counts every contribution once. forward_one gives the product of the requested elements with the direction, whatever was in the allocated memory, and so does ForwardOne of the library with the non-zero elements of the direction.", "quantifier": "all models with loops whose tables fit together, all sets of requested elements given by column, all directions, all contents of the memory", "why_tests_cant": "the loops of a column depend on which variables share iterations and on the iterations in which equations exist; tests have a few models with one direction each and start from arrays of zeros", "anchors": ["include/cppad/cg/model/patterns/model_c_source_gen_loops_for1.hpp: 25-419, 527-844", "include/cppad/cg/model/patterns/model_c_source_gen_loops.hpp: 1164-1252", "include/cppad/cg/model/model_c_source_gen_for1.hpp: 219-321", "include/cppad/cg/model/functor_generic_model.hpp: 466-502"]}
{"id": "C80", "title": "Reverse mode of models with loops gives the product of the weights with the Jacobian", "statement": "For a model with loops, sparse_reverse_one for an equation gives, on an array of zeros, the derivatives of the equation with respect to the requested variables, by the chain rule over the tape of its loop and the temporaries, times the weight, whatever elements are requested; the function of an equation outside of the loops sets its elements, that of an equation in a loop adds to them. reverse_one gives the product of the weights with the requested elements, whatever was in the allocated memory, and so does ReverseOne of the library with the non-zero weights.", "quantifier": "all models with loops whose tables fit together, all sets of requested elements given by equation, all weights, all contents of the memory", "why_tests_cant": "the iteration is recovered from the number of the equation by an index pattern, which depends on where the equations of a tape equation are in the model and on the iterations in which they exist; tests have a few models and start from arrays of zeros", "anchors": ["include/cppad/cg/model/patterns/model_c_source_gen_loops_rev1.hpp: 30-440", "include/cppad/cg/model/patterns/model_c_source_gen_loops.hpp: 1164-1252", "include/cppad/cg/model/model_c_source_gen_rev1.hpp: 225-324", "include/cppad/cg/model/functor_generic_model.hpp: 532-568"]}
{"id": "C81", "title": "Reverse mode of order two of models with loops gives the product of the Hessian with the direction", "statement": "For a model with loops, sparse_reverse_two for a row of the Hessian gives, on an array of zeros, the second derivatives at the requested locations times the component of the direction: the sum over the loops, iterations, groups of equations and pairs of variables of the second derivatives at that location (as often as they are to be added), and the equations outside of the loops. The grouping of rows and iterations into functions counts each contribution once. ReverseTwo of the library gives the product with a direction given by its elements.", "quantifier": "all tables of requested elements by pair of variables and iteration which fit together, all second derivatives, all directions, all contents of the memory", "why_tests_cant": "the functions depend on which rows share contributions and iterations, on how often a pair meets the same location and on the iterations in which equations exist; the tests of loops call the functions through the sparse Hessian only, with component one, so a missing factor is not seen", "anchors": ["include/cppad/cg/model/patterns/model_c_source_gen_loops_rev2.hpp: 238-561, 565-880, 911-1230", "include/cppad/cg/model/patterns/model_c_source_gen_loops.hpp: 1164-1252", "include/cppad/cg/model/functor_generic_model.hpp: 600-640"]}
{"id": "C82", "title": "Sparse Jacobian and Hessian of models with loops put each element at its location", "statement": "The sparse Jacobian and the sparse Hessian of a model with loops which are put together from the functions of the forward or reverse modes contain, at each location of the user, the requested element: the sum of what the function for the equations outside of the loops and the functions of the groups of the loops compute for it. Calls with the same number of rows (or columns) are in one loop, rows are passed directly or through a temporary array, with conditions on the row where the number of elements differs. The result does not depend on what the result, the temporary array and the index variable contained before, and no access is out of bounds.", "quantifier": "all requested elements in all orders, all groups of functions, all values", "why_tests_cant": "which rows are passed directly depends on the order of the request, the conditions and index patterns on the numbers of rows and elements of each group; the tests of loops request the elements as sets, that is in the order of the rows", "anchors": ["include/cppad/cg/model/patterns/model_c_source_gen_loops.hpp: 777-887, 895-1148", "include/cppad/cg/model/patterns/model_c_source_gen_loops_jac_fr1.hpp: 21-67", "include/cppad/cg/model/patterns/model_c_source_gen_loops_hess_r2.hpp: 21-62", "include/cppad/cg/model/model_c_source_gen_hes.hpp: 227-290", "include/cppad/cg/model/model_c_source_gen_jac.hpp: 151-237"]}
{"id": "C83", "title": "Indexed dependent variables printed as loops get the values of single assignments", "statement": "Where the C source assigns elements of an array to indexed dependent variables one after the other, at least three of them may be printed as one loop over the elements of the array. The printed statements assign, or add, to each dependent variable the same values as one assignment per variable, at every iteration of the loop of the model around them. The position returned is that of the last indexed dependent variable before another operation, so none is left out or printed twice.", "quantifier": "all orders of operations, all index patterns, all iterations, all assignment operators, all values", "why_tests_cant": "the run which becomes a loop depends on the order of the operations, the positions in the array, the kinds of assignment and the offsets between index patterns", "anchors": ["include/cppad/cg/lang/c/language_c_loops.hpp: 30-173", "include/cppad/cg/lang/c/language_c.hpp: 843-847, 1015-1034", "include/cppad/cg/lang/c/language_c_index_patterns.hpp: 319-438"]}
{"id": "C84", "title": "Evaluating atomic functions gives their values, each call made once", "statement": "If a recorded model with arrays and calls of atomic functions is evaluated with AD objects, the dependent variables have the values of the recorded operations and functions, whatever the evaluator saved in evaluations before, also if they failed, and in whatever order operands are evaluated. Each call is made at most once in an evaluation, with the values of its arguments, and the number of evaluated atomic functions is the number of calls made. A request for just one element of the results (recorded as zeros) of a call of an unknown function, of another order or in reverse mode raises an exception, after which the evaluator can be used again.", "quantifier": "all acyclic graphs of operations, arrays and calls, all values, functions, states of the evaluator and orders of operands", "why_tests_cant": "a result array is changed in place by the call after it was saved, so a value depends on when the array, the call and each element are evaluated", "anchors": ["include/cppad/cg/evaluator/evaluator.hpp: 137-304, 511-525", "include/cppad/cg/evaluator/evaluator_ad.hpp: 83-175"]}
{"id": "C85", "title": "Known values of the results of atomic functions are those of the functions", "statement": "If a recorded model is evaluated with CG objects, the value known for an element of the results of an atomic function is the value of the function at the known values of its arguments, and it is known exactly if those are known and the function is available, in each evaluation, for all orders of forward mode.", "quantifier": "all calls, known and unknown arguments, functions, sequences of requested elements, evaluations before", "why_tests_cant": "the values are kept in the evaluator between elements and evaluations, and calls of higher orders and functions which fail take the same path", "anchors": ["include/cppad/cg/evaluator/evaluator_cg.hpp: 98-107, 152-260, 330-346", "include/cppad/cg/evaluator/evaluator.hpp: 137-186, 197-209", "include/cppad/cg/abstract_atomic_fun.hpp: 115-126, 206-210, 546-559"]}
{"id": "C86", "title": "The log and the listeners of jobs show how jobs are nested", "statement": "For jobs started and finished one inside the other, the job timer tells listeners the start and the end of each job, with the jobs around it and its elapsed time, and the log has one line for a job with no jobs inside and otherwise a line for its start, the lines of the jobs inside, indented by two spaces, and a line for its end. Afterwards the same jobs are running as before. The generation of sources and the creation of libraries start and finish their jobs like this.", "quantifier": "all nested jobs, names, types, prefixes, times and line widths, with and without a log", "why_tests_cant": "jobs can be nested in any way, and the new line after the start of a job depends on whether another job was started inside it before", "anchors": ["include/cppad/cg/job_timer.hpp: 183-332", "include/cppad/cg/model/model_c_source_gen_for1.hpp: 43-51, 73-129", "include/cppad/cg/model/model_c_source_gen_rev1.hpp: 43-51, 77-134", "include/cppad/cg/model/dynamic_lib/dynamic_library_processor.hpp: 130-162", "include/cppad/cg/model/compiler/abstract_c_compiler.hpp: 192-242"]}
{"id": "C87", "title": "A dynamic library has the objects of all sources, and no temporary files are left", "statement": "If all sources of the models, of the library and of the user compile and the linker accepts their objects, the dynamic library is created from exactly the objects of all these sources, and if it is created, all of them compiled. Whether this succeeds, a source does not compile or the linker fails, no object files are left, the compiler has none listed, and no file but the library is changed; without a library the file with its name is the one of before.", "quantifier": "all groups of sources and names, compilers, linkers, files", "why_tests_cant": "any source of any model can fail, with or without output, and the names of sources depend on the names of the models", "anchors": ["include/cppad/cg/model/dynamic_lib/dynamic_library_processor.hpp: 125-168", "include/cppad/cg/model/compiler/abstract_c_compiler.hpp: 146-264", "include/cppad/cg/model/compiler/gcc_compiler.hpp: 60-108", "include/cppad/cg/model/system/linux_system.hpp: 118-144"]}
{"id": "C88", "title": "A static library has exactly the objects of the sources", "statement": "If all sources compile and no two have the same name, the members of the static library are exactly the objects of the sources, each under the name of its source; if it is created, all sources compiled. If a source does not compile, the library is the one of before and no object files are listed by the compiler.", "quantifier": "all groups of sources, compilers, orders of files, libraries of before", "why_tests_cant": "the members depend on the library of before, and any source can fail", "anchors": ["include/cppad/cg/model/dynamic_lib/dynamic_library_processor.hpp: 181-219", "include/cppad/cg/model/dynamic_lib/ar_archiver.hpp: 54-77", "include/cppad/cg/model/compiler/abstract_c_compiler.hpp: 146-264"]}
{"id": "C89", "title": "A library has the thread pool which its models call", "statement": "Whatever is done with a library and its models, at each creation the library lists exactly the models compiled with it, its functions to access a pool are for the pool compiled with it, and it shuts the pool down if and only if this is the one of pthreads. Each pool called by the sources of a model is the one compiled with the library; it is called only if the library asks for it and the model permits it, and it is called if so and the functions needed for it are there.", "quantifier": "all settings of models and libraries, all sequences of changes and creations", "why_tests_cant": "sources are kept and used again, so the result depends on the order of all changes and creations before", "anchors": ["include/cppad/cg/model/model_library_c_source_gen_impl.hpp: 105-361", "include/cppad/cg/model/model_library_c_source_gen.hpp: 80-159", "include/cppad/cg/model/model_c_source_gen_impl.hpp: 91-158", "include/cppad/cg/model/model_c_source_gen.hpp: 402-429"]}
{"id": "C90", "title": "Saved sources are complete", "statement": "If saving the sources of a library ends without exception, each source of its models, of the library and of the user is in the folder under its name and with its text, and no other file is changed. If the folder cannot be created there is an exception and no file is changed.", "quantifier": "all sources, folders, files of before, all sets of files which can be opened", "why_tests_cant": "it is about all names, files of before and failures of the file system", "anchors": ["include/cppad/cg/model/save_files_model_library_processor.hpp: 38-71", "include/cppad/cg/model/system/linux_system.hpp: 108-144"]}
{"id": "C91", "title": "Saving sources to disk first does not change the library", "statement": "With sources saved to disk first, a dynamic library is created if and only if it is created without saving, from the objects of the same sources, and all files but the source files are the same. If it is created, each source file has the text of its source. If a source cannot be saved there is an exception.", "quantifier": "all groups of sources, compilers, folders, files of before, all sets of files which can be opened", "why_tests_cant": "it compares two modes for all sources and all files of before", "anchors": ["include/cppad/cg/model/compiler/abstract_c_compiler.hpp: 146-244", "include/cppad/cg/model/compiler/gcc_compiler.hpp: 110-126"]}
