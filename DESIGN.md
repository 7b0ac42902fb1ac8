# Design of the CppADCodeGen verification

The repository under study is CppADCodeGen (C++ templates and some C). Nothing is compiled or run: the
model is written by reading `/repo`, and every Lean definition of a model cites the file and lines it models.

## Trusted base

* The Lean 4 kernel. The theorems use at most the three standard axioms `propext`, `Classical.choice` and
  `Quot.sound`; the list per theorem is at the end of this file. There are no own axioms, no `sorry`, no
  `native_decide` and no `bv_decide`.
* The reading of the C++ source. The theorems are about the Lean model; the citations are the only tie
  between the two. No test ties the model to compiled code.
* Mathlib is used as a library (proved from the same axioms).
* The specifications (`Spec.lean` of each area, and the statements in `Props*.lean`).

Not modelled anywhere: compilers, floating point rounding as such (values live in an arbitrary type with an
arbitrary interpretation of the operations, or satisfy the laws stated in the theorem), text layout
(indentation, comments), timing, dynamic libraries, LLVM, LaTeX/MathML/dot output, CppAD itself.

## Conventions

* Per area: `Verif/<Area>/Spec.lean` (independent specification), `Model.lean` (definitions with citations),
  `Lemmas*.lean`, `Props*.lean` (property theorems and non-vacuity examples).
* Undefined behaviour (null dereference, out of bounds access, endless recursion) is a distinct outcome
  (`none`, `.ub`), as are exceptions; a default value never stands for them. `assert`s are taken to be
  compiled out unless a section says otherwise.
* Where the code violates a property the negation is proved on a concrete witness (`…_counterexample`) and a
  theorem (often `…_partial`) states what remains true. Status `proved` in `MANIFEST.json` means that the
  English statement is covered with no more than representation invariants as hypotheses; everything else is
  `partial`, with the missing part in the note.
* `size_t` is `Nat` unless wrap-around matters (`BitVec 64` there). Explicit stacks and unbounded loops are
  recursion with a fuel argument; the theorems give a fuel which is enough or treat running out as an outcome
  of its own.
* `std::set` and `std::map` are sorted lists; `Sorted` hypotheses are the representation invariant.

## What is modelled, per area, and the simplifications

| Area | Source | Properties |
|------|--------|-----------|
| `Cg` | cg.hpp, arithmetic*.hpp, unary.hpp, math*.hpp, compare.hpp, cond_exp_op.hpp, variable.hpp, default.hpp | C01–C04 |
| `Codegen` | code_handler_impl.hpp (generateCode), operation_stack.hpp, parts of language_c.hpp, lang_c_default_var_name_gen.hpp | C05–C10, C12 |
| `Print`, `CExpr` | language_c.hpp (expressions, bodies), lang_stream_stack.hpp, language_c_double.hpp; C grammar and arithmetic | C09, C13 |
| `Arrays` | array_id_compresser.hpp, language_c_arrays.hpp, array part of code_handler_impl.hpp | C08, C11, C44 |
| `Marks` | visit ids of code_handler_impl.hpp, code_handler_vector.hpp | C39 |
| `Index` | index_pattern_impl.hpp, linear/sectioned/plane_2d/random index patterns and their printing | C14–C17, C42 |
| `Ranges` | range.hpp, index conditions of model_c_source_gen_loops.hpp | C18–C20 |
| `Paths` | operation_path.hpp, bidir_graph.hpp, findPathGraph | C40 |
| `Solve` | solver.hpp, collect_variable.hpp, evaluator_solve.hpp | C21–C23 |
| `Timer` | job_timer.hpp; jobs of model_c_source_gen_for1.hpp l.43-129, dynamic_library_processor.hpp l.130-162, abstract_c_compiler.hpp l.192-242 | C86 |
| `Eval` | evaluator.hpp, evaluator_cg.hpp, evaluator_ad.hpp | C24, C84, C85 |
| `Subst` | graph_mod.hpp, removeIndependent | C25 |
| `Sparsity` | util.hpp, sparsity.hpp | C26, C27 |
| `Dae` | bipartite_graph.hpp, bipartite_nodes.hpp, augment_path_depth_lookahead(_a).hpp, pantelides.hpp, dummy_deriv.hpp (selection, information, elimination), soares_secchi.hpp, time_diff.hpp | C28–C30, C43, C72, C73, C75, C76, C77, C78 |
| `Pool` | pthread_pool.c | C31–C36 |
| `Orders` | comparators of eight files | C37 |
| `Deriv` | model_c_source_gen_jac/hes/for1/rev1/rev2/impl.hpp (generated functions), functor_generic_model.hpp (directional products) | C45–C49 |
| `Atomic` | abstract_atomic_fun.hpp, base_abstract_atomic_fun.hpp, atomic_fun_bridge.hpp, custom_position.hpp, atomic_generic_model.hpp, (atomic/generic_model)_external_function_wrapper.hpp, atomic calls of language_c.hpp and functor_generic_model.hpp; atomic_dependency_locator.hpp | C50–C52, C67 |
| `Patterns` | equation_pattern.hpp, findRelatedVariables of dependent_pattern_matcher.hpp, makeGraphClones of loop.hpp | C53, C54 |
| `Funcs` | language_c.hpp (generateSourceCode, saveLocalFunction, atomic calls, declarations), printArrayStructInit of language_c_arrays.hpp | C55, C56 |
| `Library` | linux_dynamiclib.hpp, linux_dynamiclib_model.hpp, llvm_model_library.hpp, llvm_model.hpp, life of functor_generic_model.hpp and generic_model.hpp; tables of atomic functions (code_handler_impl.hpp, language_c.hpp, model_c_source_gen_impl.hpp, functor_generic_model.hpp); evaluation (functor_generic_model.hpp, `Hessian(x, i)` of generic_model.hpp), dynamic_library_processor.hpp l.125-219, abstract_c_compiler.hpp l.146-264, gcc_compiler.hpp l.60-126, ar_archiver.hpp l.54-77; use of pools: model_library_c_source_gen.hpp l.80-159, model_library_c_source_gen_impl.hpp l.105-361, model_c_source_gen_impl.hpp l.91-158; save_files_model_library_processor.hpp | C68, C69, C70, C87, C88, C89, C90, C91 |
| `Formula` | expressions in lang/latex/language_latex.hpp and lang/mathml/language_mathml.hpp | C71 |
| `Names` | variable_name_generator.hpp, lang/c/lang_c_{default,custom,default_hessian,default_reverse2}_var_name_gen.hpp, lang/latex/lang_latex_{default,custom}_var_name_gen.hpp | C74 |
| `Loops` | model_c_source_gen_loops(_jac/_for0/_for1/_rev1/_rev2/_hess/_jac_fr1/_hess_r2).hpp: analysis of the request, generation and running of loop bodies; loop_free_model.hpp, iter_equation_group.hpp; language_c_loops.hpp l.30-173; model_c_source_gen_hes.hpp l.105-156 | C57–C59, C79–C83 |
| `Colors` | extra/sparse_forjac_hessian.hpp; model_c_source_gen_loops_hess.hpp l.1096-1226 (`generateLoopForJacHes`) | C63, C64 |
| `Scopes` | code_handler_impl.hpp l.737-1270 (`markCodeBlockUsed` and what it calls), range.hpp l.152-206; model_c_source_gen_loops.hpp l.240-347 (`moveNonIndexedOutsideLoop`); code_handler_impl.hpp l.345-397, 1225-1246, 1444-1633 (order of evaluation); code_handler_impl.hpp l.1270-1424 (`optimizeIfs`) | C60, C61, C62, C65, C66 |
| `Strings` | util.hpp, print operations of language_c.hpp | C38, C41 |

* **Cg.** Programs are straight line programs over registers. Laws of arithmetic are hypotheses (`Laws`).
* **Codegen.** Scalar graphs: no loops, arrays, atomic functions or scopes of conditionals; one local function.
  `_lastUsageOrder` and `_scope` data surviving `reset()` is not modelled; name indices use truncated subtraction.
  Hypotheses `WF` (acyclic, operations with the right number of arguments, independents declared, no dependent
  which is an alias is an argument), `Ready`, `Unnamed` (no names of earlier generations).
* **Print.** `double` only, finite constants, `-0.0` not distinguished, literals keep their value instead of
  their digits, tokens instead of characters, fewer than 2^31 dependents, no splitting into several functions.
* **Arrays.** Dense arrays, lifetimes as a hypothesis, no scopes, index loops or indexed independents, caching by
  `printArrayStructInit` not modelled, default name generator.
* **Marks.** One data vector, capacities not modelled, use of deleted nodes excluded.
* **Index.** Keys below 2^63, signed overflow wraps, tokens instead of characters.
* **Paths.** Recursion with fuel/rank, visit marks as a list.
* **Solve.** One handler; evaluation order of C++ operands is a parameter (`ltr`, `ord`), so the theorems hold for
  every order; real arithmetic for C21; names and messages not modelled.
* **Eval.** For C24 arrays, atomic functions, prints and names are not modelled; input and output scalar types agree; operand
  order arbitrary; stack overflow is undefined behaviour.
* **Subst.** Names not modelled, one handler.
* **Sparsity.** Vectors are filled by appending.
* **Dae.** Nodes are numbered; names and messages not modelled; the Pantelides loop only with the default
  strategy; the parameter flag is never set; `OneDerivative` (no variable has two derivatives) as a hypothesis.
  Dummy derivatives (C72): nodes are indexes, numbers are in a field, so nothing is rounded; the QR decomposition is a
  parameter which gives the reordered variables and the rank; `std::sort` is any reordering; the vector of dummy
  derivatives is empty at first; a moment in time is described by values, rates of change and partial derivatives.
  Information (C73): names are left out, -1 is `none`; the substitutions are a parameter which says whether they succeed;
  the recorded functions are functions of a list of values; the sorts are parameters.
  Soares and Secchi (C75): the order of marked equations (a set of pointers) is a parameter, any permutation; the removal of the
  derivatives added last is left out.
  Elimination (C76): residuals and handler are a parameter (`solvable`, `subst`) with stated laws about dependencies, met by
  linear systems and by systems without cancellation; undoing a substitution gives back the former residuals; all loops have
  the same fuel.
  Removal (C77): access to a freed node is undefined behaviour, except that `assign_` of a variable may still name a removed
  equation and is only compared; `printResultInfo`, which dereferences it when the verbosity is not `None`, is not modelled.
  Names of variables and the flag `explicit_` are left out; the new tape is in C78.
  New tape (C78): a tape is a list of trees of sums, products and functions of one variable (with derivatives given by a
  function on their names), the sweeps `Forward(0)`, `Forward(1)` and `Reverse(1)` of CppAD are modelled for these and for
  `time_var`; that CppAD calls the routines of time_diff.hpp this way is trusted. The folding of constants done while operations are
  recorded (C01), initial values, names, the sparsity routines of time_diff.hpp and the messages are left out.
* **Loops, forward mode of order one (C79).** Derivatives of the tapes are oracle functions which are zero outside of the
  sparsity patterns, as in C57. The generated functions are run as the sums which their operations describe: per group the
  index of the iteration, the conditions on it and the index patterns of the locations are evaluated (lemmas of the areas `Index` and `Ranges`),
  the text of the C code and the graph of operations are not modelled. `createsLoop` decides as the code does between a loop
  and the direct generation for one iteration. Values in the result of order zero, and atomic functions, are left out.
* **Loops, reverse mode of order one (C80).** As for C79: derivatives of the tapes are oracle functions, the text of the C code and the
  graph of operations are not modelled, arrays are functions. A location outside of the vector of an equation outside of the loops is a
  distinct outcome, shown not to occur. All functions are generated in each call of the model.
* **Loops, reverse mode of order two (C81).** The tables of `HessianWithLoopsInfo` (row, location and number of additions of each pair
  of variables at each iteration) and the second derivatives are given; that the row of a pair at an iteration is the same for all groups of equations is
  a hypothesis (it is the index of the first variable at that iteration). Lookups in the maps of second derivatives are not modelled.
  Maps whose keys are sets are lists in the order of insertion, so the functions are numbered differently.
* **Loops, sparse Jacobian and Hessian from other functions (C82).** The functions called are given by the positions which they assign or add to and the
  values. Loops and groups are one list: the order of calls with the same number of rows is that of the list (in the code by address of the loop and
  number of the group). Statements are run as they are generated, text is not modelled; index patterns have their values in the integers. The index
  variable has any value where it was not set; `none` is undefined behaviour or a failure of the generator.
* **Loops, indexed dependent variables (C83).** Statements are run at one value of the index of the loop around them, which is taken to be the index of
  all variables. Text is not modelled; the value of other right hand sides is given, and so are the values of the arrays, which the assignments do not
  change. Index patterns are those of C42 (patterns of other types are not used in loops); their values are in any commutative ring.
* **Eval, arrays and calls (C84).** Operations are functions of their operands (C24 is about them), results are values instead of AD objects; a call has one
  array of arguments and one of results. Sparse arrays are not modelled.
* **Eval, known values (C85).** An evaluation is a sequence of requested elements, possibly ended by a failure; which elements of the arguments are known
  after their evaluation is given. The created nodes are not modelled. The assertion that there are no results yet (evaluator_cg.hpp l.214) is compiled out.
* **Timer (C86).** The clock and the text of a duration are given, with times as integers; one listener stands for all; settings do not change while jobs run
  (`compileSources` makes lines wider, abstract_c_compiler.hpp l.176-180, which is not modelled);
  the width is not reduced to the range of `int`. The format flags of the stream are not modelled.
* **Library, creation (C87).** The compiler and the linker are given: which object is written for a source and whether that succeeds, and which objects are accepted; a
  linker which fails is taken to write nothing. A library is the list of its objects. Folders, saved sources, jobs and getting the sources are not modelled.
* **Library, static (C88).** `ar rcs` replaces members by name, adds others and keeps the rest; if a file is missing it is taken to change nothing. Other flags are
  not modelled. The archive is apart from other files.
* **Library, sources (C89).** Sources are represented by the pools which they call or define and the models which are listed. Whether loops are found, and the mode
  of the Jacobian, are inputs. Models have numbers for names; exceptions during generation are not modelled.
* **Library, saved sources (C90).** Which paths can be opened, and what `mkdir` does, are inputs. A file which is open is written completely; paths are compared as texts.
* **Library, sources on disk (C91).** As C87 and C90. A compiler which is given a file with an object or a library fails and writes nothing; the folders are taken to be there.
* **Pool.** Sequentially consistent memory, critical sections are atomic, the unprotected read of `len` is a
  step of its own, `qsort` sorts, times do not change while jobs are queued, `malloc` succeeds.
* **Deriv.** The generated C functions are modelled as lists of statements on a memory, or as the loops they contain;
  the functions of one row or column return the derivatives (that they do is C05). No loop models. CppAD's sweeps and
  its colouring are taken to return the derivatives. Memory is always available; a direction is a finite vector.
* **Atomic.** Orders zero and one. The atomic function of the user and CppAD's patterns are parameters. Values known
  while recording are not modelled. Memory of arrays is separate except in C52, which models one shared vector with the
  capacity obtained by `resize` as a parameter.
* **Loops.** Tapes are opaque: their derivatives at each iteration are parameters. Expressions of the loop body are functions
  of the iteration; a loop body is its list of results, plain or in if-else blocks whose conditions are index ranges.
  Places are the index patterns of area Index evaluated without overflow, conditions those of area Ranges.
  For the Hessian, tables of the analysis are lists of writes; the repetition checks of debug mode are left out.
* **Colors.** Sets are lists, `forbidden` is the list of forbidden colors, and positions in the sorted arrays are the entries from
  there on. `index_sort`, first order forward mode and second order reverse mode of CppAD are parameters with the properties stated in the
  spec; assertions are compiled out. Maps are functions.
* **Scopes.** The navigation with a stack is a recursion with fuel. In the order of evaluation it is any function of the
  state which operations get a variable; aliases and prints are left out. The condition of a branch is part of the node at
  its beginning. A joined end of a conditional becomes a plain node instead of an alias. The number of scopes is a parameter. Conditions are part of the nodes of their branches and use
  the index of the loop around them; aliases, arrays and nested loops or conditionals are left out.
  For values moved out of loops, the search has fuel and the set of nodes is in the order in which they are found, not of addresses.
* **Funcs.** The text of an operation is opaque (a state change); C code is run block by block, text which is not balanced
  has no meaning. Structs of each function start unassigned, the other variables of a function have any value.
* **Formula.** A name is one part of the text, blanks and invisible commands are left out; the conventions by which formulas are read are those
  of `Formula/Spec.lean`, in particular two raised expressions beside each other and two numbers beside each other have no reading. Values are in a
  commutative ring, so regrouped sums and products are equal. The digits of a number are exact.
* **Names.** Identifiers are natural numbers from 1; the wrappers are used with C names (`Uniform`); MathML and the expressions
  for indexes in loops are left out, only the arrays of such variables are modelled.
* **Library.** The loader is a table of open files, an address is an object which is never reused, a set of models is a list. The code of a
  library is opaque. An evaluation has the checks of `ForwardZero`.
  Maps are lists of pairs. Of an evaluation only the calls of external functions are modelled; functions which call the model again are not.
  Evaluation (C70): a compiled function reads all its arguments before it writes its results, so arguments and results which overlap are not
  modelled. The error handler does not return. `CppAD::vector` does not set the elements of new vectors of numbers, `std::vector` sets them to zero.
* **Patterns.** One handler; constants are compared by a key (`0.0 == -0.0`), no NaN. An iteration is evaluated directly
  from the table of independents: the sharing of index patterns, the tapes of the loop and loops of several equations
  are not modelled.

## Properties

Statements are in `properties.jsonl`.

### C01 Arithmetic on CG objects is sound — partial

*How:* a program is recorded (`record`) and run directly (`runDirect`); a simulation relation between registers and graph valuations is kept by every operation, by cases over all shortcuts.

Proved for all programs over any arithmetic with the usual field laws wherever the direct program is defined, joined with code generation. Counterexamples: x/x at 0, 0*NaN, sign(NaN).

Theorems: `Cg.binary_denotes`, `Cg.compound_denotes`, `Cg.neg_denotes`, `Cg.record_denotes`, `Cg.record_succeeds`, `Cg.recorded_has_valuation`, `Cg.generated_code_computes_program`, `Cg.div_self_counterexample`, `Cg.nan_product_counterexample`, `Cg.nan_sign_counterexample`.

### C02 Known values follow the operations — partial

*How:* the same simulation carries the known value of each register.

When a value is known: proved for all operations. That it is the right value: for all programs over any arithmetic with the usual field laws, wherever the direct program is defined; not for NaN (0*x is recorded with the known value 0, counterexample).

Theorems: `Cg.known_value_correct`, `Cg.binary_known_iff`, `Cg.compound_known_iff`, `Cg.unary_known_iff`, `Cg.nan_product_counterexample`.

### C03 Operands of different handlers are rejected — partial

*How:* case analysis on the handlers of the operands.

Holds for + - * / and CondExp; false for compound assignments and pow (counterexamples).

Theorems: `Cg.binary_rejects_mixed`, `Cg.condExp_rejects_mixed`, `Cg.no_mixed_graph_partial`, `Cg.compound_mixes_counterexample`, `Cg.pow_mixes_counterexample`.

### C04 Conditional expressions select the right branch — partial

*How:* case analysis; the comparison operators follow from their definitions.

Folded and recorded conditionals, all comparisons, for arithmetics in which values that compare equal are the same. With signed zeros the choice between 0.0 and -0.0 is folded to the first (counterexample).

Theorems: `Cg.condExp_denotes`, `Cg.compare_constants`, `Cg.compare_variable_raises`, `Cg.compare_variable_eq`, `Cg.condExp_signed_zero_counterexample`.

### C05 Generated code computes the recorded model — partial

*How:* simulation between the emitted statements and the evaluation of the graph, over the passes of generateCode (ids, use counts, creation, order, last use, reuse, names).

Proved for all acyclic scalar graphs (no loops, arrays, atomics) except two code defects excluded by WF and shown by counterexamples: a dependent alias used as argument, sign of an alias.

Theorems: `Codegen.generateCode_correct`, `Codegen.graph_has_valuation`, `Codegen.valuation_unique`, `Codegen.alias_dependent_counterexample`, `Codegen.sign_of_alias_counterexample`, `Codegen.zero_dependent_counterexample`.

### C06 No variable is read before it is assigned — partial

*How:* the run of the emitted program never reads an unset variable: part of the same simulation.

Holds for all well formed requests; fails when a dependent alias is an argument of an earlier dependent (counterexample).

Theorems: `Codegen.generateCode_defBeforeUse`, `Codegen.alias_dependent_counterexample`.

### C07 Reusing temporaries never clobbers a live value — partial

*How:* allocation invariant of the reuse pass; traces of both programs are compared with the graph evaluation.

Every statement assigns the same value with and without reuse, for all well formed requests (see C05 for what WF excludes), interpretations and inputs, when the nodes carry no names of earlier generations. With such names two live temporaries can share a variable (counterexample).

Theorems: `Codegen.reuse_invisible`, `Codegen.stale_temporary_name_counterexample`.

### C08 The declared number of temporaries is enough — partial

*How:* bound on the ids handed out; for arrays a bound on the reserved ranges.

Scalar temporaries: proved for well formed requests whose nodes carry no names of earlier generations; false with such names (counterexample: v[1] written, one temporary declared). Array storage: all cells are below the reported size, for programs with valid lifetimes.

Theorems: `Codegen.temporaries_declared`, `Codegen.temporaries_declared_counterexample`, `Arrays.arrays_placed`.

### C09 Inputs are never overwritten — partial

*How:* left hand sides by cases of the name generator; injectivity of the printed names.

No statement writes an input, for well formed requests (WF) whose nodes carry no names of earlier generations; requests outside of this are not covered; the printed names of different variables are different texts (array elements and scalars), for all indices.

Theorems: `Codegen.inputs_not_written`, `Print.names_differ`.

### C10 Every dependent is assigned — partial

*How:* counting the assignments of each dependent in the emitted program.

Exactly once without zeroDependents; with zeroDependents+ignoreZeroDepAssign and no operation a zero dependent is never written (counterexample).

Theorems: `Codegen.dependent_written_once`, `Codegen.dependent_in_range`, `Codegen.zero_dependent_counterexample`.

### C11 Arrays that are alive at the same time never share storage — partial

*How:* invariant of the free lists and live ranges over all histories.

Storage part proved for all histories of reservations and releases and for all programs (disjointness, bounds, reuse of gaps, forbidden cells). The statement about cached values holds if values which compare equal are the same (printed_arrays_correct_partial keeps it as an invariant) and is false for a negative zero; an array which is never used is released outside of the vector.

Theorems: `Arrays.storage_disjoint`, `Arrays.storage_reused`, `Arrays.arrays_placed`, `Arrays.signed_zero_counterexample`, `Arrays.unused_counterexample`.

### C12 Generating code twice gives equivalent code — partial

*How:* the result of a generation depends on the handler only through names.

Same request repeated: same program any number of times. Different requests: same as a new handler when the nodes carry no names. Counterexamples show that stale names and reset() break the unrestricted claim.

Theorems: `Codegen.history_independent_partial`, `Codegen.generate_repeatable`, `Codegen.permuted_dependents_counterexample`, `Codegen.stale_temporary_name_counterexample`, `Codegen.reset_counterexample`.

### C13 Printed C expressions mean what was recorded — partial

*How:* printing to tokens, a C expression grammar and C int/double arithmetic; the parse of the printed tokens is the recorded tree up to grouping.

Printed expressions and whole function bodies, read with the C grammar and computed with C int/double arithmetic, give the recorded values: with exact arithmetic for all expressions in which no operation has two operands printed as int, and with any arithmetic when the printed grouping is the recorded one. Counterexamples: division of ints (1/(sign(x)+1)), regrouping of sums and products under rounding. Texts are tokens, digits of constants are not modelled.

Theorems: `Print.printed_value_partial`, `Print.printed_value_exact`, `Print.stack_prints`, `Print.printed_body_reads`, `Print.printed_body_executes`, `Print.printed_function_correct`, `Print.intSafe_of_no_sign`, `Print.int_division_counterexample`, `Print.regrouping_counterexample`, `Print.regrouping_product_counterexample`.

### C14 A detected index pattern reproduces every index — proved

*How:* induction over the scan of the points.

For all maps and vectors, over every commutative ring of values, in particular 64 bit machine arithmetic.

Theorems: `Index.detect_reproduces`, `Index.detectV_reproduces`, `Index.detectV_eq`, `Index.detect_reproduces_64`, `Index.detect_section_count`, `Index.detect_linear`.

### C15 Printed index expressions compute the pattern — partial

*How:* parse and evaluation of the printed tokens in C integer types.

The printed tokens, read with the C grammar and evaluated with C integer types (literals int/long, loop variables unsigned long), give the pattern value. Detected patterns: keys below 2^31, values within 2^30 (planes: 0 to 2^29). Counterexample: constant parts of a plane added as int overflow.

Theorems: `Index.linear_computes`, `Index.sectioned_computes`, `Index.detect_computes`, `Index.plane_computes`, `Index.random2_computes`, `Index.random_computes`, `Index.plane_overflow_counterexample`.

### C16 A detected plane reproduces every index pair — proved

*How:* the points are verified by the detection; soundness of this check.

For all tables of index pairs.

Theorems: `Index.plane_reproduces`, `Index.plane_reproduces_64`.

### C17 Printed random-pattern tables hold the pattern — proved

*How:* induction over positions of the initialiser.

Array and matrix initialisers read back; new table names differ from all others.

Theorems: `Index.array_holds`, `Index.matrix_holds`, `Index.random_computes`, `Index.table_names`.

### C18 Iteration conditions select exactly the requested iterations — proved

*How:* induction over runs of iterations.

Condition built for a set of iterations and printed as C; empty set has no condition (asserted precondition).

Theorems: `Ranges.condition_selects`, `Ranges.condition_exact`, `Ranges.condition_empty`.

### C19 An if/else-if/else chain runs the branch of the iteration — partial

*How:* induction over branches, with the set of iterations used so far.

Non-reused chains, whenever building succeeds. Building dereferences null exactly when the first branch takes every local iteration (counterexample).

Theorems: `Ranges.chain_runs_own_branch`, `Ranges.chain_defined_iff`, `Ranges.chain_single_branch_counterexample`.

### C20 Iteration range algebra — partial

*How:* membership characterisation of the range lists.

Union and complement are exact. The else-branch ranges are a sound over-approximation; exactness fails with an else-if (counterexample).

Theorems: `Ranges.combineOverlap_covers`, `Ranges.combineOverlap_separated`, `Ranges.invert_covers`, `Ranges.invert_invert_covers`, `Ranges.elseRanges_sound_partial`, `Ranges.elseRanges_exact_single`, `Ranges.elseRanges_exact_counterexample`, `Ranges.combineNonOverlap_counterexample`.

### C21 Solving for a variable is correct — partial

*How:* induction over the path from the expression to the variable, with the inverse of each operation over the reals.

over the real numbers, any graph with one route from the expression to the variable: the result does not depend on the variable, has the value needed to make the expression zero, every root in the domain of the inverses equals it, assigning it makes the expression zero; the range in which each operation can be inverted is given explicitly. Not for expression = variable: solveFor(x, x) returns x (proved); of the two roots of cosh(x) = c only the nonnegative one is returned (proved)

Theorems: `Solve.solveFor_correct_partial`, `Solve.solveFor_assign_partial`, `Solve.attained_iff`, `Solve.cosh_root_counterexample`, `Solve.solveFor_self_counterexample`.

### C22 isSolvable predicts solveFor — proved

*How:* the two walks over the path are compared step by step.

isSolvable is true iff solveFor returns and false iff it raises, for every recorded graph, expression and variable, any number of routes

Theorems: `Solve.isSolvable_iff`, `Solve.isSolvablePath_iff`.

### C23 Collecting a variable preserves the expression — partial

*How:* the collected coefficient and rest are followed along each route.

Proved: which expressions are collected and which raise an exception; the result is s*variable + e with s, e independent of the variable, and sub-expression and whole expression keep their value in every evaluation, if every subtraction on a route is entered on the side of the operation before it. Otherwise false: x + (x - 3) becomes -3, solveFor((3 - x) + 3x) is -3/4 (proved).

Theorems: `Solve.collectAddSub_value_partial`, `Solve.collectVariable_value_partial`, `Solve.collectAddSub_iff`, `Solve.linear_iff`, `Solve.collect_counterexample`, `Solve.solveFor_collect_counterexample`.

### C24 Graph evaluation through Evaluator is faithful — partial

*How:* invariant of the memo table: stored results are values of the recorded expressions.

Proved for all acyclic graphs over the operations known to evaluators, all operand orders, previous states and request sequences, for numbers and for CG objects. Counterexample: acosh, asinh, atanh, erf, erfc, expm1 and log1p can be recorded but raise an exception. Arrays, atomic functions, prints and names are not modelled.

Theorems: `Eval.evaluate_correct`, `Eval.evaluate_cg_denotes`, `Eval.wrong_size_rejected`, `Eval.reentrant_rejected`, `Eval.requests_independent`, `Eval.unsupported_counterexample`.

### C25 Independent substitution preserves meaning — partial

*How:* denotation of the changed graph with the solution put in.

Substitution denotes the original with the solution put in (any equation whose solution does not depend on the variable; the side conditions are proved for a single occurrence of the variable, over the reals the equation then holds). Undo and removal are complete. False when the equation is the variable itself (self alias); not discharged for equations solved after collecting several occurrences, where solveFor itself is wrong (C23).

Theorems: `Subst.substitute_meaning`, `Subst.substitute_correct_partial`, `Subst.substitute_succeeds`, `Subst.undo_restores`, `Subst.appended_meaning`, `Subst.undo_removed`, `Subst.removeIndependent_iff`, `Subst.removeIndependent_refuses`, `Subst.substitute_self_counterexample`.

### C26 Sparsity algebra equals boolean matrix algebra — proved

*How:* membership characterisation of every function.

Boolean algebra of the sparsity products for all patterns in range. The assertion of addMatrixSparsity is the wrong way round (counterexample).

Theorems: `Sparsity.addMatrix_spec`, `Sparsity.addTrans_spec`, `Sparsity.transpose_correct`, `Sparsity.mult_spec`, `Sparsity.multTrans_spec`, `Sparsity.multT_spec`, `Sparsity.multT_transposes`, `Sparsity.intersects_iff`, `Sparsity.addMatrix_assert_counterexample`.

### C27 Sparsity index lists round-trip — proved

*How:* round trips on sorted patterns.

Round trips between sets and index vectors.

Theorems: `Sparsity.indexes_spec`, `Sparsity.generateSet_indexes`, `Sparsity.indexes_generateSet`, `Sparsity.indexesBool_spec`.

### C28 Augmenting paths keep a valid assignment — proved

*How:* the search is described by a relation; marked equations are those reached by alternating paths, from which the singular set follows by counting.

For all graphs in which equations and variables agree about the assignment, both strategies: result, unchanged parts, marked singular set, success iff an assignment exists.

Theorems: `Dae.augmentPath_correct`, `Dae.augmentPath_iff`, `Dae.augmentPathA_correct`, `Dae.augmentPathA_iff`.

### C29 Index reduction ends with every equation assigned — partial

*How:* invariant of the loop (`PInv`), kept by each differentiation; separate fold invariant for the derivative of an equation.

On normal return every equation which has no derivative is assigned to a distinct variable it contains, which has no derivative; links of equations and variables are consistent, a differentiated equation contains exactly the variables of its origin and their derivatives; no null dereference. Equations which were differentiated after a failed attempt stay unassigned (counterexample), so the full statement is false.

Theorems: `Dae.pantelides_correct_partial`, `Dae.derivative_equation`, `Dae.unassigned_counterexample`.

### C30 Structural index is reported correctly — partial

*How:* length of the chains of derivatives after the loop.

After the Pantelides loop the index is one more than the largest number of differentiations of an original equation. The ODE case is false: an ODE is reported with index 1, and the theorem shows 0 is never returned when there is a time dependent variable.

Theorems: `Dae.structuralIndex_correct_partial`, `Dae.ode_index_counterexample`.

### C31 Thread pool runs every job exactly once — partial

*How:* transition system with any number of threads; every job is in exactly one place in all reachable states.

For all interleavings, thread counts and strategies no job is executed twice or lost; at rest each was executed exactly once. Exceptions: destroying the pool drops queued jobs (counterexample) and groups queued when the strategy is changed away from static are never executed (see C33).

Theorems: `Pool.one_place`, `Pool.at_most_once`, `Pool.none_lost`, `Pool.exactly_once_at_rest`, `Pool.exactly_once_counterexample`.

### C32 Waiting on the pool really waits — proved

*How:* invariant over all interleavings between the call and the return of wait.

All interleavings and strategies, jobs added by any thread before the call; pool not destroyed meanwhile.

Theorems: `Pool.wait_waits`.

### C33 The pool cannot get stuck — partial

*How:* measure decreasing with every productive step, and progress.

Proved for one waiting thread at a time and strategy changes only when no work group is queued. Counterexamples: livelock after a strategy change, second waiter never woken.

Theorems: `Pool.activity_ends_partial`, `Pool.rest_means_done_partial`, `Pool.can_move_partial`, `Pool.groups_stuck`, `Pool.strategy_change_counterexample`, `Pool.two_waiters_counterexample`.

### C34 Guided scheduling never runs past the queue — partial

*How:* induction over the traversal of the queue.

Safe with exact arithmetic, maxgroupwork <= threads and a working clock. Counterexamples dereference NULL: larger maxgroupwork, clock failure, rounding of the stored total.

Theorems: `Pool.guided_safe_partial`, `Pool.guided_prefix`, `Pool.guided_null_iff`, `Pool.guided_null_counterexample`, `Pool.guided_clock_counterexample`, `Pool.guided_rounding_counterexample`.

### C35 Job order follows measured times — partial

*How:* permutation and rank of the sorted order.

The order is a permutation and holds ranks; the queue is descending exactly when the permutation is its own inverse (counterexample 2,1,3).

Theorems: `Pool.order_perm`, `Pool.order_rank`, `Pool.queue_descending_iff`, `Pool.queue_order_counterexample`, `Pool.order_unchanged`, `Pool.ref_min`.

### C36 Static scheduling places each job in one group — partial

*How:* counting invariant of the table of jobs.

Proved whenever the table is computed or its entries are valid; a table reused with fewer threads is out of bounds (counterexample).

Theorems: `Pool.static_fresh`, `Pool.static_reuse_partial`, `Pool.static_two_calls_partial`, `Pool.static_reuse_counterexample`, `Pool.static_times_counterexample`.

### C37 Ordering relations used for sorting and maps are strict weak orders — partial

*How:* order axioms for each comparator.

Proved for all comparators except OperationPathNode::operator< and sortEquationByAssignedOrder2, which are not strict weak orders (counterexamples), and comparePair with NaN.

Theorems: `Orders.setLess_strictWeak`, `Orders.rowIterLess_strictWeak`, `Orders.contribLess_strictWeak`, `Orders.pairLess_strictWeak`, `Orders.uniquePair_eq`, `Orders.indepNodeLess_strictWeak`, `Orders.indexedIndepLess_strictWeak`, `Orders.vnodeLess_strictWeak`, `Orders.varLess_strictWeak`, `Orders.varLess_exact`, `Orders.comparePair_threeWay`, `Orders.pathNodeLess_partial`, `Orders.pathNodeLess_counterexample`, `Orders.eqLess_partial`, `Orders.eqLess_counterexample`, `Orders.comparePair_nan_counterexample`.

### C38 String helpers — partial

*How:* exact results for all texts, by induction over the pieces.

Exact results proved for all texts. The claim itself is false: trailing delimiter lost, empty pattern never terminates, replacing can create new occurrences (counterexamples).

Theorems: `Strings.pieces_total`, `Strings.replaceString_spec`, `Strings.replaceString_char`, `Strings.replaceString_char_no_occurrence`, `Strings.replaceString_no_occurrence_partial`, `Strings.replaceString_empty_counterexample`, `Strings.replaceString_leaves_counterexample`, `Strings.explode_spec`, `Strings.implode_spec`, `Strings.implode_explode`, `Strings.implode_explode_partial`, `Strings.implode_explode_counterexample`, `Strings.explode_empty_counterexample`, `Strings.explode_implode`.

### C39 Visit marks and per-node data stay consistent — partial

*How:* refinement between the handler (data by position) and a specification (data by node).

Proved for all sequences of node creation, deletion, visits, marks and annotations without reset() and with less than 2^64 - 1 visits. False after reset() (stale marks and annotations of the new node) and when the visit counter wraps.

Theorems: `Marks.marks_correct_partial`, `Marks.visit_starts_clean`, `Marks.reset_counterexample`, `Marks.overflow_counterexample`.

### C40 Path search is exact — partial

*How:* induction over the search; graph search invariants.

Soundness, distinctness and existence proved for all acyclic graphs and limits; completeness only when each argument of a shared node leads to the target in at most one way. Counterexamples: 3 of 4 routes found with room for ten; 4 paths returned for a limit of 3. findPathGraph and findSingleBifurcation are exact below the limit.

Theorems: `Paths.findPaths_sound`, `Paths.findPaths_nonempty`, `Paths.findPaths_complete_partial`, `Paths.findPathGraph_exact`, `Paths.no_bifurcation_unique`, `Paths.findSingleBifurcation_correct`, `Paths.missing_paths_counterexample`, `Paths.limit_exceeded_counterexample`.

### C41 Text of print operations — partial

*How:* the literal is read back with C escapes and printf conversion.

Proved for texts without backslash and percent; counterexamples otherwise.

Theorems: `Strings.printed_text_partial`, `Strings.print_backslash_counterexample`, `Strings.print_backslash_n_counterexample`, `Strings.print_percent_counterexample`.

### C42 Offset copies of an index pattern — proved

*How:* algebra of linear and sectioned patterns.

For all linear and sectioned patterns, over every commutative ring.

Theorems: `Index.offset_sound`, `Index.encapsulate_eval`, `Index.offset_family`.

### C43 Index reduction ends exactly on structurally regular systems — partial

*How:* termination measure from the regular matching; converse by the invariant of C29.

Proved: the loop ends on regular systems; a normal return implies regularity; systems without derivatives are accepted when regular. False in the code: singular systems without derivatives loop forever (proved for all of them), and a regular system can be rejected depending on the order of the equations (counterexample).

Theorems: `Dae.pantelides_ends`, `Dae.pantelides_regular`, `Dae.algebraic_accepted`, `Dae.algebraic_singular_endless`, `Dae.nontermination_counterexample`, `Dae.rejected_counterexample`, `Dae.rejected_small_counterexample`.

### C44 Sharing storage between arrays is invisible — partial

*How:* simulation between programs with shared and separate storage.

Proved for all programs in which arguments of arrays are constants, expressions without array elements read for the last time, or elements themselves; constants exact in loops. False otherwise: an element inside of an expression can be overwritten before it is read; constants in loops lose digits. Missing: conditional scopes, index loops, sparse arrays index values.

Theorems: `Arrays.printed_arrays_correct_partial`, `Arrays.clobber_counterexample`, `Arrays.signed_zero_counterexample`, `Arrays.loop_precision_counterexample`.

### C45 Every requested element of a sparse Jacobian or Hessian is stored in its place — partial

*How:* the statements of the generated function are executed on a memory; each row or column writes exactly its own places (for threads: writes of different jobs are disjoint, so every interleaving gives the same memory).

Proved when no element is requested twice (and, for Hessians, no two requested elements are evaluated as one), and for Hessians with threads, the elements of every row are consecutive in the request. False otherwise: repeated elements leave places unwritten, and the jobs of the Hessian with threads get the weights from the wrong pointer. Missing: loops.

Theorems: `Deriv.sparse_jacobian_partial`, `Deriv.sparse_jacobian_atomics_partial`, `Deriv.sparse_jacobian_threads_partial`, `Deriv.sparse_hessian_partial`, `Deriv.sparse_hessian_threads_partial`, `Deriv.repeated_element_counterexample`, `Deriv.repeated_element_zero_counterexample`, `Deriv.hessian_threads_weights_counterexample`, `Deriv.hessian_threads_bounds_counterexample`, `Deriv.hessian_symmetric_pair_counterexample`.

### C46 Directional products — partial

*How:* invariant of the accumulation loop: after each row or column every output cell is the partial sum; the scan is a filter and skipped terms are zero.

Proved when no element is requested twice and, for the methods with sparse directions, every index named has elements. False otherwise: repeated elements count twice or overflow a buffer, a row or column without elements makes the methods throw. Rounding is excluded.

Theorems: `Deriv.forward_one_partial`, `Deriv.reverse_one_partial`, `Deriv.reverse_two_partial`, `Deriv.reverse_two_rejects`, `Deriv.sparse_forward_one_partial`, `Deriv.sparse_reverse_one_partial`, `Deriv.sparse_reverse_two_partial`, `Deriv.sparse_forward_one_counterexample`, `Deriv.forward_one_repeated_counterexample`, `Deriv.sparse_forward_one_bounds_counterexample`.

### C47 Generated sparsity tables — proved

*How:* the tables are lists built by the loops of the generator; lookup is compared with the request filtered by position.

Exact for all requests and positions. (A map with an empty vector would not compile, no caller makes one.)

Theorems: `Deriv.sparsity_of_position`, `Deriv.sparsity_table`, `Deriv.sparsity_of_equation`, `Deriv.sparsity_table_counterexample`.

### C48 Sparsity patterns of the Hessians of single equations — proved

*How:* invariant of the greedy coloring (what is forbidden in a color, where each column comes from); retrieval is an invariant over the patterns of all equations.

CppAD is a parameter: its sparsity sweeps are taken to be exact, i.e. the pattern for several equations is the union of their patterns, and an equation has second derivatives only for variables it depends on.

Theorems: `Deriv.coloring_correct`, `Deriv.equation_patterns`, `Deriv.hessian_elements`, `Deriv.hessian_elements_custom`.

### C49 Use of symmetry in generated Hessians — partial

*How:* the places evaluated and the places copied partition the request; copied places are never sources.

Exact when no element is evaluated twice, rejected otherwise. False: both elements of a symmetric pair cannot be requested if only one of them is in the pattern. Missing: loops.

Theorems: `Deriv.direct_hessian`, `Deriv.direct_hessian_rejects`, `Deriv.direct_hessian_pair_counterexample`, `Deriv.dense_hessian`.

### C50 Recorded calls of atomic functions — partial

*How:* the recorded call is evaluated by running the called function on the arrays recorded for it; terms left out of a sparse array are zero.

Values, Jacobian times direction, weights times Jacobian and the partial derivatives with respect to the argument are right, for atomic functions of the user and for compiled models (for the latter, if the derivatives named exist). False: partial derivatives with respect to the direction are always recorded as zero (proved for all functions), and both orders requested at once give zero values.

Theorems: `Atomic.forward_zero`, `Atomic.forward_one`, `Atomic.reverse_zero`, `Atomic.reverse_one_partial`, `Atomic.user_forward_zero`, `Atomic.user_forward_one`, `Atomic.user_reverse_zero`, `Atomic.user_reverse_one_partial`, `Atomic.model_forward_zero`, `Atomic.model_forward_one`, `Atomic.model_reverse_zero`, `Atomic.model_reverse_one_partial`, `Atomic.reverse_one_direction_zero`, `Atomic.forward_both_zero`, `Atomic.reverse_one_direction_counterexample`, `Atomic.reverse_one_weights_counterexample`, `Atomic.forward_zero_parameters_counterexample`, `Atomic.user_results_counterexample`, `Atomic.model_forward_one_counterexample`.

### C51 Sparsity functions of atomic functions — partial

*How:* membership characterisation of the products; invariant that a kept pattern is the one which would be computed.

Exact for all patterns, sequences of calls, and any custom Jacobian. The Hessian pattern must be the full one: elements are lost if the user chose one triangle only (counterexample); flags of a vector given with true elements are never cleared, and a Hessian kept from before is not dropped when other elements are chosen (counterexamples).

Theorems: `Atomic.forSparseJac_spec`, `Atomic.revSparseJac_spec`, `Atomic.revSparseHes_spec`, `Atomic.custom_spec`, `Atomic.bridge_forJac_spec`, `Atomic.bridge_revJac_spec`, `Atomic.bridge_revHes_spec`, `Atomic.bridge_uses`, `Atomic.new_remembers`, `Atomic.custom_remembers`, `Atomic.forSparseJac_flags`, `Atomic.revSparseJac_flags`, `Atomic.revSparseHes_flags`, `Atomic.revSparseHes_flags_counterexample`, `Atomic.triangle_counterexample`, `Atomic.setHes_counterexample`.

### C52 Memory shared with called atomic functions — partial

*How:* invariant over the steps: a result in the memory is either still there or beyond what later calls use.

Proved if no call follows a result stored in the elements the call uses, and no call needs more memory than there is. False otherwise: the results are replaced by those of the atomic function, or stored in freed memory.

Theorems: `Atomic.scratch_partial`, `Atomic.scratch_overwritten_counterexample`, `Atomic.scratch_freed_counterexample`.

### C53 Groups of equations with the same pattern — proved

*How:* induction over the comparison: nodes with the same color have the same shape, or their comparison is not finished and cannot be met again; then induction over the candidates.

For all graphs in which an alias has a node as argument and dependents which are no independents (the caller replaces those by aliases). NaN constants are excluded.

Theorems: `Patterns.patterns_are_shapes`, `Patterns.constant_arguments`.

### C54 Iterations of a loop compute their equations — partial

*How:* induction over the comparison: nodes with the same color were compared with each other and their independents are in the table; then induction over the expression of the reference.

Proved for the reference, and for dependents whose expression has one counterpart for each operation of the reference and does not use an operation of the reference in another place. False otherwise, and not checked by the code. Missing: loops made of several equations.

Theorems: `Patterns.iteration_of_reference`, `Patterns.iteration_computes_dependent_partial`, `Patterns.shared_operation_counterexample`, `Patterns.common_operation_counterexample`, `Patterns.swapped_operations_counterexample`, `Patterns.equal_constants_counterexample`.

### C55 Splitting of the code into several functions — partial

*How:* an invariant of the loop over the operations: saved functions are the printed code of consecutive operations, and nothing printed is left uncounted; then induction over the functions.

Proved when outside of loops there are only counted statements. False for calls of atomic functions outside of loops (the memory of assigned struct members is not cleared when a function starts), for conditional blocks and indexed dependents outside of loops, and with index arguments.

Theorems: `Funcs.split_text`, `Funcs.split_sizes`, `Funcs.split_right_partial`, `Funcs.local_arguments`, `Funcs.split_calls_counterexample`, `Funcs.split_ifs_counterexample`, `Funcs.split_indexed_counterexample`.

### C56 Structs given to atomic functions — proved

*How:* induction over structured code: what is remembered about a struct agrees with its members if it was filled in the same block; the members only change in blocks of the code.

The two conditions on kinds and blocks are needed, as the counterexamples show.

Theorems: `Funcs.one_function_right`, `Funcs.structs_declared`, `Funcs.structs_not_declared`, `Funcs.kinds_counterexample`, `Funcs.scope_counterexample`, `Funcs.dense_array_shown`.

### C57 Sparse Jacobian and values of models with loops — proved

*How:* an invariant of the analysis relates positions of each tape row to the request; each loop body is shown to add, at each iteration, the listed contributions, whatever if-else nodes are shared; then sums over contributions are compared with the chain rule.

For all models whose tables fit together (Model.Ok: sizes, each equation computed once, fewer than 2^64 iterations) and whose sparsity patterns cover the derivatives. The derivatives of the tapes are parameters (CppAD). For the values, each tape equation is used in some iteration.

Theorems: `Loops.jacobian_right`, `Loops.jacobian_refused_iff`, `Loops.forward0_right`.

### C58 Conditional contributions in generated loops — proved

*How:* by induction over the contributions: each keeps the invariant of the loop body (which contributions it adds) and adds its own; the invariant gives the result of running the loop.

For fewer than 2^64 iterations; each contribution is used in some iteration and has a location where it is used, as the callers ensure.

Theorems: `Loops.contributions_right`.

### C59 Sparse Hessian of models with loops — partial

*How:* the tables are lists of writes; invariants of the analysis relate them to the request; each block of generated code adds the terms of one combination of kinds of variables, and the sum of the blocks is compared with the chain rule; transposed elements by symmetry.

False in the code: the row of a temporary is searched for the number of a variable of the whole model instead of the number of its tape variable, so that contributions are missing; and a vector with one row for each equation of the model is indexed by equations outside of loops and temporaries. Without these two (Findable, and not more rows than equations) proved for all models whose tables fit together and requests without repetitions; requests with repetitions are refused.

Theorems: `Loops.hessian_right_partial`, `Loops.hessian_repeated`, `Loops.hessian_right_counterexample`, `Loops.hessian_temporary_counterexample`, `Loops.hessian_bounds_counterexample`.

### C60 Values are computed in the iterations which use them — partial

*How:* invariant of the depth-first visit: all nodes whose visit has ended use only values whose scope encloses theirs; each move of a value to another scope only enlarges the set of iterations of its scope; values stay in their loop.

Proved for all values except conditional temporaries, which are shown to be declared in a scope enclosing their uses. False for conditional temporaries: the condition is not extended for a third branch, and not when an operation using the temporary is moved. Aliases and arrays are left out.

Theorems: `Scopes.values_enclosed_partial`, `Scopes.values_computed_partial`, `Scopes.common_innermost`, `Scopes.three_branches_counterexample`, `Scopes.moved_user_counterexample`.

### C61 Scopes nest — proved

*How:* part of the same invariant: paths of scopes, their first and last nodes.

For all graphs of models with loops which are not nested, in which values outside of a loop used in it are arguments of its first node (as the generator arranges).

Theorems: `Scopes.scopes_nested`.

### C62 Values which do not change in a loop are computed before it — proved

*How:* invariant of the memoised depth-first search: marks agree with dependence on the index, marked nodes which depend on it have all other arguments ready, new assignments lead back to the first arguments; the fuel needed is a rank of the graph.

The counterexamples show that both exceptions of the statement are needed: arguments of arrays and atomic functions are left in the loop on purpose, and a temporary used by an operation without dependence on the index would be assigned before the loop (the code which makes these uses them only in branches on the index).

Theorems: `Scopes.Move.locate_ends`, `Scopes.Move.moved_constant`, `Scopes.Move.moved_used`, `Scopes.Move.constants_moved`, `Scopes.Move.moved_kinds`, `Scopes.Move.tmp_in_loop`, `Scopes.Move.values_same`, `Scopes.Move.values_right`, `Scopes.Move.depends_same`, `Scopes.Move.new_assigned`, `Scopes.Move.array_argument_counterexample`, `Scopes.Move.tmp_moved_counterexample`.

### C63 Elements of sparse Jacobians and Hessians evaluated together by colors are right — proved

*How:* invariant of the greedy coloring: each column differs in color from all earlier ones it conflicts with; then the sum over the columns of a color has one term for a requested element. The merge of columns with the sorted request is an induction over the columns, keys stay sorted and the last entry bounds the search.

index_sort and the forward and reverse modes of CppAD are parameters: any function which sorts positions, and functions which give the product of the Jacobian (Hessian) and the direction over any commutative semiring. The counterexample shows why requested elements must be in the pattern: with assertions compiled out, the value of another element is returned.

Theorems: `Colors.elements_right`, `Colors.rest_same`, `Colors.sweeps_le`, `Colors.again_same`, `Colors.not_in_pattern_counterexample`.

### C64 Jacobian and Hessians of the model of a loop are the same with and without coloring — proved

*How:* by the theorem for sparseForJacHessian on the indexes of the pattern, and by induction over the variables; both are written as updates of the same set of elements with the same values.

Parameters for CppAD as in C63. The counterexample is the last sentence of the statement: without independent variables the variant for atomic functions calls zero order forward mode with no value for a tape with one variable.

Theorems: `Colors.loop_elements_right`, `Colors.coloring_same`, `Colors.no_variables_counterexample`.

### C65 In code with loops and conditionals every value is computed once, after the values it depends on and inside its scope — partial

*How:* the queues are the parts of one log of the visited nodes, which is a reverse topological order; a value of a scope can only be reached through the end of the scope, by which the first node of the scope was logged before; the final order is a permutation of the log, by induction over the nesting of scopes.

Proved for all graphs in which every value is in a scope around its uses, and that the scopes of C60 are of this kind when no conditional temporary is made. False with conditional temporaries: a value can be computed twice. Missing: aliases, prints and optimizeIfs, and scopes with conditional temporaries.

Theorems: `Scopes.Order.order_right_partial`, `Scopes.Order.marked_order_partial`, `Scopes.Order.evaluated_twice_counterexample`.

### C66 Joining adjoining conditionals with the same condition keeps what the code does — partial

*How:* one step is described by a relation between the states (Joins); the flat code before and after a step is compared by induction over the nesting of scopes, with an interpreter of braces; termination by counting nodes which are not yet visited or not yet moved.

Missing: graphs with uses of conditional temporaries (they have arguments, which Nested excludes; the order itself can be wrong there, see C65). arguments_kept: what operations use is not changed, for all graphs. Proved for all placed graphs which fulfil Nested (every value in a scope around its uses, as in C65), in which ends of conditionals are not outside of all loops. marked_joined_partial: the graphs made by C60 without conditional temporaries are of this kind. That all such conditionals are joined is only shown in examples.

Theorems: `Scopes.Join.joined_same_partial`, `Scopes.Join.arguments_kept`, `Scopes.Join.marked_joined_partial`.

### C67 The search for atomic functions finds exactly the calls which are needed — proved

*How:* depth-first search with the invariant that finished nodes have exactly their set of variables and that nodes in progress are above the current one (so that a visited node met again is finished); induction over fuel bounded by the rank of a node.

For all acyclic operation graphs in which independents have no arguments and calls have the arrays of arguments and results as first arguments. Dependence is by arguments of operations (the graph recorded in the tape is given).

Theorems: `Atomic.Locate.atomics_located`.

### C68 Compiled libraries, models and atomic functions made from models can be used and deleted in any order — partial

*How:* a specification machine without pointers (objects which are never reused, results of evaluations decided by whether the library exists) and a simulation relation kept by every step.

Proved for all sequences in which objects are only moved while nothing refers to them, in particular without moves. False in general: after a library or a model was moved, models and libraries still know each other by the old addresses; five kinds of use of deleted objects.

Theorems: `Library.life_partial`, `Library.life_without_moves`, `Library.moved_library_counterexample`, `Library.moved_library_other_counterexample`, `Library.moved_model_counterexample`, `Library.moved_model_evaluated_counterexample`, `Library.moved_model_atomic_counterexample`.

### C69 Calls of atomic functions in compiled code reach the functions with the recorded names — proved

*How:* invariants: names without repetitions whose prefix never changes, positions found by name; for a compiled model, entry i is the function last added under name i and the counter is the number of empty entries. The text of names is read back by a reader of C initializers.

Calls printed are calls found in the graph (order of evaluation, C65). The theorem special_name_counterexample shows that names with backslashes have to be excluded.

Theorems: `Library.Names.source_generated_iff`, `Library.Names.calls_reach_functions`, `Library.Names.arrays_declared`, `Library.Names.special_name_counterexample`, `Library.Names.same_name_counterexample`.

### C70 Evaluation of compiled models through their interface — partial

*How:* memory is a list of arrays, pointers are an array and a position, new arrays are at the end and are removed when their scope ends; the arrays of pointers of the model keep what earlier calls left. Each function is followed step by step; a compiled function reads its arguments by the pointers, undefined if one is null or outside. The loops which fill matrices and patterns are inductions over the elements.

False in the code: Hessian(x, i) for vector classes which do not set new elements (hessian_of_equation_counterexample), the size of x in SparseJacobian with vectors (sparse_jacobian_vectors_counterexample), marks which were set before are kept (marks_kept_counterexample). Products with directions are in C46.

Theorems: `Library.Call.after_any_calls`, `Library.Call.values_right`, `Library.Call.values_right_arrays`, `Library.Call.variables_marked`, `Library.Call.variables_not_marked`, `Library.Call.jacobian_right`, `Library.Call.hessian_right`, `Library.Call.hessian_of_equation_partial`, `Library.Call.sparse_jacobian_dense`, `Library.Call.sparse_jacobian_view`, `Library.Call.sparse_jacobian_arrays`, `Library.Call.sparse_jacobian_vectors_partial`, `Library.Call.sparse_hessian_dense`, `Library.Call.sparse_hessian_view`, `Library.Call.sparse_hessian_arrays`, `Library.Call.sparse_hessian_vectors`, `Library.Call.sparsity_right`, `Library.Call.sparsity_reported`, `Library.Call.hessian_of_equation_counterexample`, `Library.Call.sparse_jacobian_vectors_counterexample`, `Library.Call.marks_kept_counterexample`.

### C71 Displayed formulas mean what was recorded — partial

*How:* two parsers typeset the text of LaTeX and MathML to what is visible, a third one reads what is visible; both texts of an expression show the same items (induction, the parsers are compositional). The items are a sum of products of factors with the right values: induction over the expression, with what a product begins and ends with for the sign between numbers.

False in the code for powers whose base is a negative number, a power or a number printed with an exponent (unless setPowBaseEnclose(true)), and for factors which are aliases of negative numbers. The digits are taken as exact. Conditional assignments, loops, arrays and the names of variables are not part of the formulas.

Theorems: `Formula.latex_one_reading`, `Formula.mathml_one_reading`, `Formula.latex_means_partial`, `Formula.mathml_means_partial`, `Formula.latex_enclosed_means_partial`, `Formula.mathml_enclosed_means_partial`, `Formula.negative_base_counterexample`, `Formula.power_of_power_counterexample`, `Formula.exponent_base_counterexample`, `Formula.alias_negative_counterexample`.

### C72 Relations dropped for dummy derivatives follow from the equations — partial

*How:* the stages have exactly the derivatives with k derivatives and the equations with k derivatives (induction over stages). The errors of the relations at a moment solve a linear system which is triangular in the stages: from the last stage to the first, the columns of kept relations and of later stages vanish, and the selected columns are independent. Success and avoided variables from the maximality of the rank.

False in the code if there are as many candidates as equations in a stage: all are selected without looking at the matrix (and an assertion made after the insertion always fails in debug builds). The option for algebraic variables has no influence on which derivatives are selected. The QR decomposition is a parameter with the properties expected of it (there is one for every matrix); its numerical errors are not modelled. For other values than those for which the Jacobian was determined nothing is claimed.

Theorems: `Dae.Dummy.run_defined`, `Dae.Dummy.count_right`, `Dae.Dummy.relations_kept_partial`, `Dae.Dummy.selection_found`, `Dae.Dummy.avoided_if_possible`, `Dae.Dummy.info_right`, `Dae.Dummy.option_no_influence`, `Dae.Dummy.option_counterexample`, `Dae.Dummy.relations_counterexample`, `Dae.Dummy.assertion_counterexample`.

### C73 Information about the reduced system stays right when variables and equations are moved or removed — partial

*How:* all changes of positions are instances of one notion: a partial injective map of positions under which elements and their references move; references by identifier are then kept exactly for what is still there. Invariants of the shortening loops: after i elements, a position has been lowered by the number of removed ones among the first i (first loop), or is lowered by those from i on (second loop).

False in the code: after a reordering the information which equation is the derivative of which is not moved, so it names other equations; every removal of a variable uses elements beyond the end of a vector, what is proved is what happens if nothing is there; with second derivatives an explicit equation belongs to no variable; derivatives come before the differential variables, other than documented. Substitutions in the equations are a parameter which says whether they succeed.

Theorems: `Dae.Reorder.reorder_defined`, `Dae.Reorder.reorder_right`, `Dae.Reorder.variable_order`, `Dae.Reorder.equation_order`, `Dae.Reorder.remove_undefined`, `Dae.Reorder.remove_right_partial`, `Dae.Reorder.semi_defined`, `Dae.Reorder.semi_right`, `Dae.Reorder.model_right`, `Dae.Reorder.documented_order_counterexample`, `Dae.Reorder.equation_derivatives_counterexample`, `Dae.Reorder.remove_undefined_counterexample`, `Dae.Reorder.second_order_counterexample`.

### C74 Names of variables denote the right places — partial

*How:* each name is an element of an array, a scalar, an address or an own name; these texts are read back uniquely, because the text of a number determines it and proper names contain no bracket; the arguments partition the identifiers, by cases over the wrappers.

False in the code: the generator with own names reads an element behind the vector of names for the variable which follows the last named one; the wrappers for multipliers say that a variable with an own name is in the same array as others; temporaries which are not in an array are still said to be consecutive in one. The claim about same arrays is proved for generators without wrappers and for wrappers of generators without own names. MathML and expressions for indexes in loops are not modelled.

Theorems: `Names.independent_place`, `Names.own_names`, `Names.dependent_place`, `Names.temporary_place`, `Names.names_differ`, `Names.consecutive_right`, `Names.run_right`, `Names.consecutive_complete`, `Names.consecutive_defined_partial`, `Names.same_array_partial`, `Names.same_array_own_names`, `Names.own_names_undefined_counterexample`, `Names.same_array_counterexample`, `Names.scalar_temporaries_counterexample`.

### C75 The method of Soares and Secchi always ends, and what it accepts is assigned — partial

*How:* invariant of the rounds: marked equations are closed under alternating paths through highest derivatives, and contain fewer of them than there are marked equations; so a round adds more equations than variables and new highest derivatives (a potential), while an assignment of all equations bounds their number by that of the variables. A failed search without colored equations gives a set with fewer variables than equations; in a regular system the n-th derivative of an equation is assigned to the n-th derivative of its variable, so there is none.

False in the code: regular systems can be rejected from the second round on, because equations which were differentiated stay colored during the second search. Proved instead: a system rejected in the first round is not regular, and with all equations uncolored exactly the regular systems are accepted. The removal of the derivatives added last, done afterwards, is in C77.

Theorems: `Dae.Soares.soares_correct`, `Dae.Soares.soares_regular`, `Dae.Soares.soares_rejected_partial`, `Dae.Soares.soares_corrected`, `Dae.Soares.regular_rejected_counterexample`.

### C76 Equations chosen for elimination are solved one after the other, and eliminated variables are gone from the others — partial

*How:* invariant of the four nested loops: the graph agrees with the substitutions made, assigned variables are deleted, edges of unassigned equations are solvable, the sparsity contains the dependencies, and its column of an eliminated variable is empty except for its own row; each assignment lengthens the list of substitutions, which is not longer than that of the variables. In the last search equations are colored only if they are assigned or were tried, so it ends; it cannot reach equations with eliminations, because their variables are deleted.

False in the code: an edge which is removed stays in the list of the variable, so an equation which cannot be solved is tried and the exception ends the generation (also for regular linear systems; with the edge removed on both sides there are no exceptions when there are only dummy derivatives); a variable recorded before is kept for an equation which gets none, though it may now belong to another one; derivatives assigned for information only are accepted as solved; marks of earlier searches are kept, so possible assignments are missed. The handler is a parameter: what can be solved and what residuals depend on after a substitution.

Theorems: `Dae.Elim.elimination_correct`, `Dae.Elim.elimination_corrected`, `Dae.Elim.substitution_kept_iff`, `Dae.Elim.removed_edge_counterexample`, `Dae.Elim.removed_edge_nonlinear_counterexample`, `Dae.Elim.stale_assignment_counterexample`, `Dae.Elim.semi_explicit_counterexample`, `Dae.Elim.marks_kept_counterexample`.

### C77 The information about a system reduced by the method of Soares and Secchi describes that system — partial

*How:* the nodes keep the position at which they were created, index_ and tapeIndex_ are functions changed by each removal. Invariant: vnodes_ is sorted, begins with the given variables, contains a variable iff it is given or in an equation not yet removed; index_ is the position. A given derivative never loses its last equation, because given equations are not removed. Then each field of the specification from the links proved in C75.

False in the code for a given derivative which occurs in no given equation: it is removed though it is on the tape, and what is recorded about other variables and equations is wrong. Also, variables which stay can be assigned to equations which were freed, and printResultInfo follows that pointer. Proved for systems in which every given derivative occurs in an equation (Occurs), every variable has at most one derivative (OneDerivative) and constants have no antiderivative (ConstantsPlain). The new tape is in C78.

Theorems: `Dae.Remove.reduced_information_right_partial`, `Dae.Remove.reduceIndex_right_partial`, `Dae.Remove.unused_derivative_counterexample`, `Dae.Remove.dangling_assignment_counterexample`.

### C78 The equations of the reduced system are the given ones and their time derivatives — partial

*How:* the reverse sweep from a dependent variable to the time, on a tape whose variables are wrapped in time_var, is shown to have the value of the factor times the derivative along the trajectory (induction on the expression, HasDerivAt of Mathlib). Each round adds the derivatives of one order; that all variables an equation needs are there follows from the completeness of the information. Iterated derivatives by induction on the order.

Proved for tapes of sums, products and differentiable functions of one variable, at points where these are defined; comparisons, conditional expressions, functions of two variables other than these, and atomic functions of the user are not covered. The information has to be right (Right, proved in C77 for the method of Soares and Secchi; for that of Pantelides this is a hypothesis), and at most one variable is the time (OneTime). With the wrong information of C77 a wrong equation is generated.

Theorems: `Dae.Tape.new_equations_right_partial`, `Dae.Tape.new_equations_iterated_partial`, `Dae.Tape.solutions_same_partial`, `Dae.Tape.reduced_system_right_partial`, `Dae.Tape.forward_same_as_reverse`, `Dae.Tape.forward_asserts`, `Dae.Tape.missing_derivative_counterexample`.

### C79 Forward mode of models with loops gives the product of the Jacobian with the direction — partial

*How:* the groups are shown to be a partition: each pair of a tape variable (or non-indexed variable) and a column with its set of iterations is in exactly one group, so the sum over groups, terms and iterations is the sum over tape equations and iterations of the derivative of the column (reordering of finite sums). That sum has one term which is not zero, the chain rule, by the invariant of the analysis of the request used in C57. Directions by induction on the list of columns.

column_right_partial and forward_right_partial hold for requests which meet DirectToo; without it the source generation can throw (generation_counterexample). ForwardOne of the library does not set its array to zero between calls, so that it is wrong for columns all of whose elements are in loops (stale_counterexample); right for columns with an element outside of the loops (sparse_right_partial).

Theorems: `Loops.For1.column_right_partial`, `Loops.For1.column_with_free_partial`, `Loops.For1.column_absent`, `Loops.For1.forward_right_partial`, `Loops.For1.sparse_right_partial`, `Loops.For1.stale_counterexample`, `Loops.For1.generation_counterexample`.

### C80 Reverse mode of models with loops gives the product of the weights with the Jacobian — partial

*How:* the index pattern detected for the map from equations to iterations reproduces it (C14), and no equation is computed twice, so the function of a tape equation runs the iteration of its equation. What the body adds there is the chain rule by the invariant of the analysis of the request used in C57, times the weight. A second invariant about the part outside of the loops (each evaluated derivative has exactly one location) shows that the vector of an equation has the size of its row and every location is inside it. Weights by induction on the list of equations.

sparse_reverse_one and reverse_one are right for all requests (row_right, row_sets, row_adds, row_absent, reverse_right). ReverseOne of the library does not set its array to zero between calls, so that it is wrong for equations in loops (stale_counterexample); right for equations outside of the loops (sparse_right_partial).

Theorems: `Loops.Rev1.row_right`, `Loops.Rev1.row_sets`, `Loops.Rev1.row_adds`, `Loops.Rev1.row_absent`, `Loops.Rev1.reverse_right`, `Loops.Rev1.sparse_right_partial`, `Loops.Rev1.stale_counterexample`.

### C81 Reverse mode of order two of models with loops gives the product of the Hessian with the direction — partial

*How:* the functions of a set of rows are shown to be a partition: each pair of a row and a contribution is in exactly one of them, with the iterations of the row. The body of a function is run only at the iterations of its group, so the lemmas about conditions and index patterns are proved again for a subset of the iterations. A function which is not called for a row would add zero. The sum over functions, contributions and iterations is reordered to the sum over iterations, groups of equations and entries of the tables.

The tables of the requested elements and the second derivatives of the tapes are given (their analysis is C59). Second derivatives for two variables which do not depend on the iteration, from equations which are not in all iterations, are added without the component of the direction (missing_factor_counterexample), so the theorems ask that there are none or that the component is one. ReverseTwo of the library does not set its array to zero between rows, so that it is wrong for rows all of whose equations are in loops (stale_counterexample); product_right_partial is for the other rows.

Theorems: `Loops.Rev2.row_right_partial`, `Loops.Rev2.row_sets_partial`, `Loops.Rev2.row_adds_partial`, `Loops.Rev2.product_right_partial`, `Loops.Rev2.missing_factor_counterexample`, `Loops.Rev2.stale_counterexample`.

### C82 Sparse Jacobian and Hessian of models with loops put each element at its location — partial

*How:* each statement of the generated function is run on a state with the result, the temporary array and the pointer to the output; out of bounds accesses have no result. One group is shown to add its elements at their locations: patterns have the right values by C14 (a single call gives a constant, as the index variable is not set there), the branch taken is the one of the row by C18. That the pointer is not set again after a call with the temporary array is justified by an invariant. The sums over the loops by number of calls are then reordered, and each location belongs to one element.

What the functions add and assign is given (C79–C81 are about them). The temporary array is as long as the longest row which is not passed directly, but a group with one such row gets it for all of its rows: a longer row is stored beyond its end (overflow_counterexample), so the theorem asks that there is room. For elements requested twice both positions have the location of the first (repeated_counterexample), so each element is to be requested once.

Theorems: `Loops.Usage.matrix_right_partial`, `Loops.Usage.element_position`, `Loops.Usage.overflow_counterexample`, `Loops.Usage.repeated_counterexample`.

### C83 Indexed dependent variables printed as loops get the values of single assignments — partial

*How:* the search gives a list of variables whose elements and patterns are shifted by their position (induction); by C42 the pattern of the loop at i has the value of the i-th pattern, so the loop runs the same assignments. The rest follows by induction over the operations, with the number of those which a loop already stands for.

What is printed is right (deps_right), but if a parameter is assigned to a variable after one which is assigned an element of an array, a null pointer is used (parameter_counterexample), so that something is printed is proved for variables which are not assigned parameters. All variables are taken to use the same index, which the code does not check.

Theorems: `Loops.Deps.deps_right`, `Loops.Deps.deps_defined_partial`, `Loops.Deps.parameter_counterexample`.

### C84 Evaluating atomic functions gives their values, each call made once — proved

*How:* invariant of the saved values: saved numbers are those of the graph, arrays are those of their arguments, or the results if their call was made; induction over the depth.

The hypotheses describe recorded graphs: acyclic, elements belong to the result array of their call, result arrays belong to one call and are not arguments (C50); functions give as many results as asked for. The stack is deep enough. evaluate_rejects is for one requested element, whose array of results starts with parameters.

Theorems: `Eval.Atomic.evaluate_right`, `Eval.Atomic.evaluate_rejects`.

### C85 Known values of the results of atomic functions are those of the functions — partial

*How:* invariant of the saved results: those of calls made in this evaluation are the values of the function, there are no others; induction over the requested elements.

Proved if no results are left from a failed evaluation, for order zero and functions which do not fail. Otherwise false: results of an evaluation which failed are kept (stale_counterexample), for higher orders two arrays of arguments are taken for arguments and results (order_counterexample), and failures reported by functions are ignored (failure_counterexample).

Theorems: `Eval.Known.known_right_partial`, `Eval.Known.cleared_right`, `Eval.Known.stale_counterexample`, `Eval.Known.order_counterexample`, `Eval.Known.failure_counterexample`.

### C86 The log and the listeners of jobs show how jobs are nested — partial

*How:* induction over the nested jobs for any running jobs; the flag of the last running job tells whether the new line was printed.

Proved for the timer, and for the jobs of the creation of a dynamic library if all sources compile. The generation of sparse forward and reverse mode of models with atomic functions does not finish one of its jobs (unfinished_counterexample), and no running job is finished if a source does not compile (exception_counterexample). The jobs of other parts of the generation are given as nested jobs.

Theorems: `Timer.timer_right`, `Timer.running_right`, `Timer.library_right_partial`, `Timer.unfinished_counterexample`, `Timer.exception_counterexample`.

### C87 A dynamic library has the objects of all sources, and no temporary files are left — partial

*How:* induction over the sources: only listed object files change, and with different names each has the object of its source; the clean-up removes the listed files.

The objects are proved right if no two sources have the same name. Sources of different models can have the same name: then one object replaces another and nothing is reported (collision_counterexample). That files are left as they were is proved for all names, if no files had the names of the object files before. Sources saved to disk first are in C91, static libraries in C88.

Theorems: `Library.Build.library_right_partial`, `Library.Build.library_complete_partial`, `Library.Build.temporary_right`, `Library.Build.collision_counterexample`.

### C88 A static library has exactly the objects of the sources — partial

*How:* induction over the files put into the archive: the members are those put there, and those of before with other names; the objects are those of C87.

Proved if there was no library before. Otherwise members of before with other names are kept (static_members, for all libraries), so objects of models which are not used any more stay in the library (old_member_counterexample). What ar does with the flag r is taken from its manual. Names of sources have no folder.

Theorems: `Library.Build.static_members`, `Library.Build.static_right_partial`, `Library.Build.static_complete`, `Library.Build.static_failed`, `Library.Build.old_member_counterexample`.

### C89 A library has the thread pool which its models call — partial

*How:* invariants over sequences of operations: sources of the library fit together; if no setting is changed after it was used, all sources kept are those which would be generated now.

The first sentence is proved for all sequences (library_fits). The second one is proved if no setting is changed after it was used: the threads of the library are set before any sources are generated, settings of a model are made before that or before the model is added, and the models are used for no other library. Otherwise it is false: sources of models and of the library are kept if settings change, so a model can call a pool which is not in the library (stale_model_counterexample, other_library_counterexample), and threads asked for later are not used (stale_library_counterexample). Texts of sources are replaced by the pools which they call or define.

Theorems: `Library.Sources.library_fits`, `Library.Sources.pool_there_partial`, `Library.Sources.pool_asked_partial`, `Library.Sources.stale_model_counterexample`, `Library.Sources.other_library_counterexample`, `Library.Sources.stale_library_counterexample`.

### C90 Saved sources are complete — partial

*How:* induction over the sources: a file is changed only by sources with its name, and the last one of them is kept.

Proved if all files can be opened and no two sources have the same name; with equal names the last source is kept (saved_last). Otherwise it is false: if a file cannot be opened nothing is saved and there is no exception (lost_counterexample), and a source of the user replaces one of a model with the same name (replaced_counterexample). A file which is open is taken to be written completely; paths are compared as texts.

Theorems: `Library.Save.saved_last`, `Library.Save.saved_right_partial`, `Library.Save.save_failed`, `Library.Save.closed_same`, `Library.Save.lost_counterexample`, `Library.Save.replaced_counterexample`.

### C91 Saving sources to disk first does not change the library — partial

*How:* simulation of the two modes, whose states agree but for the source files; a file which cannot be opened stays missing until it is compiled.

The first two sentences are proved if all source files can be opened and are no object files, the second one also if no two sources have the same name. The last one is proved if there was no such file before; otherwise the text of before is compiled without exception (old_source_counterexample). The folders are taken to be there, a file which is open to be written completely.

Theorems: `Library.Build.disk_same_partial`, `Library.Build.disk_library_partial`, `Library.Build.disk_saved_partial`, `Library.Build.disk_missing`, `Library.Build.old_source_counterexample`.

## Defects of the code found while proving

Proved (the theorem is a witness inside the model):

| What | Theorem |
|------|---------|
| a dependent which is an alias and an argument of an earlier one is read before it is assigned | `Codegen.alias_dependent_counterexample` |
| `sign` of an inlined alias is printed wrongly | `Codegen.sign_of_alias_counterexample` |
| names left by an earlier `generateCode`: outputs swapped, two live temporaries in one variable, temporaries beyond the declared number | `Codegen.permuted_dependents_counterexample`, `stale_temporary_name_counterexample`, `temporaries_declared_counterexample` |
| per node data survives `reset()` | `Codegen.reset_counterexample`, `Marks.reset_counterexample` |
| zero dependents never written with `zeroDependents` + `ignoreZeroDepAssign` | `Codegen.zero_dependent_counterexample` |
| operands of different handlers accepted by compound assignments and `pow` | `Cg.compound_mixes_counterexample`, `Cg.pow_mixes_counterexample` |
| `x/x`, `0*NaN`, `sign(NaN)`, choice between signed zeros folded | `Cg.div_self_…`, `nan_product_…`, `nan_sign_…`, `condExp_signed_zero_counterexample` |
| int division and regrouping in printed expressions | `Print.int_division_…`, `regrouping_…`, `regrouping_product_counterexample` |
| array element overwritten before it is read; unused array released outside of the vector; signed zeros cached as equal; constants in loops with 6 digits | `Arrays.clobber_…`, `unused_…`, `signed_zero_…`, `loop_precision_counterexample` |
| visit counter wraps | `Marks.overflow_counterexample` |
| constant parts of a printed plane overflow `int` | `Index.plane_overflow_counterexample` |
| null dereference when one branch takes every iteration; else ranges inexact; combination of non overlapping ranges | `Ranges.chain_single_branch_…`, `elseRanges_exact_…`, `combineNonOverlap_counterexample` |
| `findPaths` misses paths, and returns more than the limit | `Paths.missing_paths_…`, `limit_exceeded_counterexample` |
| `collectVariable` has the wrong sign, and so has `solveFor` after it | `Solve.collect_…`, `solveFor_collect_counterexample` |
| `solveFor(x, x)` returns x; second root of `cosh` lost; self alias after substitution | `Solve.solveFor_self_…`, `cosh_root_…`, `Subst.substitute_self_counterexample` |
| operations which can be recorded but not evaluated | `Eval.unsupported_counterexample` |
| assertion of `addMatrixSparsity` the wrong way round | `Sparsity.addMatrix_assert_counterexample` |
| Pantelides: equations left unassigned, endless loop on singular systems, regular systems rejected, index of an ODE | `Dae.unassigned_…`, `nontermination_…`, `rejected_…`, `rejected_small_…`, `ode_index_counterexample` |
| thread pool: jobs dropped, livelock, lost wake up, null dereferences, wrong order, table reused out of bounds | `Pool.*_counterexample` |
| comparators which are no strict weak orders | `Orders.pathNodeLess_…`, `eqLess_…`, `comparePair_nan_counterexample` |
| an element requested twice: place never written, counted twice, or a buffer overflow | `Deriv.repeated_element_…`, `repeated_element_zero_…`, `forward_one_repeated_…`, `sparse_forward_one_bounds_counterexample` |
| Hessian with threads: the jobs get the multiplier of the direction as weights, and read after its end | `Deriv.hessian_threads_weights_…`, `hessian_threads_bounds_counterexample` |
| both of a symmetric pair requested with only one in the pattern: one place is never written, or the request is rejected | `Deriv.hessian_symmetric_pair_…`, `direct_hessian_pair_counterexample` |
| sparse direction naming a row or column without elements: exception instead of zero | `Deriv.sparse_forward_one_counterexample` |
| calls of atomic functions: partial derivatives with respect to the direction are always zero; values are zero when both orders are recorded at once; weights of order zero are ignored; lower orders given to the user's function are zeros; results which depend only on parameters are recorded as zero; exception for a direction without elements | `Atomic.reverse_one_direction_…`, `forward_both_zero`, `reverse_one_weights_…`, `forward_zero_parameters_…`, `model_forward_one_…`, `user_results_counterexample` |
| sparsity of atomic functions: flags never cleared, elements lost if only one triangle of the Hessian is given, kept Hessian not dropped | `Atomic.revSparseHes_flags_…`, `triangle_…`, `setHes_counterexample` |
| results of sparse `ForwardOne`, `ReverseOne`, `ReverseTwo` overwritten by called atomic functions, or stored in freed memory | `Atomic.scratch_overwritten_…`, `scratch_freed_counterexample` |
| loops: wrong values for `v*v` and `w*z`, for `v*v` and `w*v`, and for `v-w` and `w-v`, since a comparison is skipped or replaces what an earlier one saved; the sign of zero constants is lost | `Patterns.shared_operation_…`, `common_operation_…`, `swapped_operations_…`, `equal_constants_counterexample` |
| several functions: atomic functions read members of structs that were never assigned, since what was assigned is remembered from other functions; conditional blocks can be cut in two, indexed dependents end up outside of functions, index arguments are not passed | `Funcs.split_calls_…`, `split_ifs_…`, `split_indexed_counterexample`, `local_arguments` |
| Hessian of models with loops: missing second derivatives with respect to a temporary and a non-indexed variable (a variable is searched by the wrong number); write out of bounds with more temporaries than equations | `Loops.hessian_temporary_…`, `hessian_bounds_counterexample` |
| values used in three branches of conditionals in a loop, or by an operation used in several branches, are read in iterations in which they are not computed: the condition of the temporary is never extended | `Scopes.three_branches_…`, `moved_user_counterexample` |
| `sparseForJacHessian`: an element requested which is not in the pattern gets the value of another one if assertions are compiled out; a precondition of the function | `Colors.not_in_pattern_counterexample` |
| `addToEvaluationQueue` (code_handler_impl.hpp l.1612-1633): with conditional temporaries the visit of the beginning of a scope adds the value for which it was started, which is then added again; it is computed twice | `Scopes.Order.evaluated_twice_counterexample` |
| after a `LinuxDynamicLib` or a model of it was moved, deleted objects are used or code of a closed library is called | `Library.moved_library_counterexample`, `moved_library_other_counterexample`, `moved_model_counterexample`, `moved_model_evaluated_counterexample`, `moved_model_atomic_counterexample` |
| names of atomic functions are not escaped in the generated code | `Library.Names.special_name_counterexample` |
| `Hessian(x, i)` of a model sets one multiplier, the others are not set for `CppAD::vector` | `Library.Call.hessian_of_equation_counterexample` |
| `SparseJacobian` with vectors does not check the size of `x` | `Library.Call.sparse_jacobian_vectors_counterexample` |
| `ForwardZero(vx, vy, tx, ty)` never sets a mark to false | `Library.Call.marks_kept_counterexample` |
| LaTeX and MathML: the base of a power which is a negative number has no parentheses, `pow(-2, x)` is displayed as the negative of a power | `Formula.negative_base_counterexample` |
| LaTeX and MathML: the base of a power which is a power, or a number with an exponent, has no parentheses | `Formula.power_of_power_counterexample`, `Formula.exponent_base_counterexample` |
| LaTeX and MathML: a factor which is an alias of a negative number is displayed as a difference | `Formula.alias_negative_counterexample` |
| `selectDummyDerivatives`: with as many candidates as equations a singular matrix is not noticed; in debug builds an assertion made after the insertion always fails | `Dae.Dummy.relations_counterexample`, `assertion_counterexample` |
| `setAvoidConvertAlg2DifVars`: without influence, the same derivatives are selected in another order | `Dae.Dummy.option_no_influence`, `option_counterexample` |
| `reorderModelEqNVars`: positions of antiderivative equations are not moved; derivatives are sorted before differential variables, other than documented | `Dae.Reorder.equation_derivatives_counterexample`, `documented_order_counterexample` |
| `reduceEquations`: elements beyond the end of the vector of variables are used whenever a variable is removed | `Dae.Reorder.remove_undefined`, `remove_undefined_counterexample` |
| `generateSemiExplicitDAE`: with second derivatives an explicit equation has no variable | `Dae.Reorder.second_order_counterexample` |
| generators with own names: `isConsecutiveInIndepArray` reads behind the vector of names | `Names.own_names_undefined_counterexample` |
| generators with multipliers: `isInSameIndependentArray` ignores own names; scalar temporaries are said to be consecutive in an array | `Names.same_array_counterexample`, `scalar_temporaries_counterexample` |
| `SoaresSecchi::detectSubset2Dif`: regular systems are called singular, depending on the order of the equations; differentiated equations stay colored during the second search | `Dae.Soares.regular_rejected_counterexample`, `soares_corrected` |
| `assignVar2Equation`: `a.deleteNode(v)` leaves the equation in the list of the variable; it is tried later, cannot be solved, and the exception ends the generation, also for regular linear systems | `Dae.Elim.removed_edge_counterexample`, `removed_edge_nonlinear_counterexample`, `elimination_corrected` |
| `matchVars2Eqs4Elimination`: an equation which gets no variable keeps the one recorded before, which may be eliminated with another equation | `Dae.Elim.stale_assignment_counterexample` |
| `matchVars2Eqs4Elimination`: the check for semi-explicit systems accepts derivatives which were assigned "only for information purposes" and not solved for | `Dae.Elim.semi_explicit_counterexample` |
| `matchVars2Eqs4Elimination`: nothing is uncolored between searches, so possible assignments are missed | `Dae.Elim.marks_kept_counterexample` |
| `BipartiteGraph::remove`: a given derivative which occurs in no given equation is removed, though `origTimeDependentCount_` still counts it: a new variable is taken for a given one, has no information, and two equations are assigned to the same variable | `Dae.Remove.unused_derivative_counterexample` |
| `BipartiteGraph::remove`: variables stay assigned to the freed equation; `printResultInfo` dereferences it | `Dae.Remove.dangling_assignment_counterexample` |
| `generateNewModel`: with the wrong information after a given derivative in no equation was removed, a new equation lacks a term | `Dae.Tape.missing_derivative_counterexample` |
| `ForwardOne` of `FunctorGenericModel` with the elements of a direction: `sparse_forward_one` of a model with loops adds to its array, which is not set to zero between columns and calls; elements are counted again | `Loops.For1.stale_counterexample` |
| sparse forward mode with loops: `dyiDxtapeT.at` throws when the requested equations of a column depend on a non-indexed variable only through temporaries (model_c_source_gen_loops_for1.hpp l.783) | `Loops.For1.generation_counterexample` |
| `ReverseOne` of `FunctorGenericModel` with the elements of the weights: `sparse_reverse_one` of a model with loops adds to its array for equations in loops, and the array is not set to zero between equations and calls; elements are counted again | `Loops.Rev1.stale_counterexample` |
| `generateReverseTwoGroupOps`: second derivatives for two non-indexed variables, from equations which are not in all iterations of the loop, are added without the factor `tx1` (model_c_source_gen_loops_rev2.hpp l.846-853, compare l.867); wrong unless the component of the direction is one | `Loops.Rev2.missing_factor_counterexample` |
| `ReverseTwo` of `FunctorGenericModel` with the elements of a direction: as for `ReverseOne`, the array is not set to zero between rows and calls | `Loops.Rev2.stale_counterexample` |
| `printForRevUsageFunction` / `determineForRevUsagePatterns`: the array `compressed` is as long as the longest row (column) which is not ordered (model_c_source_gen_hes.hpp l.277-282, model_c_source_gen_jac.hpp l.213-219), but a group is given it for all of its rows if one of them is not ordered (model_c_source_gen_loops.hpp l.812-818, l.1061-1066): for a longer ordered row the function of the group writes beyond its end | `Loops.Usage.overflow_counterexample` |
| The same function for an element requested twice: `determineOrderByRow`/`Col` stop at the first location; if a function provides both positions of the row they are both added there, and the second location stays zero | `Loops.Usage.repeated_counterexample` |
| `printLoopIndexedDepsUsingLoop`: the operation of the right hand side is checked for the first variable (language_c_loops.hpp l.74) but not for those after it (l.107-108): a null pointer is used if a parameter is assigned to the variable after one which is assigned an element of an array | `Loops.Deps.parameter_counterexample` |
| `EvaluatorCG`: the `clear()` at the start of `evaluate` is that of the base class (evaluator.hpp l.155), so results of atomic functions are kept after an evaluation which failed, and used in the next one | `Eval.Known.stale_counterexample` |
| `EvaluatorCG::evalAtomicOperation`: for orders above zero the first two arrays, both of arguments, are taken for arguments and results (evaluator_cg.hpp l.205-209, abstract_atomic_fun.hpp l.206-210) | `Eval.Known.order_counterexample` |
| `EvaluatorCG::evalAtomicOperation`: that `forward` returns false is ignored (evaluator_cg.hpp l.211), zeros are taken for known results | `Eval.Known.failure_counterexample` |
| Sources of sparse forward and reverse mode with atomic functions: a second job is started (model_c_source_gen_for1.hpp l.73, model_c_source_gen_rev1.hpp l.77) but only one is finished (l.51), so one job runs forever and later ones are taken to be inside it | `Timer.unfinished_counterexample` |
| `compileSources`: objects of all models are put in one folder (abstract_c_compiler.hpp l.194) with names which can be the same: `sparse_forward_one` of a model `m` and `forward_one` of a model `m_sparse` (model_c_source_gen_impl.hpp l.348, model_c_source_gen_for1.hpp l.319). One object replaces the other and nothing is reported | `Library.Build.collision_counterexample` |
| `ArArchiver::create`: the archive is not removed before `ar rcs` (ar_archiver.hpp l.61-72), so objects of before with other names stay in it | `Library.Build.old_member_counterexample` |
| `createDynamicLibrary`: after an exception the jobs which are running are not finished (dynamic_library_processor.hpp l.156-159), those of the next library are taken to be inside them | `Timer.exception_counterexample` |
| `ModelCSourceGen::getSources` and `ModelLibraryCSourceGen::getLibrarySources` keep sources, but no setter clears them (model_c_source_gen_impl.hpp l.94, model_library_c_source_gen.hpp l.157-159), so the library can lack the pool which a model calls, or have none though asked for | `Library.Sources.stale_model_counterexample`, `other_library_counterexample`, `stale_library_counterexample` |
| `saveSourcesTo`: the stream is not checked after it was opened (save_files_model_library_processor.hpp l.47-49), and `createFolder` accepts a file in place of the folder (linux_system.hpp l.111), so sources are lost without exception; sources with the same name replace each other | `Library.Save.lost_counterexample`, `replaced_counterexample` |
| `compileSources` with sources saved first: the stream is not checked (abstract_c_compiler.hpp l.220-224), so if the file cannot be written the text of before is compiled | `Library.Build.old_source_counterexample` |
| `explode`, `replaceString`, print texts with `\` or `%` | `Strings.*_counterexample` |

Suspected from reading, **not** proved: `ModelLibraryCSourceGen::saveSources` calls `getSources()` without the two arguments it needs
(model_library_c_source_gen_impl.hpp l.82), so it should not compile if used; `markCodeBlockUsed` dereferences null for an alias of a parameter;
a substituted independent which is not removed keeps its variable
id; the non virtual `EvaluatorBase::clear()`; an array element dependent used by an earlier dependent is never
assigned; array and atomic ids between the independents and the temporaries count as dependents; `inf` and `nan`
are not printed as C; `undoSubstituteIndependent` does not restore the name; stale colours in `SoaresSecchi`;
endless loop or null dereference in `BipartiteGraph::remove`; two variables with one antiderivative are not
detected, cyclic antiderivatives make the constructor loop; the array cache is updated inside of branches.

## Mutation testing

`seeded/LOG.jsonl` has one line per changed definition: the change, the claim it breaks and the theorems that fail. 2088 attempts so far, 36 of them survived when first run; each survivor has a note (equivalent program, or the theorem that was added). An attempt counts as detected when a proof no longer builds, often that of a helper lemma named in the log: this shows that the change was noticed, not that the statement of the property became false. Theorems are found from the lines of the errors; an error reported at the comment above a theorem is listed under the theorem before it.

## Axioms per theorem

`pe` = `propext`, `ch` = `Classical.choice`, `qs` = `Quot.sound`, as printed by `#print axioms`.

| Theorem | Axioms |
|---|---|
| `Verif.Cg.binary_denotes` | pe, qs |
| `Verif.Cg.compound_denotes` | pe, qs |
| `Verif.Cg.neg_denotes` | pe, qs |
| `Verif.Cg.record_denotes` | pe, ch, qs |
| `Verif.Cg.record_succeeds` | pe, qs |
| `Verif.Cg.recorded_has_valuation` | pe, ch, qs |
| `Verif.Cg.generated_code_computes_program` | pe, ch, qs |
| `Verif.Cg.div_self_counterexample` | pe |
| `Verif.Cg.nan_product_counterexample` | pe |
| `Verif.Cg.nan_sign_counterexample` | pe |
| `Verif.Cg.known_value_correct` | pe, ch, qs |
| `Verif.Cg.binary_known_iff` | pe, qs |
| `Verif.Cg.compound_known_iff` | pe, qs |
| `Verif.Cg.unary_known_iff` | pe |
| `Verif.Cg.binary_rejects_mixed` | pe, qs |
| `Verif.Cg.condExp_rejects_mixed` | pe, qs |
| `Verif.Cg.no_mixed_graph_partial` | pe, qs |
| `Verif.Cg.compound_mixes_counterexample` | pe, qs |
| `Verif.Cg.pow_mixes_counterexample` | pe, qs |
| `Verif.Cg.condExp_denotes` | pe, qs |
| `Verif.Cg.compare_constants` | pe |
| `Verif.Cg.compare_variable_raises` | pe |
| `Verif.Cg.compare_variable_eq` | pe, qs |
| `Verif.Cg.condExp_signed_zero_counterexample` | pe |
| `Verif.Codegen.generateCode_correct` | pe, ch, qs |
| `Verif.Codegen.graph_has_valuation` | pe, ch, qs |
| `Verif.Codegen.valuation_unique` | pe, qs |
| `Verif.Codegen.alias_dependent_counterexample` | pe, qs |
| `Verif.Codegen.sign_of_alias_counterexample` | pe, qs |
| `Verif.Codegen.zero_dependent_counterexample` | pe, qs |
| `Verif.Codegen.generateCode_defBeforeUse` | pe, ch, qs |
| `Verif.Codegen.reuse_invisible` | pe, ch, qs |
| `Verif.Codegen.stale_temporary_name_counterexample` | pe, qs |
| `Verif.Codegen.temporaries_declared` | pe, ch, qs |
| `Verif.Codegen.temporaries_declared_counterexample` | pe, qs |
| `Verif.Arrays.arrays_placed` | pe, ch, qs |
| `Verif.Codegen.inputs_not_written` | pe, ch, qs |
| `Verif.Print.names_differ` | pe, ch, qs |
| `Verif.Codegen.dependent_written_once` | pe, ch, qs |
| `Verif.Codegen.dependent_in_range` | pe, ch, qs |
| `Verif.Arrays.storage_disjoint` | pe, ch, qs |
| `Verif.Arrays.storage_reused` | pe, ch, qs |
| `Verif.Arrays.signed_zero_counterexample` | pe, qs |
| `Verif.Arrays.unused_counterexample` | pe |
| `Verif.Codegen.history_independent_partial` | pe, ch, qs |
| `Verif.Codegen.generate_repeatable` | pe, ch, qs |
| `Verif.Codegen.permuted_dependents_counterexample` | pe, qs |
| `Verif.Codegen.reset_counterexample` | pe, qs |
| `Verif.Print.printed_value_partial` | pe, ch, qs |
| `Verif.Print.printed_value_exact` | pe, ch, qs |
| `Verif.Print.stack_prints` | pe, qs |
| `Verif.Print.printed_body_reads` | pe, ch, qs |
| `Verif.Print.printed_body_executes` | pe, ch, qs |
| `Verif.Print.printed_function_correct` | pe, ch, qs |
| `Verif.Print.intSafe_of_no_sign` | pe, qs |
| `Verif.Print.int_division_counterexample` | pe, ch, qs |
| `Verif.Print.regrouping_counterexample` | pe, ch, qs |
| `Verif.Print.regrouping_product_counterexample` | pe, ch, qs |
| `Verif.Index.detect_reproduces` | pe, ch, qs |
| `Verif.Index.detectV_reproduces` | pe, ch, qs |
| `Verif.Index.detectV_eq` | pe, ch, qs |
| `Verif.Index.detect_reproduces_64` | pe, ch, qs |
| `Verif.Index.detect_section_count` | pe, ch, qs |
| `Verif.Index.detect_linear` | pe, ch, qs |
| `Verif.Index.linear_computes` | pe, ch, qs |
| `Verif.Index.sectioned_computes` | pe, ch, qs |
| `Verif.Index.detect_computes` | pe, ch, qs |
| `Verif.Index.plane_computes` | pe, ch, qs |
| `Verif.Index.random2_computes` | pe, ch, qs |
| `Verif.Index.random_computes` | pe, ch, qs |
| `Verif.Index.plane_overflow_counterexample` | pe, ch, qs |
| `Verif.Index.plane_reproduces` | pe, ch, qs |
| `Verif.Index.plane_reproduces_64` | pe, ch, qs |
| `Verif.Index.array_holds` | pe, qs |
| `Verif.Index.matrix_holds` | pe, ch, qs |
| `Verif.Index.table_names` | pe, ch, qs |
| `Verif.Ranges.condition_selects` | pe, ch, qs |
| `Verif.Ranges.condition_exact` | pe, ch, qs |
| `Verif.Ranges.condition_empty` | pe, qs |
| `Verif.Ranges.chain_runs_own_branch` | pe, ch, qs |
| `Verif.Ranges.chain_defined_iff` | pe, qs |
| `Verif.Ranges.chain_single_branch_counterexample` | pe, qs |
| `Verif.Ranges.combineOverlap_covers` | pe, ch, qs |
| `Verif.Ranges.combineOverlap_separated` | pe, ch, qs |
| `Verif.Ranges.invert_covers` | pe, ch, qs |
| `Verif.Ranges.invert_invert_covers` | pe, ch, qs |
| `Verif.Ranges.elseRanges_sound_partial` | pe, ch, qs |
| `Verif.Ranges.elseRanges_exact_single` | pe, ch, qs |
| `Verif.Ranges.elseRanges_exact_counterexample` | pe, qs |
| `Verif.Ranges.combineNonOverlap_counterexample` | none |
| `Verif.Solve.solveFor_correct_partial` | pe, ch, qs |
| `Verif.Solve.solveFor_assign_partial` | pe, ch, qs |
| `Verif.Solve.attained_iff` | pe, ch, qs |
| `Verif.Solve.cosh_root_counterexample` | pe, ch, qs |
| `Verif.Solve.solveFor_self_counterexample` | pe, qs |
| `Verif.Solve.isSolvable_iff` | pe, ch, qs |
| `Verif.Solve.isSolvablePath_iff` | pe, ch, qs |
| `Verif.Solve.collectAddSub_value_partial` | pe, ch, qs |
| `Verif.Solve.collectVariable_value_partial` | pe, ch, qs |
| `Verif.Solve.collectAddSub_iff` | pe, ch, qs |
| `Verif.Solve.linear_iff` | pe, qs |
| `Verif.Solve.collect_counterexample` | pe, ch, qs |
| `Verif.Solve.solveFor_collect_counterexample` | pe, ch, qs |
| `Verif.Eval.evaluate_correct` | pe, ch, qs |
| `Verif.Eval.evaluate_cg_denotes` | pe, ch, qs |
| `Verif.Eval.wrong_size_rejected` | pe |
| `Verif.Eval.reentrant_rejected` | pe |
| `Verif.Eval.requests_independent` | pe |
| `Verif.Eval.unsupported_counterexample` | pe |
| `Verif.Subst.substitute_meaning` | pe, ch, qs |
| `Verif.Subst.substitute_correct_partial` | pe, ch, qs |
| `Verif.Subst.substitute_succeeds` | pe, ch, qs |
| `Verif.Subst.undo_restores` | pe, ch, qs |
| `Verif.Subst.appended_meaning` | pe, ch, qs |
| `Verif.Subst.undo_removed` | pe, ch, qs |
| `Verif.Subst.removeIndependent_iff` | pe, ch, qs |
| `Verif.Subst.removeIndependent_refuses` | pe, qs |
| `Verif.Subst.substitute_self_counterexample` | pe, ch, qs |
| `Verif.Sparsity.addMatrix_spec` | pe, qs |
| `Verif.Sparsity.addTrans_spec` | pe, qs |
| `Verif.Sparsity.transpose_correct` | pe, qs |
| `Verif.Sparsity.mult_spec` | pe, qs |
| `Verif.Sparsity.multTrans_spec` | pe, qs |
| `Verif.Sparsity.multT_spec` | pe, qs |
| `Verif.Sparsity.multT_transposes` | pe, qs |
| `Verif.Sparsity.intersects_iff` | pe, qs |
| `Verif.Sparsity.addMatrix_assert_counterexample` | pe |
| `Verif.Sparsity.indexes_spec` | pe, qs |
| `Verif.Sparsity.generateSet_indexes` | pe, qs |
| `Verif.Sparsity.indexes_generateSet` | pe, qs |
| `Verif.Sparsity.indexesBool_spec` | pe, ch, qs |
| `Verif.Dae.augmentPath_correct` | pe, ch, qs |
| `Verif.Dae.augmentPath_iff` | pe, ch, qs |
| `Verif.Dae.augmentPathA_correct` | pe, ch, qs |
| `Verif.Dae.augmentPathA_iff` | pe, ch, qs |
| `Verif.Dae.pantelides_correct_partial` | pe, ch, qs |
| `Verif.Dae.derivative_equation` | pe, qs |
| `Verif.Dae.unassigned_counterexample` | pe, qs |
| `Verif.Dae.structuralIndex_correct_partial` | pe, ch, qs |
| `Verif.Dae.ode_index_counterexample` | pe, qs |
| `Verif.Pool.one_place` | pe, ch, qs |
| `Verif.Pool.at_most_once` | pe, ch, qs |
| `Verif.Pool.none_lost` | pe, ch, qs |
| `Verif.Pool.exactly_once_at_rest` | pe, ch, qs |
| `Verif.Pool.exactly_once_counterexample` | pe |
| `Verif.Pool.wait_waits` | pe, ch, qs |
| `Verif.Pool.activity_ends_partial` | pe, ch, qs |
| `Verif.Pool.rest_means_done_partial` | pe, ch, qs |
| `Verif.Pool.can_move_partial` | pe, ch, qs |
| `Verif.Pool.groups_stuck` | pe, ch, qs |
| `Verif.Pool.strategy_change_counterexample` | pe, qs |
| `Verif.Pool.two_waiters_counterexample` | pe |
| `Verif.Pool.guided_safe_partial` | pe, ch, qs |
| `Verif.Pool.guided_prefix` | pe, ch, qs |
| `Verif.Pool.guided_null_iff` | pe, ch, qs |
| `Verif.Pool.guided_null_counterexample` | pe, ch, qs |
| `Verif.Pool.guided_clock_counterexample` | pe, ch, qs |
| `Verif.Pool.guided_rounding_counterexample` | pe |
| `Verif.Pool.order_perm` | pe, ch, qs |
| `Verif.Pool.order_rank` | pe, ch, qs |
| `Verif.Pool.queue_descending_iff` | pe, ch, qs |
| `Verif.Pool.queue_order_counterexample` | pe, ch, qs |
| `Verif.Pool.order_unchanged` | pe, qs |
| `Verif.Pool.ref_min` | pe |
| `Verif.Pool.static_fresh` | pe, ch, qs |
| `Verif.Pool.static_reuse_partial` | pe, qs |
| `Verif.Pool.static_two_calls_partial` | pe, ch, qs |
| `Verif.Pool.static_reuse_counterexample` | pe |
| `Verif.Pool.static_times_counterexample` | pe |
| `Verif.Orders.setLess_strictWeak` | pe, ch, qs |
| `Verif.Orders.rowIterLess_strictWeak` | pe, ch, qs |
| `Verif.Orders.contribLess_strictWeak` | pe, ch, qs |
| `Verif.Orders.pairLess_strictWeak` | pe, ch, qs |
| `Verif.Orders.uniquePair_eq` | pe, ch, qs |
| `Verif.Orders.indepNodeLess_strictWeak` | pe, qs |
| `Verif.Orders.indexedIndepLess_strictWeak` | pe, ch, qs |
| `Verif.Orders.vnodeLess_strictWeak` | pe, qs |
| `Verif.Orders.varLess_strictWeak` | pe, ch, qs |
| `Verif.Orders.varLess_exact` | pe, ch, qs |
| `Verif.Orders.comparePair_threeWay` | pe |
| `Verif.Orders.pathNodeLess_partial` | pe |
| `Verif.Orders.pathNodeLess_counterexample` | none |
| `Verif.Orders.eqLess_partial` | pe, ch, qs |
| `Verif.Orders.eqLess_counterexample` | none |
| `Verif.Orders.comparePair_nan_counterexample` | pe |
| `Verif.Strings.pieces_total` | pe, ch, qs |
| `Verif.Strings.replaceString_spec` | pe, ch, qs |
| `Verif.Strings.replaceString_char` | pe, ch, qs |
| `Verif.Strings.replaceString_char_no_occurrence` | pe, ch, qs |
| `Verif.Strings.replaceString_no_occurrence_partial` | pe, ch, qs |
| `Verif.Strings.replaceString_empty_counterexample` | pe, ch, qs |
| `Verif.Strings.replaceString_leaves_counterexample` | pe, ch, qs |
| `Verif.Strings.explode_spec` | pe, ch, qs |
| `Verif.Strings.implode_spec` | pe |
| `Verif.Strings.implode_explode` | pe, ch, qs |
| `Verif.Strings.implode_explode_partial` | pe, ch, qs |
| `Verif.Strings.implode_explode_counterexample` | pe, ch, qs |
| `Verif.Strings.explode_empty_counterexample` | pe |
| `Verif.Strings.explode_implode` | pe, ch, qs |
| `Verif.Marks.marks_correct_partial` | pe, ch, qs |
| `Verif.Marks.visit_starts_clean` | pe, ch, qs |
| `Verif.Marks.reset_counterexample` | pe, qs |
| `Verif.Marks.overflow_counterexample` | pe, qs |
| `Verif.Paths.findPaths_sound` | pe, ch, qs |
| `Verif.Paths.findPaths_nonempty` | pe, ch, qs |
| `Verif.Paths.findPaths_complete_partial` | pe, ch, qs |
| `Verif.Paths.findPathGraph_exact` | pe, ch, qs |
| `Verif.Paths.no_bifurcation_unique` | pe, ch, qs |
| `Verif.Paths.findSingleBifurcation_correct` | pe, ch, qs |
| `Verif.Paths.missing_paths_counterexample` | pe, qs |
| `Verif.Paths.limit_exceeded_counterexample` | pe, qs |
| `Verif.Strings.printed_text_partial` | pe, ch, qs |
| `Verif.Strings.print_backslash_counterexample` | pe, ch, qs |
| `Verif.Strings.print_backslash_n_counterexample` | pe, ch, qs |
| `Verif.Strings.print_percent_counterexample` | pe, ch, qs |
| `Verif.Index.offset_sound` | pe, ch, qs |
| `Verif.Index.encapsulate_eval` | pe |
| `Verif.Index.offset_family` | pe, ch, qs |
| `Verif.Dae.pantelides_ends` | pe, ch, qs |
| `Verif.Dae.pantelides_regular` | pe, ch, qs |
| `Verif.Dae.algebraic_accepted` | pe, ch, qs |
| `Verif.Dae.algebraic_singular_endless` | pe, ch, qs |
| `Verif.Dae.nontermination_counterexample` | pe, ch, qs |
| `Verif.Dae.rejected_counterexample` | pe, qs |
| `Verif.Dae.rejected_small_counterexample` | pe, qs |
| `Verif.Arrays.printed_arrays_correct_partial` | pe, ch, qs |
| `Verif.Arrays.clobber_counterexample` | pe, ch, qs |
| `Verif.Arrays.loop_precision_counterexample` | pe, ch, qs |
| `Verif.Deriv.sparse_jacobian_partial` | pe, ch, qs |
| `Verif.Deriv.sparse_jacobian_atomics_partial` | pe, ch, qs |
| `Verif.Deriv.sparse_jacobian_threads_partial` | pe, ch, qs |
| `Verif.Deriv.sparse_hessian_partial` | pe, ch, qs |
| `Verif.Deriv.sparse_hessian_threads_partial` | pe, ch, qs |
| `Verif.Deriv.repeated_element_counterexample` | pe |
| `Verif.Deriv.repeated_element_zero_counterexample` | pe |
| `Verif.Deriv.hessian_threads_weights_counterexample` | pe |
| `Verif.Deriv.hessian_threads_bounds_counterexample` | pe |
| `Verif.Deriv.hessian_symmetric_pair_counterexample` | pe |
| `Verif.Deriv.forward_one_partial` | pe, ch, qs |
| `Verif.Deriv.reverse_one_partial` | pe, ch, qs |
| `Verif.Deriv.reverse_two_partial` | pe, ch, qs |
| `Verif.Deriv.reverse_two_rejects` | pe, qs |
| `Verif.Deriv.sparse_forward_one_partial` | pe, ch, qs |
| `Verif.Deriv.sparse_reverse_one_partial` | pe, ch, qs |
| `Verif.Deriv.sparse_reverse_two_partial` | pe, ch, qs |
| `Verif.Deriv.sparse_forward_one_counterexample` | pe |
| `Verif.Deriv.forward_one_repeated_counterexample` | pe |
| `Verif.Deriv.sparse_forward_one_bounds_counterexample` | pe |
| `Verif.Deriv.sparsity_of_position` | pe, ch, qs |
| `Verif.Deriv.sparsity_table` | pe, ch, qs |
| `Verif.Deriv.sparsity_of_equation` | pe, qs |
| `Verif.Deriv.sparsity_table_counterexample` | none |
| `Verif.Deriv.coloring_correct` | pe, ch, qs |
| `Verif.Deriv.equation_patterns` | pe, ch, qs |
| `Verif.Deriv.hessian_elements` | pe, ch, qs |
| `Verif.Deriv.hessian_elements_custom` | pe, ch, qs |
| `Verif.Deriv.direct_hessian` | pe, ch, qs |
| `Verif.Deriv.direct_hessian_rejects` | pe, ch, qs |
| `Verif.Deriv.direct_hessian_pair_counterexample` | pe |
| `Verif.Deriv.dense_hessian` | pe, qs |
| `Verif.Atomic.forward_zero` | pe, qs |
| `Verif.Atomic.forward_one` | pe, ch, qs |
| `Verif.Atomic.reverse_zero` | pe, ch, qs |
| `Verif.Atomic.reverse_one_partial` | pe, ch, qs |
| `Verif.Atomic.user_forward_zero` | pe, qs |
| `Verif.Atomic.user_forward_one` | pe, ch, qs |
| `Verif.Atomic.user_reverse_zero` | pe, qs |
| `Verif.Atomic.user_reverse_one_partial` | pe, ch, qs |
| `Verif.Atomic.model_forward_zero` | pe, qs |
| `Verif.Atomic.model_forward_one` | pe, ch, qs |
| `Verif.Atomic.model_reverse_zero` | pe, ch, qs |
| `Verif.Atomic.model_reverse_one_partial` | pe, ch, qs |
| `Verif.Atomic.reverse_one_direction_zero` | pe, qs |
| `Verif.Atomic.forward_both_zero` | pe, qs |
| `Verif.Atomic.reverse_one_direction_counterexample` | pe |
| `Verif.Atomic.reverse_one_weights_counterexample` | pe |
| `Verif.Atomic.forward_zero_parameters_counterexample` | pe |
| `Verif.Atomic.user_results_counterexample` | pe, qs |
| `Verif.Atomic.model_forward_one_counterexample` | pe |
| `Verif.Atomic.forSparseJac_spec` | pe, ch, qs |
| `Verif.Atomic.revSparseJac_spec` | pe, ch, qs |
| `Verif.Atomic.revSparseHes_spec` | pe, ch, qs |
| `Verif.Atomic.custom_spec` | pe, qs |
| `Verif.Atomic.bridge_forJac_spec` | pe, qs |
| `Verif.Atomic.bridge_revJac_spec` | pe, qs |
| `Verif.Atomic.bridge_revHes_spec` | pe, ch, qs |
| `Verif.Atomic.bridge_uses` | pe, ch, qs |
| `Verif.Atomic.new_remembers` | pe, qs |
| `Verif.Atomic.custom_remembers` | pe, qs |
| `Verif.Atomic.forSparseJac_flags` | pe, ch, qs |
| `Verif.Atomic.revSparseJac_flags` | pe, ch, qs |
| `Verif.Atomic.revSparseHes_flags` | pe, ch, qs |
| `Verif.Atomic.revSparseHes_flags_counterexample` | pe, qs |
| `Verif.Atomic.triangle_counterexample` | pe |
| `Verif.Atomic.setHes_counterexample` | pe |
| `Verif.Atomic.scratch_partial` | pe, qs |
| `Verif.Atomic.scratch_overwritten_counterexample` | pe |
| `Verif.Atomic.scratch_freed_counterexample` | pe |
| `Verif.Patterns.patterns_are_shapes` | pe, ch, qs |
| `Verif.Patterns.constant_arguments` | pe, qs |
| `Verif.Patterns.iteration_of_reference` | pe, ch, qs |
| `Verif.Patterns.iteration_computes_dependent_partial` | pe, ch, qs |
| `Verif.Patterns.shared_operation_counterexample` | pe, qs |
| `Verif.Patterns.common_operation_counterexample` | pe, qs |
| `Verif.Patterns.swapped_operations_counterexample` | pe, qs |
| `Verif.Patterns.equal_constants_counterexample` | pe, qs |
| `Verif.Funcs.split_text` | pe |
| `Verif.Funcs.split_sizes` | pe, ch, qs |
| `Verif.Funcs.split_right_partial` | pe, ch, qs |
| `Verif.Funcs.local_arguments` | pe, ch, qs |
| `Verif.Funcs.split_calls_counterexample` | pe, qs |
| `Verif.Funcs.split_ifs_counterexample` | pe |
| `Verif.Funcs.split_indexed_counterexample` | pe |
| `Verif.Funcs.one_function_right` | pe, ch, qs |
| `Verif.Funcs.structs_declared` | pe, ch, qs |
| `Verif.Funcs.structs_not_declared` | none |
| `Verif.Funcs.kinds_counterexample` | pe |
| `Verif.Funcs.scope_counterexample` | pe |
| `Verif.Funcs.dense_array_shown` | pe, qs |
| `Verif.Loops.jacobian_right` | pe, ch, qs |
| `Verif.Loops.jacobian_refused_iff` | pe, ch, qs |
| `Verif.Loops.forward0_right` | pe, ch, qs |
| `Verif.Loops.contributions_right` | pe, ch, qs |
| `Verif.Loops.hessian_right_partial` | pe, ch, qs |
| `Verif.Loops.hessian_repeated` | pe, qs |
| `Verif.Loops.hessian_right_counterexample` | pe, ch, qs |
| `Verif.Loops.hessian_temporary_counterexample` | pe, ch, qs |
| `Verif.Loops.hessian_bounds_counterexample` | pe, qs |
| `Verif.Scopes.values_enclosed_partial` | pe, ch, qs |
| `Verif.Scopes.values_computed_partial` | pe, ch, qs |
| `Verif.Scopes.common_innermost` | pe, ch, qs |
| `Verif.Scopes.three_branches_counterexample` | pe, qs |
| `Verif.Scopes.moved_user_counterexample` | pe, qs |
| `Verif.Scopes.scopes_nested` | pe, ch, qs |
| `Verif.Scopes.Move.locate_ends` | pe, ch, qs |
| `Verif.Scopes.Move.moved_constant` | pe, ch, qs |
| `Verif.Scopes.Move.moved_used` | pe, ch, qs |
| `Verif.Scopes.Move.constants_moved` | pe, ch, qs |
| `Verif.Scopes.Move.moved_kinds` | pe, ch, qs |
| `Verif.Scopes.Move.tmp_in_loop` | pe, ch, qs |
| `Verif.Scopes.Move.values_same` | pe, ch, qs |
| `Verif.Scopes.Move.values_right` | pe, ch, qs |
| `Verif.Scopes.Move.depends_same` | pe, ch, qs |
| `Verif.Scopes.Move.new_assigned` | pe, ch, qs |
| `Verif.Scopes.Move.array_argument_counterexample` | pe, ch, qs |
| `Verif.Scopes.Move.tmp_moved_counterexample` | pe, qs |
| `Verif.Colors.elements_right` | pe, ch, qs |
| `Verif.Colors.rest_same` | pe, ch, qs |
| `Verif.Colors.sweeps_le` | pe, ch, qs |
| `Verif.Colors.again_same` | pe, ch, qs |
| `Verif.Colors.not_in_pattern_counterexample` | pe, ch, qs |
| `Verif.Colors.loop_elements_right` | pe, ch, qs |
| `Verif.Colors.coloring_same` | pe, ch, qs |
| `Verif.Colors.no_variables_counterexample` | pe, ch, qs |
| `Verif.Scopes.Order.order_right_partial` | pe, ch, qs |
| `Verif.Scopes.Order.marked_order_partial` | pe, ch, qs |
| `Verif.Scopes.Order.evaluated_twice_counterexample` | pe, qs |
| `Verif.Scopes.Join.joined_same_partial` | pe, ch, qs |
| `Verif.Scopes.Join.arguments_kept` | pe, qs |
| `Verif.Scopes.Join.marked_joined_partial` | pe, ch, qs |
| `Verif.Atomic.Locate.atomics_located` | pe, ch, qs |
| `Verif.Library.life_partial` | pe, ch, qs |
| `Verif.Library.life_without_moves` | pe, ch, qs |
| `Verif.Library.moved_library_counterexample` | pe, qs |
| `Verif.Library.moved_library_other_counterexample` | pe, qs |
| `Verif.Library.moved_model_counterexample` | pe, qs |
| `Verif.Library.moved_model_evaluated_counterexample` | pe, qs |
| `Verif.Library.moved_model_atomic_counterexample` | pe, qs |
| `Verif.Library.Names.source_generated_iff` | pe, ch, qs |
| `Verif.Library.Names.calls_reach_functions` | pe, ch, qs |
| `Verif.Library.Names.arrays_declared` | pe, ch, qs |
| `Verif.Library.Names.special_name_counterexample` | pe, qs |
| `Verif.Library.Names.same_name_counterexample` | pe |
| `Verif.Library.Call.after_any_calls` | pe |
| `Verif.Library.Call.values_right` | pe, ch, qs |
| `Verif.Library.Call.values_right_arrays` | pe, ch, qs |
| `Verif.Library.Call.variables_marked` | pe, ch, qs |
| `Verif.Library.Call.variables_not_marked` | pe, ch, qs |
| `Verif.Library.Call.jacobian_right` | pe, ch, qs |
| `Verif.Library.Call.hessian_right` | pe, ch, qs |
| `Verif.Library.Call.hessian_of_equation_partial` | pe, ch, qs |
| `Verif.Library.Call.sparse_jacobian_dense` | pe, ch, qs |
| `Verif.Library.Call.sparse_jacobian_view` | pe, ch, qs |
| `Verif.Library.Call.sparse_jacobian_arrays` | pe, ch, qs |
| `Verif.Library.Call.sparse_jacobian_vectors_partial` | pe, ch, qs |
| `Verif.Library.Call.sparse_hessian_dense` | pe, ch, qs |
| `Verif.Library.Call.sparse_hessian_view` | pe, ch, qs |
| `Verif.Library.Call.sparse_hessian_arrays` | pe, ch, qs |
| `Verif.Library.Call.sparse_hessian_vectors` | pe, ch, qs |
| `Verif.Library.Call.sparsity_right` | pe, qs |
| `Verif.Library.Call.sparsity_reported` | pe |
| `Verif.Library.Call.hessian_of_equation_counterexample` | pe |
| `Verif.Library.Call.sparse_jacobian_vectors_counterexample` | pe |
| `Verif.Library.Call.marks_kept_counterexample` | pe |
| `Verif.Formula.latex_one_reading` | pe |
| `Verif.Formula.mathml_one_reading` | pe |
| `Verif.Formula.latex_means_partial` | pe, qs |
| `Verif.Formula.mathml_means_partial` | pe, qs |
| `Verif.Formula.latex_enclosed_means_partial` | pe, qs |
| `Verif.Formula.mathml_enclosed_means_partial` | pe, qs |
| `Verif.Formula.negative_base_counterexample` | pe, qs |
| `Verif.Formula.power_of_power_counterexample` | pe, qs |
| `Verif.Formula.exponent_base_counterexample` | pe, qs |
| `Verif.Formula.alias_negative_counterexample` | pe, qs |
| `Verif.Dae.Dummy.run_defined` | pe, ch, qs |
| `Verif.Dae.Dummy.count_right` | pe, ch, qs |
| `Verif.Dae.Dummy.relations_kept_partial` | pe, ch, qs |
| `Verif.Dae.Dummy.selection_found` | pe, ch, qs |
| `Verif.Dae.Dummy.avoided_if_possible` | pe, qs |
| `Verif.Dae.Dummy.info_right` | pe, ch, qs |
| `Verif.Dae.Dummy.option_no_influence` | pe, ch, qs |
| `Verif.Dae.Dummy.option_counterexample` | pe, ch, qs |
| `Verif.Dae.Dummy.relations_counterexample` | pe, ch, qs |
| `Verif.Dae.Dummy.assertion_counterexample` | pe, ch, qs |
| `Verif.Dae.Reorder.reorder_defined` | pe, ch, qs |
| `Verif.Dae.Reorder.reorder_right` | pe, ch, qs |
| `Verif.Dae.Reorder.variable_order` | pe, ch, qs |
| `Verif.Dae.Reorder.equation_order` | pe, ch, qs |
| `Verif.Dae.Reorder.remove_undefined` | pe, qs |
| `Verif.Dae.Reorder.remove_right_partial` | pe, ch, qs |
| `Verif.Dae.Reorder.semi_defined` | pe, ch, qs |
| `Verif.Dae.Reorder.semi_right` | pe, ch, qs |
| `Verif.Dae.Reorder.model_right` | pe, qs |
| `Verif.Dae.Reorder.documented_order_counterexample` | pe, ch, qs |
| `Verif.Dae.Reorder.equation_derivatives_counterexample` | pe, ch, qs |
| `Verif.Dae.Reorder.remove_undefined_counterexample` | pe, qs |
| `Verif.Dae.Reorder.second_order_counterexample` | pe, qs |
| `Verif.Names.independent_place` | pe, ch, qs |
| `Verif.Names.own_names` | pe, ch, qs |
| `Verif.Names.dependent_place` | pe, ch, qs |
| `Verif.Names.temporary_place` | pe, ch, qs |
| `Verif.Names.names_differ` | pe, ch, qs |
| `Verif.Names.consecutive_right` | pe, qs |
| `Verif.Names.run_right` | pe, ch, qs |
| `Verif.Names.consecutive_complete` | pe, ch, qs |
| `Verif.Names.consecutive_defined_partial` | pe, qs |
| `Verif.Names.same_array_partial` | pe, ch, qs |
| `Verif.Names.same_array_own_names` | pe, qs |
| `Verif.Names.own_names_undefined_counterexample` | pe, ch, qs |
| `Verif.Names.same_array_counterexample` | pe, ch, qs |
| `Verif.Names.scalar_temporaries_counterexample` | pe, ch, qs |
| `Verif.Dae.Soares.soares_correct` | pe, ch, qs |
| `Verif.Dae.Soares.soares_regular` | pe, ch, qs |
| `Verif.Dae.Soares.soares_rejected_partial` | pe, ch, qs |
| `Verif.Dae.Soares.soares_corrected` | pe, ch, qs |
| `Verif.Dae.Soares.regular_rejected_counterexample` | pe, qs |
| `Verif.Dae.Elim.elimination_correct` | pe, ch, qs |
| `Verif.Dae.Elim.elimination_corrected` | pe, ch, qs |
| `Verif.Dae.Elim.substitution_kept_iff` | pe, ch, qs |
| `Verif.Dae.Elim.removed_edge_counterexample` | pe, ch, qs |
| `Verif.Dae.Elim.removed_edge_nonlinear_counterexample` | pe, qs |
| `Verif.Dae.Elim.stale_assignment_counterexample` | pe, qs |
| `Verif.Dae.Elim.semi_explicit_counterexample` | pe, qs |
| `Verif.Dae.Elim.marks_kept_counterexample` | pe, qs |
| `Verif.Dae.Remove.reduced_information_right_partial` | pe, ch, qs |
| `Verif.Dae.Remove.reduceIndex_right_partial` | pe, ch, qs |
| `Verif.Dae.Remove.unused_derivative_counterexample` | pe, qs |
| `Verif.Dae.Remove.dangling_assignment_counterexample` | pe, qs |
| `Verif.Dae.Tape.new_equations_right_partial` | pe, ch, qs |
| `Verif.Dae.Tape.new_equations_iterated_partial` | pe, ch, qs |
| `Verif.Dae.Tape.solutions_same_partial` | pe, ch, qs |
| `Verif.Dae.Tape.reduced_system_right_partial` | pe, ch, qs |
| `Verif.Dae.Tape.forward_same_as_reverse` | pe, ch, qs |
| `Verif.Dae.Tape.forward_asserts` | pe, ch, qs |
| `Verif.Dae.Tape.missing_derivative_counterexample` | pe, ch, qs |
| `Verif.Loops.For1.column_right_partial` | pe, ch, qs |
| `Verif.Loops.For1.column_with_free_partial` | pe, ch, qs |
| `Verif.Loops.For1.column_absent` | pe, ch, qs |
| `Verif.Loops.For1.forward_right_partial` | pe, ch, qs |
| `Verif.Loops.For1.sparse_right_partial` | pe, ch, qs |
| `Verif.Loops.For1.stale_counterexample` | pe, ch, qs |
| `Verif.Loops.For1.generation_counterexample` | pe, qs |
| `Verif.Loops.Rev1.row_right` | pe, ch, qs |
| `Verif.Loops.Rev1.row_sets` | pe, ch, qs |
| `Verif.Loops.Rev1.row_adds` | pe, ch, qs |
| `Verif.Loops.Rev1.row_absent` | pe, ch, qs |
| `Verif.Loops.Rev1.reverse_right` | pe, ch, qs |
| `Verif.Loops.Rev1.sparse_right_partial` | pe, ch, qs |
| `Verif.Loops.Rev1.stale_counterexample` | pe, ch, qs |
| `Verif.Loops.Rev2.row_right_partial` | pe, ch, qs |
| `Verif.Loops.Rev2.row_sets_partial` | pe, ch, qs |
| `Verif.Loops.Rev2.row_adds_partial` | pe, ch, qs |
| `Verif.Loops.Rev2.product_right_partial` | pe, ch, qs |
| `Verif.Loops.Rev2.missing_factor_counterexample` | pe, ch, qs |
| `Verif.Loops.Rev2.stale_counterexample` | pe, ch, qs |
| `Verif.Loops.Usage.matrix_right_partial` | pe, ch, qs |
| `Verif.Loops.Usage.element_position` | pe, ch, qs |
| `Verif.Loops.Usage.overflow_counterexample` | pe, ch, qs |
| `Verif.Loops.Usage.repeated_counterexample` | pe, ch, qs |
| `Verif.Loops.Deps.deps_right` | pe, ch, qs |
| `Verif.Loops.Deps.deps_defined_partial` | pe, qs |
| `Verif.Loops.Deps.parameter_counterexample` | pe |
| `Verif.Eval.Atomic.evaluate_right` | pe, ch, qs |
| `Verif.Eval.Atomic.evaluate_rejects` | pe, qs |
| `Verif.Eval.Known.known_right_partial` | pe, qs |
| `Verif.Eval.Known.cleared_right` | pe, qs |
| `Verif.Eval.Known.stale_counterexample` | pe, qs |
| `Verif.Eval.Known.order_counterexample` | pe, qs |
| `Verif.Eval.Known.failure_counterexample` | pe, qs |
| `Verif.Timer.timer_right` | pe, ch, qs |
| `Verif.Timer.running_right` | pe, ch, qs |
| `Verif.Timer.library_right_partial` | pe, ch, qs |
| `Verif.Timer.unfinished_counterexample` | pe, ch, qs |
| `Verif.Timer.exception_counterexample` | pe, ch, qs |
| `Verif.Library.Build.library_right_partial` | pe, ch, qs |
| `Verif.Library.Build.library_complete_partial` | pe, ch, qs |
| `Verif.Library.Build.temporary_right` | pe, ch, qs |
| `Verif.Library.Build.collision_counterexample` | pe, ch, qs |
| `Verif.Library.Build.static_members` | pe, ch, qs |
| `Verif.Library.Build.static_right_partial` | pe, ch, qs |
| `Verif.Library.Build.static_complete` | pe, ch, qs |
| `Verif.Library.Build.static_failed` | pe, ch, qs |
| `Verif.Library.Build.old_member_counterexample` | pe, ch, qs |
| `Verif.Library.Sources.library_fits` | pe, qs |
| `Verif.Library.Sources.pool_there_partial` | pe, qs |
| `Verif.Library.Sources.pool_asked_partial` | pe, qs |
| `Verif.Library.Sources.stale_model_counterexample` | pe, qs |
| `Verif.Library.Sources.other_library_counterexample` | pe, qs |
| `Verif.Library.Sources.stale_library_counterexample` | pe, qs |
| `Verif.Library.Save.saved_last` | pe, qs |
| `Verif.Library.Save.saved_right_partial` | pe, qs |
| `Verif.Library.Save.save_failed` | none |
| `Verif.Library.Save.closed_same` | pe, qs |
| `Verif.Library.Save.lost_counterexample` | pe |
| `Verif.Library.Save.replaced_counterexample` | pe |
| `Verif.Library.Build.disk_same_partial` | pe, ch, qs |
| `Verif.Library.Build.disk_library_partial` | pe, ch, qs |
| `Verif.Library.Build.disk_saved_partial` | pe, ch, qs |
| `Verif.Library.Build.disk_missing` | pe, ch, qs |
| `Verif.Library.Build.old_source_counterexample` | pe, ch, qs |
