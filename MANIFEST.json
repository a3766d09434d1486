{
 "claims": [
  {
   "property": "C01",
   "status": "proved",
   "theorems": [
    "MiniMip.SparseVector.C01_last_write_wins"
   ],
   "note": "exact arithmetic, indices non-negative"
  },
  {
   "property": "C02",
   "status": "proved",
   "theorems": [
    "MiniMip.SparseVector.C02_cleaning"
   ],
   "note": "all mutators, any history that does not reach undefined behaviour"
  },
  {
   "property": "C03",
   "status": "proved",
   "theorems": [
    "MiniMip.SparseVector.C03_addMultiple_pointwise",
    "MiniMip.SparseVector.C03_plus_minus_pointwise"
   ],
   "note": "exact arithmetic, distinct objects"
  },
  {
   "property": "C04",
   "status": "partial",
   "theorems": [
    "MiniMip.SparseVector.C04_self_addition_violated",
    "MiniMip.SparseVector.C04_self_addition_partial"
   ],
   "note": "the code violates the claim: in-place self-addition of a non-empty vector is undefined behaviour (proved); proved only for the empty vector and for the copying operators"
  },
  {
   "property": "C05",
   "status": "proved",
   "theorems": [
    "MiniMip.SparseVector.C05_dot_product",
    "MiniMip.SparseVector.C05_dot_product_symm",
    "MiniMip.SparseVector.C05_dot_product_linear"
   ],
   "note": "exact arithmetic"
  },
  {
   "property": "C06",
   "status": "proved",
   "theorems": [
    "MiniMip.SparseVector.C06_scaling",
    "MiniMip.SparseVector.C06_transform",
    "MiniMip.SparseVector.C06_ofDense",
    "MiniMip.SparseVector.C06_ofEntries"
   ],
   "note": "exact arithmetic"
  },
  {
   "property": "C07",
   "status": "proved",
   "theorems": [
    "MiniMip.SparseMatrix.C07_matrix_refines_table",
    "MiniMip.SparseMatrix.C07_row_col_agree"
   ],
   "note": "Refinement of every legal history to a plain table; data vectors are any vector satisfying the sparse-vector invariant."
  },
  {
   "property": "C08",
   "status": "partial",
   "theorems": [
    "MiniMip.Problem.C08_index_at_end_violated",
    "MiniMip.Problem.C08_nan_bound_violated",
    "MiniMip.Problem.C08_validation_partial"
   ],
   "note": "Validation accepts an index equal to the number of variables and NaN bounds or sides (witnesses). Proved: for problems without NaN and without that index, the check accepts exactly the well-formed problems."
  },
  {
   "property": "C09",
   "status": "proved",
   "theorems": [
    "MiniMip.C09_represents",
    "MiniMip.C09_same_optima"
   ],
   "note": "Construction succeeds and represents the problem; feasible and optimal points coincide. The order in which the hash set of integer variables is walked is a parameter."
  },
  {
   "property": "C10",
   "status": "partial",
   "theorems": [
    "MiniMip.C10_fractional_side_violated",
    "MiniMip.C10_integral_slack_partial"
   ],
   "note": "A row with integer coefficients on integer variables and a fractional side is marked (witness). Proved: integral activity, integral slack for integer sides, and the flag is set whenever all coefficients are integers on integer variables."
  },
  {
   "property": "C100",
   "status": "partial",
   "theorems": [
    "MiniMip.Program.C78_total_correctness",
    "MiniMip.Program.C100_negative_tolerance_violated",
    "MiniMip.Program.C100_large_tolerance_violated"
   ],
   "note": "Holds for tolerances that are not negative (no cuts, max-fractional rule: C78_total_correctness). A negative tolerance is accepted by Create, and then Solve cannot return: no point counts as integral. Violated also for tolerances of at least 1/2, with Glop and with SoPlex: the optimum of the LP relaxation is reported as optimal."
  },
  {
   "property": "C101",
   "status": "partial",
   "theorems": [
    "MiniMip.Input.C101_no_rounding",
    "MiniMip.Input.C101_not_finite_violated",
    "MiniMip.Input.C101_unread_violated"
   ],
   "note": "Proved: set-up in doubles gives the exact data, read by row or by column. Violated: infinite and NaN coefficients pass the validation, which reads neither the offset nor any objective or row coefficient."
  },
  {
   "property": "C102",
   "status": "partial",
   "theorems": [
    "MiniMip.Setup.C102_factories_partial",
    "MiniMip.Setup.C102_runner_violated"
   ],
   "note": "Proved for all messages of generators, selectors and branching rules and for messages of the runner whose first selector is described. Violated: a runner message without selector reads the first element of an empty list, one whose first selector is not described ends the process. Create itself never builds such a message."
  },
  {
   "property": "C103",
   "status": "partial",
   "theorems": [
    "MiniMip.Glop.C103_solves_the_stored_lp_partial",
    "MiniMip.Glop.C103_solves_the_described_lp_partial",
    "MiniMip.Glop.C103_same_interface",
    "MiniMip.Glop.C103_read_violated",
    "MiniMip.Glop.C103_strong_branching_violated",
    "MiniMip.Glop.C103_scaling_violated"
   ],
   "note": "Proved for every history without file reads: each solve hands over the LP stored, which is the LP the modifications describe; strong branching on a solved LP likewise; a modified LP is scaled as the parameter says. Violated: after ReadLpFromFile on a solved interface the old LP is solved; strong branching after a modification uses the LP of the last solve (out of range for a new column); a change of the scaling parameter alone has no effect on the next solve."
  },
  {
   "property": "C104",
   "status": "partial",
   "theorems": [
    "MiniMip.Solver.C104_ranged_ends",
    "MiniMip.Program.C104_ends_partial",
    "MiniMip.Program.C104_total_correctness",
    "MiniMip.Program.C104_soplex_total_correctness_partial",
    "MiniMip.Program.C104_unbounded_objective",
    "MiniMip.Program.C104_soplex_unbounded_objective_partial",
    "MiniMip.Program.C104_never_returns",
    "MiniMip.Program.C104_never_ends",
    "MiniMip.Program.C104_unbounded_violated"
   ],
   "note": "Solve ends within an explicit number of iterations and answers rightly if bounds and constraints keep the integer variables in a finite range (infinite bounds allowed), and returns the error in its first iteration if the objective is unbounded on the relaxation. Missing: problems with an optimum but no finite range; there Solve need not end, with Glop or SoPlex (C104_never_returns and C104_never_ends for a whole class, C104_unbounded_violated for a problem with three variables). SoPlex as in C78 for integral finite bounds; total correctness without cuts."
  },
  {
   "property": "C105",
   "status": "partial",
   "theorems": [
    "MiniMip.Program.C105_rounding_partial",
    "MiniMip.Program.C105_exact",
    "MiniMip.Program.C105_soplex_exact",
    "MiniMip.Program.C105_charge_violated"
   ],
   "note": "Holds for problems with integer variables only and integral numbers in which the tolerance times the sum of the sizes of the coefficients is below one for every constraint and for the objective, with Glop and with SoPlex (C105_exact, C105_soplex_exact). In general rounding a solution that Solve returned changes constraints and objective by at most the tolerance times those sums (C105_rounding_partial). Missing: other problems; on a fixed charge with a large coefficient Solve reports 0.9999998 for an optimum of 0 and rounding is infeasible (C105_charge_violated)."
  },
  {
   "property": "C106",
   "status": "partial",
   "theorems": [
    "MiniMip.Soplex.C106_no_exception_partial",
    "MiniMip.Soplex.C106_exception_violated"
   ],
   "note": "Without an exception the call is the one of C51 and C67 (C106_no_exception_partial). Violated with one: the call has no try block, so the exception leaves it; the column keeps the bound of the branch and the iteration limit stays that of the call, also after EndStrongBranching (C106_exception_violated)."
  },
  {
   "property": "C107",
   "status": "proved",
   "theorems": [
    "MiniMip.Program.C107_exponential"
   ],
   "note": "For every m a problem with 2m+2 binary variables and one constraint on which Solve needs between 2^(m+2) and 2^(2m+3) iterations, with both interfaces."
  },
  {
   "property": "C108",
   "status": "partial",
   "theorems": [
    "MiniMip.Program.C108_lost_where_stopped_partial",
    "MiniMip.Program.C108_stopped_violated",
    "MiniMip.Program.C108_root_stopped_violated"
   ],
   "note": "If the answer is wrong, or there is none, the LP code gives up on an LP that has the lost point (all parameters, cut generators and both interfaces). The full property fails: an LP that the LP code stopped in is closed as infeasible, so Solve says \"optimal\" with no solution on every problem with fractional relaxation if LPs below the root stop, and \"infeasible or unbounded\" on every problem if the root LP stops."
  },
  {
   "property": "C109",
   "status": "partial",
   "theorems": [
    "MiniMip.Program.C109_leaves_partial",
    "MiniMip.Program.C109_not_empty_violated"
   ],
   "note": "Proved for all problems, parameters, interfaces and LP code: the leaves left are one per solution and show its objective value, the queue is empty, and TreeIsEmpty() holds iff there is no solution. The full property fails: nodes with integral LP optima are never closed, so TreeIsEmpty() is false after Solve on every feasible problem."
  },
  {
   "property": "C11",
   "status": "proved",
   "theorems": [
    "MiniMip.C11_solution_is_integral",
    "MiniMip.C11_continuous_irrelevant"
   ],
   "note": ""
  },
  {
   "property": "C110",
   "status": "partial",
   "theorems": [
    "MiniMip.Program.C110_exact_partial",
    "MiniMip.Program.C110_rounded_partial",
    "MiniMip.Program.C110_tightened_violated",
    "MiniMip.Program.C110_cut_rounds_violated"
   ],
   "note": "Proved with tolerance 0 (cuts off, or any cuts for non-negative integer variables and integral sides), and for problems with integral numbers after rounding, across all parameters, interfaces, branching rules and right LP code. The full property fails at the default tolerance: tightening y <= 10^7 x to y <= x changes no feasible point, but the reported optimum from above 0.999 to 0; and at tolerance 0 if cuts are added to a problem with a fractional side."
  },
  {
   "property": "C111",
   "status": "partial",
   "theorems": [
    "MiniMip.Program.C111_status_partial",
    "MiniMip.Program.C111_not_set_violated",
    "MiniMip.Program.C111_infeasible_violated"
   ],
   "note": "Proved for all problems, parameters, cuts and LP code: after OK the status is kOptimal and the error message is empty. Violated: the stopping reason and both bounds are never set, after an error neither is the status, and the message stays empty (C111_not_set_violated); on no infeasible problem with bounded integer variables is the status kInfeasible or kInfeasibleOrUnbounded: it is kOptimal without a solution, or not set (C111_infeasible_violated)."
  },
  {
   "property": "C112",
   "status": "partial",
   "theorems": [
    "MiniMip.Program.C112_few_open_partial",
    "MiniMip.Program.C112_many_open_violated"
   ],
   "note": "Holds when backtrack_limit is 0 or less (queue at most pathBound + 1). Violated for limits of 1 or more, the default 2 included: siblings are taken from the front of the queue in the order of their creation, and on a family of problems with one constraint the queue grows to (2m choose m) >= 2^m nodes although no path is longer than 2m+2."
  },
  {
   "property": "C113",
   "status": "partial",
   "theorems": [
    "MiniMip.Solver.C113_only_node_partial",
    "MiniMip.Solver.C113_one_leaves_sibling_violated",
    "MiniMip.Solver.C113_zero_takes_sibling_violated"
   ],
   "note": "Holds when no other node is open. Otherwise the two meanings are swapped: with a limit of 1 or more the sibling is left in the queue and a node opened before is explored, with a limit of 0 or less the sibling is explored."
  },
  {
   "property": "C114",
   "status": "partial",
   "theorems": [
    "MiniMip.Program.C114_unbounded",
    "MiniMip.Program.C114_unbounded_any_cuts",
    "MiniMip.Program.C114_unbounded_doubles",
    "MiniMip.Program.C114_error_partial",
    "MiniMip.Program.C114_total_partial",
    "MiniMip.Program.C114_soplex_total_partial",
    "MiniMip.Program.C114_with_cuts_partial",
    "MiniMip.Program.C114_one_round_total_partial",
    "MiniMip.Program.C114_one_round_integral_total_partial",
    "MiniMip.Program.C114_soplex_one_round_total_partial",
    "MiniMip.Program.C114_soplex_one_round_integral_total_partial",
    "MiniMip.Program.C114_approximate_error_partial",
    "MiniMip.Program.C114_approximate_with_cuts_partial",
    "MiniMip.Program.C114_approximate_total_partial",
    "MiniMip.Program.C114_approximate_soplex_total_partial",
    "MiniMip.Program.C114_fractional_side_violated",
    "MiniMip.Program.C92_infeasible_violated",
    "MiniMip.Program.C114_ok_partial"
   ],
   "note": "Unbounded problems: all parameters, with cuts (exact, in doubles or of the user), for LP code that never calls an unbounded LP optimal. The meaning of the error: without cuts; with cuts if sides are integral and integer variables non-negative (exact arithmetic, tolerance 0), and total correctness with one round of cuts; also for LP code with tolerances; with one round of cuts it fails in exact arithmetic if a constraint has a fractional side, and with the default parameters in doubles on integral data (C92_infeasible_violated)."
  },
  {
   "property": "C115",
   "status": "proved",
   "theorems": [
    "MiniMip.Program.C115_same_run",
    "MiniMip.Program.C115_soplex_names"
   ],
   "note": "Two-run statement about the model of Create and Solve, with equality of final states. SoPlex never sees names; Glop stores them in the LP, so with Glop they must be equal."
  },
  {
   "property": "C116",
   "status": "partial",
   "theorems": [
    "MiniMip.Program.C116_determined_partial",
    "MiniMip.Program.C116_cuts_off_partial",
    "MiniMip.Program.C116_no_root_cuts_violated"
   ],
   "note": "Proved: a run depends on the LP parameters, integrality tolerance, backtrack limit, rule and direction, the generators in cut_runner, max_iterations, the sign of the limit per node and whether the total limit is 0, and on nothing else; max_iterations, the limit per node and the total limit turn cuts off. Violated: parameters that, as documented, forbid every cut at the root change nothing."
  },
  {
   "property": "C117",
   "status": "partial",
   "theorems": [
    "MiniMip.Program.C117_branched_partial",
    "MiniMip.Solver.C117_search_is_blind",
    "MiniMip.Program.C117_worse_node_branched_violated"
   ],
   "note": "Only nodes with an optimal LP and a fractional solution are branched on. But the best solution found is never read: the search is the same whatever has been found, and on a concrete problem with two binary variables Solve branches on a node all of whose points are worse than the optimal solution it already holds."
  },
  {
   "property": "C118",
   "status": "proved",
   "theorems": [
    "MiniMip.Program.C118_counts",
    "MiniMip.Program.C118_modest_plugins",
    "MiniMip.Program.C118_default_parameters",
    "MiniMip.Program.C118_in_advance"
   ],
   "note": "Exact counts for every number of iterations, for the exact model, for the cut code in doubles and for any plug-ins that leave the LP alone; an LP solve that reports an error is not counted (the run ends with it)."
  },
  {
   "property": "C119",
   "status": "proved",
   "theorems": [
    "MiniMip.Program.C119_behaved_plugins",
    "MiniMip.Program.C119_without_cuts",
    "MiniMip.Program.C119_solutions"
   ],
   "note": "Plug-ins as arbitrary functions of the model (customSolve). With the generators of the code and default parameters undefined behaviour is reachable even with right answers (C77_second_round_violated), and with a negative tolerance too (C100)."
  },
  {
   "property": "C12",
   "status": "proved",
   "theorems": [
    "MiniMip.SolveResult.C12_incumbent",
    "MiniMip.SolveResult.C12_no_solution"
   ],
   "note": ""
  },
  {
   "property": "C120",
   "status": "partial",
   "theorems": [
    "MiniMip.Setup.C120_data",
    "MiniMip.Setup.C120_create",
    "MiniMip.Setup.C120_unsorted_violated",
    "MiniMip.Program.C120_refines",
    "MiniMip.Program.C120_no_cuts_partial",
    "MiniMip.Program.C120_soplex_no_cuts_partial",
    "MiniMip.Generator.C120_strong_cg",
    "MiniMip.Generator.C120_cut_data",
    "MiniMip.Generator.C120_generator_partial",
    "MiniMip.Generator.C120_zero_objective_violated",
    "MiniMip.Program.C120_strong_cg_violated"
   ],
   "note": "Violated: a valid problem whose row names its variables in another order aborts the debug build in Create; strong CG rounding asserts on a tableau row with an integral right-hand side, so that the debug build aborts with the default parameters on a plain integral problem that the release build can solve; the constructor of CutData asserts if there is no objective. Proved: for all inputs the debug build aborts or does what the release build does; Create aborts exactly for rows that are not sorted; with Glop, without cuts, sorted rows and proper bounds no assertion fails; with SoPlex, without cuts, it does what the release build does for any answers below SoPlex's infinity (crossing bounds abort both); exactly when strong CG rounding and the CutData constructor assert; the generator asserts on nothing else."
  },
  {
   "property": "C121",
   "status": "partial",
   "theorems": [
    "MiniMip.Glop.C121_set_parameters",
    "MiniMip.Glop.C121_parameters",
    "MiniMip.Glop.C121_solve_partial",
    "MiniMip.Glop.C121_solve_violated",
    "MiniMip.Glop.C121_iteration_limit_partial",
    "MiniMip.Glop.C121_strong_branch_violated",
    "MiniMip.Glop.C121_failed_solve_violated"
   ],
   "note": "SetLpParameters never reaches its LOG(DFATAL) and GetLpParameters never asserts. A solve asserts exactly if its first call ends at a feasible point that is not optimal and scaling is on. The queries of the iteration limit and of stability do not assert as long as solves succeed and there is no strong branching; they assert after a failed solve and after strong branching."
  },
  {
   "property": "C122",
   "status": "partial",
   "theorems": [
    "MiniMip.Glop.C122_populate",
    "MiniMip.Glop.C122_add_row",
    "MiniMip.Soplex.C122_populate_partial",
    "MiniMip.Soplex.C122_coefficient_violated",
    "MiniMip.Soplex.C122_add_row"
   ],
   "note": "Proved for Glop, for every well-formed problem; for SoPlex exactly when every coefficient is below INFTY, and violated by coefficients from there on, which validation accepts. The conditions for AddRow are exact."
  },
  {
   "property": "C123",
   "status": "proved",
   "theorems": [
    "MiniMip.SparseMatrix.C123_histories",
    "MiniMip.SparseMatrix.C123_next_call"
   ],
   "note": "All histories; the condition for an abort is exact."
  },
  {
   "property": "C124",
   "status": "partial",
   "theorems": [
    "MiniMip.Ieee.C124_cut_partial",
    "MiniMip.Ieee.C124_parallel_violated",
    "MiniMip.Ieee.C124_tiny_violated"
   ],
   "note": "Holds for rows and objectives whose lengths are not extreme if the row is not parallel to the objective and the point violates the cut, both by more than the rounding errors (C124_cut_partial). Fails for a parallel row whose computed parallelism is 1 + 2^-52 (C124_parallel_violated) and for a row whose squared length underflows (C124_tiny_violated)."
  },
  {
   "property": "C125",
   "status": "partial",
   "theorems": [
    "MiniMip.AVector.C125_next_call_partial",
    "MiniMip.AVector.C125_clean_first_partial",
    "MiniMip.AVector.C125_constructor",
    "MiniMip.AVector.C125_underflow_violated"
   ],
   "note": "The next call and whole histories, for exact and double arithmetic, as long as no product or quotient of a non-zero entry underflows to zero in operator*= and operator/= (C125_next_call_partial, C125_clean_first_partial); the constructor without restriction (C125_constructor). Underflow leaves an unmarked zero, and the next call of entries or CleanUpIfNeeded aborts (C125_underflow_violated)."
  },
  {
   "property": "C126",
   "status": "partial",
   "theorems": [
    "MiniMip.Glop.C126_history",
    "MiniMip.Glop.C126_sparse_getters",
    "MiniMip.Glop.C126_write_back_partial",
    "MiniMip.Glop.C126_write_back_violated"
   ],
   "note": "The exact condition for histories of calls (C126_history), and copying columns and rows after them (C126_sparse_getters), hold without restriction. Writing back works if the bounds are not the wrong infinity and the sides are ordered (C126_write_back_partial); AddRow and AddColumn accept sides and bounds that SetRowSides and SetColumnBounds refuse (C126_write_back_violated). Assertions inside Glop are not modelled."
  },
  {
   "property": "C127",
   "status": "partial",
   "theorems": [
    "MiniMip.Soplex.C127_history_partial",
    "MiniMip.Soplex.C127_getters",
    "MiniMip.Soplex.C127_sparse_getters_partial",
    "MiniMip.Soplex.C127_delete_row_set_violated",
    "MiniMip.Soplex.C127_objective_violated",
    "MiniMip.Soplex.C127_infinite_row_violated"
   ],
   "note": "The exact condition for histories in which DeleteRowSet gets a mask of the number of rows and SetObjectiveCoefficient a column of the LP (C127_history_partial); the getters (C127_getters) and the copies of columns and rows, where a row may need cleaning (C127_sparse_getters_partial). DeleteRowSet and SetObjectiveCoefficient have no assertion on their positions and are undefined beyond them (C127_delete_row_set_violated, C127_objective_violated); AddRows accepts values that are infinite for SoPlex (C127_infinite_row_violated). Assertions inside SoPlex are not modelled."
  },
  {
   "property": "C128",
   "status": "partial",
   "theorems": [
    "MiniMip.CutRegistry.C128_history",
    "MiniMip.CutRegistry.C128_active_cuts_partial",
    "MiniMip.CutRegistry.C128_double_activation_violated",
    "MiniMip.CutRegistry.C128_aliased_violated"
   ],
   "note": "Proved for all histories: no assertion fails exactly if all indices are those of stored cuts and vectors in updates are clean. Reading the active cuts is proved for histories that activate no active cut; violated for double activation and for removal through a reference into the active list."
  },
  {
   "property": "C129",
   "status": "partial",
   "theorems": [
    "MiniMip.Soplex.C129_call",
    "MiniMip.Soplex.C129_session_partial",
    "MiniMip.Soplex.C129_fractional_bound_violated",
    "MiniMip.Soplex.C129_column_violated",
    "MiniMip.Soplex.C129_add_row_violated"
   ],
   "note": "Proved: one call raises an assertion exactly if a problem it solves has crossing bounds, and sessions on columns with integral or infinite bounds raise none. Violated for fractional bounds, columns out of range and rows added during a session."
  },
  {
   "property": "C13",
   "status": "proved",
   "theorems": [
    "MiniMip.MipTree.C13_calls_succeed",
    "MiniMip.MipTree.C13_node_reads_record",
    "MiniMip.MipTree.C13_identity_stable",
    "MiniMip.MipTree.C13_added_node",
    "MiniMip.MipTree.C13_misuse_aborts"
   ],
   "note": "All executions of legal calls; misuse aborts."
  },
  {
   "property": "C130",
   "status": "partial",
   "theorems": [
    "MiniMip.Soplex.C130_set_parameters",
    "MiniMip.Soplex.C130_solve",
    "MiniMip.Soplex.C130_history_partial",
    "MiniMip.Soplex.C130_nan_time_limit_violated"
   ],
   "note": "Proved: SetLpParameters never raises an assertion; the exact condition for a solve; histories without a NaN time limit raise none. Violated by a message whose time limit is NaN."
  },
  {
   "property": "C131",
   "status": "partial",
   "theorems": [
    "MiniMip.Soplex.C131_answers",
    "MiniMip.Soplex.C131_assertions_partial",
    "MiniMip.Soplex.C131_row_times_matrix_violated",
    "MiniMip.Soplex.C131_no_such_column",
    "MiniMip.Glop.C131_answers",
    "MiniMip.Glop.C131_argument_violated",
    "MiniMip.Glop.C131_positions"
   ],
   "note": "Proved: for indices that exist no assertion fails, in both interfaces, and the result is that without assertions; with SoPlex every other index and every call during strong branching raises an assertion, except in GetSparseRowOfBInvertedTimesA. Violated: GetSparseRowOfBInvertedTimesA of SoPlex and all four getters of Glop have no assertion on their argument."
  },
  {
   "property": "C132",
   "status": "partial",
   "theorems": [
    "MiniMip.Glop.C132_history_partial",
    "MiniMip.Glop.C132_stale_violated",
    "MiniMip.Glop.C132_read_violated",
    "MiniMip.Soplex.C132_unchecked_violated"
   ],
   "note": "Proved for Glop: while IsSolved() the getters assert exactly as documented and return an element per column or row. Violated: after AddColumn IsOptimal() still holds and GetPrimalValues returns the value of a slack for the new column, or reads outside; after reading a file even IsSolved() holds and it reads outside; two getters of SoPlex have no check."
  },
  {
   "property": "C133",
   "status": "partial",
   "theorems": [
    "MiniMip.MipTree.C133_node",
    "MiniMip.MipTree.C133_bounds_partial",
    "MiniMip.MipTree.C133_invalid_column_violated",
    "MiniMip.MipTree.C133_open_children_violated"
   ],
   "note": "Exact outcome of every query; violated for columns that do not exist (RetrieveUpperBounds lacks the guard of RetrieveLowerBounds) and by num_open_children, which has no check."
  },
  {
   "property": "C134",
   "status": "partial",
   "theorems": [
    "MiniMip.Program.C134_tightened",
    "MiniMip.Program.C134_exact_partial",
    "MiniMip.Program.C134_rounded_partial",
    "MiniMip.Program.C134_added_constraint_violated",
    "MiniMip.Program.C134_lowered_side_violated"
   ],
   "note": "Proved with tolerance 0 for the restricted problem and any tolerance for the other (cuts off, or any cuts for non-negative integer variables and integral sides), and for problems with integral numbers after rounding. The full property fails without cuts at every tolerance in (0, 1/4], in particular the default: adding a constraint raises the reported maximum from 0 to 1. It also fails with cuts at tolerance 0: lowering the fractional side of a constraint raises the reported maximum."
  },
  {
   "property": "C135",
   "status": "partial",
   "theorems": [
    "MiniMip.Program.C135_fixed",
    "MiniMip.Program.C135_cutoff",
    "MiniMip.Program.C135_exact_partial",
    "MiniMip.Program.C135_rounded_partial",
    "MiniMip.Program.C135_added_constraint_violated"
   ],
   "note": "Proved with tolerance 0 for the restricted problem and any tolerance for the other (cuts off, or any cuts for non-negative integer variables and integral sides), and for problems with integral numbers after rounding; fixing a variable at its value and requiring an objective value as good as the reported one are such restrictions (C135_fixed, C135_cutoff). The full property fails without cuts at every tolerance in (0, 1/4], in particular the default: a constraint that the returned solution satisfies raises the reported maximum from 0 to 1."
  },
  {
   "property": "C136",
   "status": "partial",
   "theorems": [
    "MiniMip.Program.C136_halves",
    "MiniMip.Program.C136_exact_partial",
    "MiniMip.Program.C136_rounded_partial",
    "MiniMip.Program.C136_tolerance_violated"
   ],
   "note": "Proved with tolerance 0 (with harmless cuts) and, after rounding, for integral problems the tolerance does not blur (without cuts); that the halves partition the feasible points is proved in full. Fails at every tolerance in (0, 1/4]: a problem is reported as better than both of its halves."
  },
  {
   "property": "C137",
   "status": "partial",
   "theorems": [
    "MiniMip.Program.C137_coefficients",
    "MiniMip.Program.C137_exact_partial",
    "MiniMip.Program.C137_rounded_partial",
    "MiniMip.Program.C137_tolerance_violated"
   ],
   "note": "Proved with tolerance 0 (with harmless cuts) and, after rounding, for integral problems the tolerance does not blur (without cuts); the effect of added coefficients on the objective and the feasible points is proved in full. Fails at every tolerance in (0, 1/4]: a change that is 0 on all feasible points changes the reported maximum from 1 to 0."
  },
  {
   "property": "C14",
   "status": "proved",
   "theorems": [
    "MiniMip.MipTree.C14_close_exact",
    "MiniMip.MipTree.C14_close_leaf_inner",
    "MiniMip.MipTree.C14_open_children_and_empty"
   ],
   "note": "Closing the root itself is excluded (see C15)."
  },
  {
   "property": "C15",
   "status": "partial",
   "theorems": [
    "MiniMip.MipTree.C15_close_root_violated",
    "MiniMip.MipTree.C15_close_root_never_returns",
    "MiniMip.MipTree.C15_close_last_leaf_partial"
   ],
   "note": "The property is false: closing the root reads the children counter of node -1 (mip_tree.cc:73-74). Proved: the counterexample, that closing the live root never returns in any execution, and that the tree is emptied by closing its last leaf below the root."
  },
  {
   "property": "C16",
   "status": "partial",
   "theorems": [
    "MiniMip.MipTree.C16_counters_violated",
    "MiniMip.MipTree.C16_counters_partial"
   ],
   "note": "The property is false: num_closed_nodes counts reclaimed nodes and num_added_nodes counts slots. Proved: counterexamples, and what the counters do count in every execution."
  },
  {
   "property": "C17",
   "status": "proved",
   "theorems": [
    "MiniMip.MipTree.C17_retrieved_bounds",
    "MiniMip.MipTree.C17_retrieved_column"
   ],
   "note": "NaN implied bounds and branching values excluded by hypothesis."
  },
  {
   "property": "C18",
   "status": "proved",
   "theorems": [
    "MiniMip.MipTree.C18_children"
   ],
   "note": "Arithmetic and on the bounds the tree retrieves for the two children."
  },
  {
   "property": "C19",
   "status": "proved",
   "theorems": [
    "MiniMip.CutRegistry.C19_index_is_position",
    "MiniMip.CutRegistry.C19_addCut_returns_position"
   ],
   "note": "Arguments of RemoveCut that are references into the active list are treated under C20."
  },
  {
   "property": "C20",
   "status": "partial",
   "theorems": [
    "MiniMip.CutRegistry.C20_active_set_violated",
    "MiniMip.CutRegistry.C20_aliased_argument_violated",
    "MiniMip.CutRegistry.C20_aliased_last_undefined",
    "MiniMip.CutRegistry.C20_active_flag_violated",
    "MiniMip.CutRegistry.C20_active_set_partial"
   ],
   "note": "False for repeated activation and for RemoveCut(active_cuts()[k]) (counterexamples proved); proved for histories without either. The is_active() flag is never set."
  },
  {
   "property": "C21",
   "status": "partial",
   "theorems": [
    "MiniMip.HybridSelector.C21_selection_partial",
    "MiniMip.HybridSelector.C21_selection_succeeds",
    "MiniMip.HybridSelector.C21_zero_objective",
    "MiniMip.HybridSelector.C21_zero_objective_violated"
   ],
   "note": "Proved for cuts whose statistics are numbers; a zero objective makes every parallelism and so every score NaN, and then threshold and order are ignored"
  },
  {
   "property": "C22",
   "status": "partial",
   "theorems": [
    "MiniMip.HybridSelector.C22_zero_limit_violated",
    "MiniMip.HybridSelector.C22_max_num_cuts_partial"
   ],
   "note": "Limit 0 does not turn the selector off (witness). Positive limits are respected and negative ones are no limit."
  },
  {
   "property": "C23",
   "status": "partial",
   "theorems": [
    "MiniMip.HybridSelector.C23_forced_below_threshold_violated",
    "MiniMip.HybridSelector.C23_forced_selected_partial"
   ],
   "note": "A forced cut below the score threshold is dropped (witness). Proved for forced cuts at or above the threshold."
  },
  {
   "property": "C24",
   "status": "partial",
   "theorems": [
    "MiniMip.Runner.C24_cut_limits_violated",
    "MiniMip.Runner.C24_terminates_partial",
    "MiniMip.Runner.C24_rounds_partial",
    "MiniMip.Runner.C24_zero_limits_partial"
   ],
   "note": "The limits on the number of cuts are not respected (witness: 200 cuts with all limits 1). Proved for all plug-in behaviours: termination, number of rounds over any sequence of calls, zero limits."
  },
  {
   "property": "C25",
   "status": "proved",
   "theorems": [
    "MiniMip.Runner.C25_registry_and_lp",
    "MiniMip.Runner.C25_one_call"
   ],
   "note": ""
  },
  {
   "property": "C26",
   "status": "proved",
   "theorems": [
    "MiniMip.Generator.C26_aggregation",
    "MiniMip.Generator.C26_coefficients",
    "MiniMip.Generator.C26_succeeds"
   ],
   "note": "The aggregated row with its slacks holds as an equation at every point; coefficients are the weighted sums; the call succeeds on consistent data."
  },
  {
   "property": "C27",
   "status": "proved",
   "theorems": [
    "MiniMip.Generator.C27_transformation",
    "MiniMip.Generator.C27_fails_iff_free"
   ],
   "note": "Change to non-negative variables and back preserves the row at every point, shifted variables are non-negative, failure exactly for free variables."
  },
  {
   "property": "C28",
   "status": "proved",
   "theorems": [
    "MiniMip.Generator.C28_slack_substitution"
   ],
   "note": "Slack substitution yields an equivalent row without slacks."
  },
  {
   "property": "C29",
   "status": "partial",
   "theorems": [
    "MiniMip.Generator.C29_mir_partial",
    "MiniMip.Generator.C29_C30_generated_cuts_partial",
    "MiniMip.Generator.C29_C30_C33_problem_partial",
    "MiniMip.Generator.C29_C30_fractional_side_violated",
    "MiniMip.Generator.C29_fractional_bound_violated",
    "MiniMip.Generator.C29_tolerance_violated"
   ],
   "note": "Valid for problems whose integer variables have integral bounds, whose integral rows have integral sides, when the tolerance only relaxes. The code violates the claim otherwise, three witnesses."
  },
  {
   "property": "C30",
   "status": "partial",
   "theorems": [
    "MiniMip.Generator.C30_strong_cg_partial",
    "MiniMip.Generator.C29_C30_generated_cuts_partial",
    "MiniMip.Generator.C29_C30_C33_problem_partial",
    "MiniMip.Generator.C29_C30_fractional_side_violated"
   ],
   "note": "As C29."
  },
  {
   "property": "C31",
   "status": "proved",
   "theorems": [
    "MiniMip.Generator.C31_cuts_off_lp_optimum",
    "MiniMip.Generator.C31_needs_optimum"
   ],
   "note": "Every returned cut is violated by the LP optimum, has a clean row, and carries the efficacy of exactly this row. Called without a solved LP at its optimum the generator returns an error status."
  },
  {
   "property": "C32",
   "status": "partial",
   "theorems": [
    "MiniMip.Generator.C32_max_num_cuts_partial",
    "MiniMip.Generator.C32_max_num_cuts_violated"
   ],
   "note": "None for 0, fewer than the limit plus the number of rounders, exact limit with one rounder, negative limit ends the process. With two rounders the limit can be exceeded by one (witness)."
  },
  {
   "property": "C33",
   "status": "partial",
   "theorems": [
    "MiniMip.Generator.C33_global_validity_partial",
    "MiniMip.Generator.C33_nonnegative_partial",
    "MiniMip.Generator.C29_C30_C33_problem_partial",
    "MiniMip.Generator.C33_local_bounds_violated"
   ],
   "note": "Cuts generated while a point is within the current bounds stay valid for it in every later LP. Cuts generated anywhere are valid everywhere if the integer variables are non-negative. Otherwise cuts that use branching bounds cut off points of other subtrees (witness)."
  },
  {
   "property": "C34",
   "status": "partial",
   "theorems": [
    "MiniMip.Generator.C34_in_range_partial",
    "MiniMip.Generator.C34_cut_row_violated",
    "MiniMip.Generator.C34_exactly_partial"
   ],
   "note": "In range, and the whole call succeeds, as long as the LP has no more rows than MipData. With a cut row in the LP the lookup is out of range (witness). C34_exactly_partial: with cut rows it is the case exactly when a tableau row that is looked at combines one (MIR on, no free column, limit not reached)."
  },
  {
   "property": "C35",
   "status": "proved",
   "theorems": [
    "MiniMip.Solver.C35_solutions_feasible"
   ],
   "note": "For every LP oracle whose optimal solutions satisfy the current LP bounds and the original rows, every state the loop reaches and every way Solve ends."
  },
  {
   "property": "C36",
   "status": "partial",
   "theorems": [
    "MiniMip.Solver.C36_optimal_partial",
    "MiniMip.Solver.C36_infeasible_reported_optimal_violated"
   ],
   "note": "Proved: on OK the best solution is at least as good as every feasible point, and a root error means there is none. False in the code: a problem without feasible point whose root LP is feasible ends with OK and status optimal."
  },
  {
   "property": "C37",
   "status": "partial",
   "theorems": [
    "MiniMip.Solver.C37_max_fractional_ends",
    "MiniMip.Solver.C37_ends_partial",
    "MiniMip.Solver.C37_random_violated"
   ],
   "note": "Proved for every branching rule that returns integer variables with non-integral value, in particular the default max-fractional rule (at most twice as many iterations as the box of the integer variables has integer points). False for the random rule."
  },
  {
   "property": "C38",
   "status": "proved",
   "theorems": [
    "MiniMip.Solver.C38_tree_calls",
    "MiniMip.Solver.C38_never_aborts"
   ],
   "note": "Tree calls succeed in every reachable state whatever the oracle answers; no iteration aborts if the oracle's calls return."
  },
  {
   "property": "C39",
   "status": "partial",
   "theorems": [
    "MiniMip.Solver.C39_backtrack_limit_partial",
    "MiniMip.Solver.C39_back_is_not_top_violated",
    "MiniMip.Solver.C39_minus_one_violated"
   ],
   "note": "Proved for limits at least 0: when the front and when the back of the queue is used. False: the back of the queue is not the top of the tree, and -1 back-jumps on every infeasible node."
  },
  {
   "property": "C40",
   "status": "partial",
   "theorems": [
    "MiniMip.Solver.C40_objective_partial",
    "MiniMip.Solver.C40_violated"
   ],
   "note": "Proved: the value reported is the internal minimisation objective without offset, which is the user's for minimisation without offset. False for maximisation or non-zero offset."
  },
  {
   "property": "C41",
   "status": "partial",
   "theorems": [
    "MiniMip.Solver.C41_free_solve_violated",
    "MiniMip.Solver.C41_errors_partial"
   ],
   "note": "The free function never returns a result: an OK status is turned into an error. Proved: errors are passed on."
  },
  {
   "property": "C42",
   "status": "partial",
   "theorems": [
    "MiniMip.Branching.C42_max_fractional_partial",
    "MiniMip.Branching.C42_distance_partial",
    "MiniMip.Branching.C42_distance_violated",
    "MiniMip.Branching.C42_C43_no_integer_variables"
   ],
   "note": "Proved: returns an integer variable fractional beyond tolerance with maximal value - floor(value). False: not the distance to the nearest integer."
  },
  {
   "property": "C43",
   "status": "partial",
   "theorems": [
    "MiniMip.Branching.C43_random_violated",
    "MiniMip.Branching.C43_random_partial",
    "MiniMip.Branching.C42_C43_no_integer_variables"
   ],
   "note": "The rule returns the drawn position instead of the variable at it and does not look at the LP values."
  },
  {
   "property": "C44",
   "status": "partial",
   "theorems": [
    "MiniMip.Glop.C44_faithful_store",
    "MiniMip.Soplex.C44_faithful_store_partial",
    "MiniMip.Soplex.C44_clear_keeps_sense_violated",
    "MiniMip.Soplex.C44_row_order_violated"
   ],
   "note": "Proved for the Glop interface for every history of valid modifications of a new interface; for SoPlex Clear keeps the objective sense and rows may be handed out unsorted, otherwise proved. The external LP classes are modelled by their documented behaviour."
  },
  {
   "property": "C45",
   "status": "proved",
   "theorems": [
    "MiniMip.Glop.C45_row_mapping",
    "MiniMip.Soplex.C45_row_mapping"
   ],
   "note": "Proved for the Glop and the SoPlex interface."
  },
  {
   "property": "C46",
   "status": "partial",
   "theorems": [
    "MiniMip.Glop.C46_delete_row_set_keeps_basis_partial",
    "MiniMip.Glop.C46_delete_rows_keeps_basis_partial",
    "MiniMip.Glop.C46_stale_basis_violated"
   ],
   "note": "Proved when the stored basis fits the LP; violated when the LP was extended after the last solve (sizes agree again by accident)."
  },
  {
   "property": "C47",
   "status": "partial",
   "theorems": [
    "MiniMip.Glop.C47_is_solved_partial",
    "MiniMip.Glop.C47_read_status",
    "MiniMip.Glop.C47_read_keeps_solved_violated",
    "MiniMip.Glop.C47_failed_solve_violated",
    "MiniMip.Glop.C47_solve_fuel",
    "MiniMip.Soplex.C47_is_solved_partial",
    "MiniMip.Soplex.C47_read_keeps_solved_violated",
    "MiniMip.Soplex.C47_load_basis_violated"
   ],
   "note": "Proved for both interfaces without file reads (converse without failing solves and, for SoPlex, without loading a basis); ReadLpFromFile keeps IsSolved true, a failing re-solve (Glop) and loading a basis (SoPlex) clear it. ReadLpFromFile of Glop returns OK exactly if the file could be read, and changes nothing otherwise."
  },
  {
   "property": "C48",
   "status": "partial",
   "theorems": [
    "MiniMip.Glop.C48_rejection_harmless",
    "MiniMip.Glop.C48_set_get_partial",
    "MiniMip.Glop.C48_set_back_partial",
    "MiniMip.Glop.C48_infinite_limit_violated",
    "MiniMip.Glop.C48_other_interface_violated"
   ],
   "note": "Rejection is harmless for every message; acceptance is faithful and setting back is the identity for the resolved message when the limits are finite. Violated: wall clock time with an infinite limit is read back as timing off, and setting CPU time on another interface changes the timing this interface reads (global flag)."
  },
  {
   "property": "C49",
   "status": "partial",
   "theorems": [
    "MiniMip.Soplex.C49_set_get_partial",
    "MiniMip.Soplex.C49_solve_from_scratch_violated",
    "MiniMip.Soplex.C49_num_threads_violated"
   ],
   "note": "Faithful for all fields except solve_from_scratch and num_threads, which are not read back (negation proved)."
  },
  {
   "property": "C50",
   "status": "partial",
   "theorems": [
    "MiniMip.C50_valid_iff_partial",
    "MiniMip.C50_valid_accepted",
    "MiniMip.C50_nan_violated"
   ],
   "note": "Exact for messages without NaN; a NaN tolerance or time limit is accepted (negation proved)."
  },
  {
   "property": "C51",
   "status": "partial",
   "theorems": [
    "MiniMip.Glop.C51_branches_cover_partial",
    "MiniMip.Glop.C51_flags_partial",
    "MiniMip.Glop.C51_valid_flags_partial",
    "MiniMip.Glop.C51_valid_statuses_partial",
    "MiniMip.Glop.C51_integer_value_violated",
    "MiniMip.Glop.C51_scaled_column_violated",
    "MiniMip.Glop.C51_up_failure_violated",
    "MiniMip.Glop.C51_iterations_violated",
    "MiniMip.Soplex.C51_branches_cover_partial",
    "MiniMip.Soplex.C51_tolerance_above_integer_violated",
    "MiniMip.Soplex.C51_flags"
   ],
   "note": "Glop: proved for unscaled columns whose value is not within the tolerance of an integer; violated for integer values, scaled columns and a failing up solve; the iteration count is never initialised. SoPlex: proved except for values exactly the tolerance above an integer (violated); the flags are right. For Glop, a bound called valid always comes from a solve that succeeded and ended optimal, dual feasible or dual unbounded, or from an empty branch, also when solves fail."
  },
  {
   "property": "C52",
   "status": "partial",
   "theorems": [
    "MiniMip.Glop.C52_round_trip_partial",
    "MiniMip.Glop.C52_fixed_violated",
    "MiniMip.Soplex.C52_round_trip_partial",
    "MiniMip.Soplex.C52_fixed_violated",
    "MiniMip.Soplex.C52_not_optimal_violated"
   ],
   "note": "Both interfaces: kFixed is never read back. SoPlex: also free rows cannot be loaded and reading a basis not reported optimal aborts. Everything else round trips."
  },
  {
   "property": "C53",
   "status": "partial",
   "theorems": [
    "MiniMip.Soplex.C53_failed_load_partial",
    "MiniMip.Soplex.C53_successful_load",
    "MiniMip.Soplex.C53_unusable_violated",
    "MiniMip.Soplex.C53_exception_violated"
   ],
   "note": "SoPlex: a failed load changes nothing that can be read, but afterwards nearly every call aborts."
  },
  {
   "property": "C54",
   "status": "partial",
   "theorems": [
    "MiniMip.Soplex.C54_inverse_column_partial",
    "MiniMip.Soplex.C54_what_is_read_partial",
    "MiniMip.Soplex.C54_index_list_violated",
    "MiniMip.Glop.C54_inverse_column_partial",
    "MiniMip.Glop.C54_small_violated"
   ],
   "note": "SoPlex: proved when the rows come in dense form; for index lists it is proved exactly what is returned (the element of the dense array at the position the column has in the list), hence violated unless that position is the column's index. Glop: proved up to the feasibility tolerance; violated for elements below it."
  },
  {
   "property": "C55",
   "status": "partial",
   "theorems": [
    "MiniMip.Reader.C55_conversion_partial",
    "MiniMip.Reader.C55_index_at_end_violated",
    "MiniMip.Reader.C55_nan_violated"
   ],
   "note": "Models with a NaN bound or with a constraint on the index one past the last variable are accepted (proved by witnesses)."
  },
  {
   "property": "C56",
   "status": "partial",
   "theorems": [
    "MiniMip.Reader.C56_extension_partial",
    "MiniMip.Reader.C56_missing_file",
    "MiniMip.Reader.C56_short_path_violated"
   ],
   "note": "Every existing path with three characters passes the check (size_t wrap-around); all other paths are handled as stated."
  },
  {
   "property": "C57",
   "status": "partial",
   "theorems": [
    "MiniMip.Glop.C57_write_inverted_violated",
    "MiniMip.Soplex.C57_write",
    "MiniMip.Soplex.C57_empty_path_violated"
   ],
   "note": "Glop: the code returns an error exactly when the file was written. SoPlex: proved for non-empty paths; an empty path aborts."
  },
  {
   "property": "C58",
   "status": "partial",
   "theorems": [
    "MiniMip.Setup.C58_user_wins_partial",
    "MiniMip.Program.C58_direction",
    "MiniMip.Setup.C58_selector_violated",
    "MiniMip.Setup.C58_generator_violated",
    "MiniMip.Setup.C58_ignored_violated"
   ],
   "note": "The user's cut selector is never used, the default generator cannot be replaced, and cut_generators / cut_selectors are ignored (proved). Everything else is the user's value or the default; the rule of the running program branches in the user's direction first."
  },
  {
   "property": "C59",
   "status": "proved",
   "theorems": [
    "MiniMip.C59_efficacy"
   ],
   "note": "Rows without entries are excluded (the code divides by zero)."
  },
  {
   "property": "C60",
   "status": "proved",
   "theorems": [
    "MiniMip.Generator.C60_is_integer",
    "MiniMip.Generator.C60_floor"
   ],
   "note": "Exact rationals."
  },
  {
   "property": "C61",
   "status": "partial",
   "theorems": [
    "MiniMip.C61_cut_statistics_partial",
    "MiniMip.C61_zero_objective_violated"
   ],
   "note": "Proved for a non-zero objective and row; for a zero objective the parallelism is NaN"
  },
  {
   "property": "C62",
   "status": "partial",
   "theorems": [
    "MiniMip.HybridSelector.C62_integer_support_violated",
    "MiniMip.HybridSelector.C62_score_partial"
   ],
   "note": "Integer support is an integer division (witness). Proved for cuts with only integer or only continuous variables, and for weight zero."
  },
  {
   "property": "C63",
   "status": "proved",
   "theorems": [
    "MiniMip.Generator.C63_side_choice"
   ],
   "note": "For every activity vector and every infinity of the LP solver."
  },
  {
   "property": "C64",
   "status": "partial",
   "theorems": [
    "MiniMip.Glop.C64_solve_keeps_scaling_partial",
    "MiniMip.Glop.C64_failed_solve_loses_scaling_violated",
    "MiniMip.Soplex.C64_solve_keeps_parameters_partial",
    "MiniMip.Soplex.C64_presolve_lost_violated"
   ],
   "note": "Glop: proved for solves that return OK; violated when the re-solve without scaling fails. SoPlex: proved for all parameters but presolving, which a solve switches off for good."
  },
  {
   "property": "C65",
   "status": "proved",
   "theorems": [
    "MiniMip.Soplex.C65_rejection_harmless"
   ],
   "note": "For every acceptance function of SoPlex that accepts the clamped default time limit, every reachable setting and every message."
  },
  {
   "property": "C66",
   "status": "proved",
   "theorems": [
    "MiniMip.Glop.C66_populate",
    "MiniMip.Soplex.C66_populate"
   ],
   "note": "Both interfaces, through MipData built from a well-formed problem."
  },
  {
   "property": "C67",
   "status": "partial",
   "theorems": [
    "MiniMip.Soplex.C67_session",
    "MiniMip.Soplex.C67_empty_lp_violated",
    "MiniMip.Glop.C67_session_partial",
    "MiniMip.Glop.C67_status_and_basis_violated"
   ],
   "note": "SoPlex: proved for LPs with a row or column; the empty LP aborts. Glop: LP, parameters and IsSolved are kept, basis and solution status are not."
  },
  {
   "property": "C68",
   "status": "proved",
   "theorems": [
    "MiniMip.Soplex.C68_status_queries",
    "MiniMip.Glop.C68_status_queries",
    "MiniMip.Glop.C68_stable"
   ],
   "note": "Both interfaces; for Glop also the relations among all status queries and the meaning of IsStable."
  },
  {
   "property": "C69",
   "status": "partial",
   "theorems": [
    "MiniMip.Soplex.C69_inverse_row",
    "MiniMip.Glop.C69_inverse_row_partial",
    "MiniMip.Glop.C69_unsorted_violated",
    "MiniMip.Glop.C69_small_violated"
   ],
   "note": "SoPlex: proved. Glop: proved for increasing positions; violated for positions out of order and for small elements of rows in dense form."
  },
  {
   "property": "C70",
   "status": "partial",
   "theorems": [
    "MiniMip.Soplex.C70_row_times_matrix",
    "MiniMip.Soplex.C70_column_times_matrix",
    "MiniMip.Glop.C70_row_times_matrix",
    "MiniMip.Glop.C70_column_times_matrix_partial",
    "MiniMip.Glop.C70_unsorted_violated"
   ],
   "note": "Proved for SoPlex and for the rows of Glop; the columns of Glop need cleaning if the solver gives positions out of order."
  },
  {
   "property": "C72",
   "status": "partial",
   "theorems": [
    "MiniMip.Soplex.C72_primal_ray",
    "MiniMip.Glop.C72_primal_ray_violated"
   ],
   "note": "Proved for SoPlex; the Glop interface returns the negated ray, which is never a ray of a feasible LP."
  },
  {
   "property": "C73",
   "status": "partial",
   "theorems": [
    "MiniMip.Setup.C73_invalid_problem",
    "MiniMip.Setup.C73_created",
    "MiniMip.Setup.C73_glop_partial",
    "MiniMip.Setup.C73_default_parameters",
    "MiniMip.Setup.C73_soplex_partial",
    "MiniMip.Setup.C73_nan_bound_violated",
    "MiniMip.Setup.C73_index_at_end_violated"
   ],
   "note": "Messages with NaN and values rejected by SoPlex itself are left out; problems must be well formed (for malformed ones only what the validation reports): a NaN bound and a variable index one past the end are not reported."
  },
  {
   "property": "C74",
   "status": "proved",
   "theorems": [
    "MiniMip.Program.C74_solutions_feasible"
   ],
   "note": "Create followed by Solve, LP code with feasible answers as the only unknown"
  },
  {
   "property": "C75",
   "status": "partial",
   "theorems": [
    "MiniMip.Program.C75_optimal_partial",
    "MiniMip.Program.C75_with_cuts_partial",
    "MiniMip.Program.C75_one_round_integral_partial",
    "MiniMip.Program.C75_soplex_one_round_integral_partial",
    "MiniMip.Program.C75_fractional_side_violated"
   ],
   "note": "Proved without cuts, with cuts for tolerance 0, non-negative integer variables and integral sides, and with one round of cuts for integral problems with non-negative integer variables whose determinants times the tolerances stay below 1 (Glop and SoPlex). False with one round of cuts and a fractional side. Missing: the other problems with cuts switched on (see C33, C29, C30) and a status that distinguishes optimal from infeasible (C36)."
  },
  {
   "property": "C76",
   "status": "partial",
   "theorems": [
    "MiniMip.Program.C76_ends_partial",
    "MiniMip.Program.C76_random_never_ends",
    "MiniMip.Program.C76_random_violated"
   ],
   "note": "holds for the max-fractional rule; false for the random rule, for every problem whose integer variables come last; the bound is twice the number of integer points within the bounds"
  },
  {
   "property": "C77",
   "status": "partial",
   "theorems": [
    "MiniMip.Program.C77_glop_never_aborts_partial",
    "MiniMip.Program.C77_soplex_never_aborts_partial",
    "MiniMip.Program.C77_one_round_partial",
    "MiniMip.Program.C77_one_round_integral_partial",
    "MiniMip.Program.C77_soplex_one_round_partial",
    "MiniMip.Program.C77_soplex_one_round_integral_partial",
    "MiniMip.Program.C77_soplex_crossing_bounds_violated",
    "MiniMip.Program.C77_fractional_side_violated",
    "MiniMip.Program.C77_second_round_violated"
   ],
   "note": "Glop without cuts; SoPlex without cuts, max-fractional rule and integral bounds; one round of cuts per run for feasible problems with non-negative integer variables and integral sides, and for integral problems with non-negative integer variables, feasible or not, whose determinants times the tolerances stay below 1 (SoPlex again with the max-fractional rule and integral bounds); SoPlex aborts as soon as branching crosses the fractional bound of an integer variable; with the default parameters a constraint on one integer variable with a fractional side leads to a division by zero; with the default parameters and all data integral the second round of cuts reads out of range (C34)"
  },
  {
   "property": "C78",
   "status": "partial",
   "theorems": [
    "MiniMip.Program.C78_total_correctness",
    "MiniMip.Program.C78_soplex_total_correctness_partial",
    "MiniMip.Program.C78_soplex_violated"
   ],
   "note": "whole claim for Glop; for SoPlex integer variables must have integral bounds, with a fractional bound it is false; the bound on iterations is explicit"
  },
  {
   "property": "C79",
   "status": "proved",
   "theorems": [
    "MiniMip.Glop.C79_basis_head",
    "MiniMip.Soplex.C79_basis_head"
   ],
   "note": "Both interfaces, for every basis head of the LP solver."
  },
  {
   "property": "C80",
   "status": "partial",
   "theorems": [
    "MiniMip.Glop.C80_status_partial",
    "MiniMip.Soplex.C80_status_partial",
    "MiniMip.Soplex.C80_unstable_partial",
    "MiniMip.Soplex.C80_unknown_stable_violated",
    "MiniMip.Glop.C80_iteration_limit_violated"
   ],
   "note": "Proved for every solve that ends with a proof, a limit, a singular basis or unscaled violations. Violated: SoPlex calls a solve that ends as UNKNOWN stable; Glop reports the iteration limit when two calls of the simplex within one solve reach it only together."
  },
  {
   "property": "C81",
   "status": "proved",
   "theorems": [
    "MiniMip.Glop.C81_dual_ray",
    "MiniMip.Soplex.C81_dual_ray"
   ],
   "note": "Given that the dual ray of the LP solver is one, with the sign that its slacks imply."
  },
  {
   "property": "C82",
   "status": "proved",
   "theorems": [
    "MiniMip.Glop.C82_values",
    "MiniMip.Soplex.C82_values",
    "MiniMip.Soplex.C82_not_optimal"
   ],
   "note": "Given that the vectors of the LP solver are what they should be; weak duality is proved."
  },
  {
   "property": "C83",
   "status": "partial",
   "theorems": [
    "MiniMip.Program.C83_one_round_total_correctness_partial",
    "MiniMip.Program.C83_one_round_integral_total_correctness_partial",
    "MiniMip.Program.C83_soplex_one_round_total_correctness_partial",
    "MiniMip.Program.C83_soplex_one_round_integral_total_correctness_partial",
    "MiniMip.Program.C83_second_round_violated"
   ],
   "note": "At most one round of cuts in the run: problems with a feasible point and integrality tolerance 0, and integral problems, feasible or not, whose determinants times the tolerances stay below 1; for Glop, and for SoPlex if integer variables have integral bounds and SoPlex accepts its parameters; with a second round the claim fails on an integral problem with two variables (out-of-range read, see C34)"
  },
  {
   "property": "C84",
   "status": "partial",
   "theorems": [
    "MiniMip.Solver.C84_never_ok",
    "MiniMip.Solver.C84_aborts",
    "MiniMip.Solver.C84_root_partial",
    "MiniMip.Program.C84_second_call_aborts",
    "MiniMip.Program.C84_second_call_violated",
    "MiniMip.Program.C84_total_partial",
    "MiniMip.Program.C84_integral_partial"
   ],
   "note": "A second call ends the process whenever the first one branched (the root then has children or is free): proved for every oracle, for a class of problems of the whole program and on a concrete problem. If every earlier call ended in its first iteration, the next one is right."
  },
  {
   "property": "C85",
   "status": "proved",
   "theorems": [
    "MiniMip.Program.C85_rounds_on_open_lps",
    "MiniMip.Program.C85_idle_otherwise"
   ],
   "note": ""
  },
  {
   "property": "C86",
   "status": "proved",
   "theorems": [
    "MiniMip.Ieee.C86_tests",
    "MiniMip.Ieee.C86_solution_is_integral",
    "MiniMip.Ieee.C86_child_bounds",
    "MiniMip.Ieee.C86_max_fractional",
    "MiniMip.Ieee.C86_ends"
   ],
   "note": "Branch and bound without cuts computes exactly but for the fractional part of values in (-1/2, 0), which is rounded to within 2^-53."
  },
  {
   "property": "C87",
   "status": "partial",
   "theorems": [
    "MiniMip.AVector.C87_invariant_partial",
    "MiniMip.AVector.C87_scaling_partial",
    "MiniMip.AVector.C87_scaling_violated"
   ],
   "note": "Scaling and dividing can underflow and leave stored zeros without asking for cleaning; everything else holds."
  },
  {
   "property": "C88",
   "status": "proved",
   "theorems": [
    "MiniMip.AVector.C88_rounding",
    "MiniMip.AVector.C88_add_multiple",
    "MiniMip.AVector.C88_dot_product",
    "MiniMip.Ieee.C88_infinite_operands",
    "MiniMip.Ieee.C88_finite_operands"
   ],
   "note": "Rounding is characterised independently: nearest double, ties to even, infinite only beyond the largest double. Operations with infinities, NaN and zero divisors are specified by extended real arithmetic."
  },
  {
   "property": "C89",
   "status": "partial",
   "theorems": [
    "MiniMip.Solver.C89_feasible",
    "MiniMip.Solver.C89_approximate",
    "MiniMip.Solver.C89_ends_partial",
    "MiniMip.Solver.C89_ends_violated"
   ],
   "note": "LP solvers right up to eps and delta, any branching rule: feasibility, optimality within 2 delta, errors only for infeasible problems. Termination with the max-fractional rule if eps is at most the integrality tolerance; for every larger eps C89_ends_violated has a problem and an LP solver on which Solve never ends."
  },
  {
   "property": "C90",
   "status": "partial",
   "theorems": [
    "MiniMip.Program.C90_feasible",
    "MiniMip.Program.C90_ends_partial",
    "MiniMip.Program.C90_optimal_partial",
    "MiniMip.Program.C90_with_cuts_partial",
    "MiniMip.Program.C90_total_correctness",
    "MiniMip.Program.C90_soplex_total_correctness_partial",
    "MiniMip.Program.C90_never_ends",
    "MiniMip.Program.C90_ends_violated"
   ],
   "note": "C74 to C78 for LP code with tolerances. Feasibility with all parameters; termination with the max-fractional rule, with cuts or without, if eps is at most the integrality tolerance (for larger eps, on every problem whose relaxation has an integral optimum there is LP code on which Solve never ends); optimality without cuts, and with cuts if the integrality tolerance is 0, integer variables are non-negative and sides of integral rows are integral; total correctness without cuts for Glop, and for SoPlex if integer variables have integral bounds."
  },
  {
   "property": "C91",
   "status": "partial",
   "theorems": [
    "MiniMip.Ieee.C91_generator_partial",
    "MiniMip.Ieee.C91_strong_cg_partial",
    "MiniMip.Ieee.C91_mir_partial",
    "MiniMip.Ieee.C91_strong_cg_violated",
    "MiniMip.Ieee.C91_mir_violated",
    "MiniMip.Ieee.C91_tiny_tolerance_violated"
   ],
   "note": "From the LP to the cut: every cut that the generator makes in doubles with MIR rounding is violated by no feasible point by more than (11 tol + 256 (n+m) 2^-53) n m B^3/(1-f0), where n columns, at most m aggregated rows, numbers of size at most B, f0 the fraction of the aggregated right-hand side; all stages (aggregation, shifting, rounding, shifting back, slack substitution) are included and the rows of the basis inverse may be anything. MIR rounding of one aggregated row is valid up to an explicit error that is linear in the rounding errors and the tolerance. It is not valid exactly, and strong Chvatal-Gomory rounding is not valid at all: on max x, 3 x <= 4 it cuts off the optimum by 1/4, with the default tolerance and correctly rounded LP answers. When its decisions are clear (every coefficient that is rounded up to a step exceeds the preceding step by more than the errors made before), a strong CG cut is violated by at most 256 (n+m) 2^-53 n m B^3. For every tolerance below 2^-54 an MIR cut may have an infinite coefficient. Missing: unclear strong CG cuts and tolerances below 2^-54, for which it is false; sides of integral rows that are fractional."
  },
  {
   "property": "C92",
   "status": "partial",
   "theorems": [
    "MiniMip.Program.C92_default_parameters_violated",
    "MiniMip.Program.C92_infeasible_violated",
    "MiniMip.Program.C92_no_cuts_partial",
    "MiniMip.Program.C92_feasible_partial",
    "MiniMip.Program.C92_ends_partial",
    "MiniMip.Program.C92_doubles_violated",
    "MiniMip.Program.C92_doubles_feasible_partial",
    "MiniMip.Program.C92_doubles_ends_partial"
   ],
   "note": "Violated with default parameters (witness max x, 3x <= 4): a strong CG cut computed in doubles removes the optimum and Solve reports x = 0 as optimal, for every right Glop; with 1 <= x in addition the LP with the cut is infeasible and Solve returns the error that this feasible problem is infeasible or unbounded (C92_infeasible_violated). Feasibility and termination do not suffer: for LP code whose points are feasible up to eps, the solutions returned are feasible up to eps and the integrality tolerance, and with max-fractional branching Solve ends within the iteration bound, whatever cuts were made. Without cuts the program in doubles equals the exact one on the same LP code. The same holds with the measures of cuts and the selector in doubles too (C92_doubles_*). A bound on the loss with MIR cuts only is missing."
  },
  {
   "property": "C93",
   "status": "partial",
   "theorems": [
    "MiniMip.Program.C93_read_and_solve",
    "MiniMip.Program.C93_soplex_read_and_solve_partial",
    "MiniMip.Program.C93_soplex_violated"
   ],
   "note": "Whole claim for Glop; for SoPlex the bounds of the integer variables must be integral and SoPlex must accept the parameter values (C93_soplex_read_and_solve_partial); with a fractional bound the process aborts, whatever SoPlex that answers rightly it runs on (C93_soplex_violated)."
  },
  {
   "property": "C94",
   "status": "proved",
   "theorems": [
    "MiniMip.Program.C94_equal_answers"
   ],
   "note": "All pairs of the configurations that C78 and C83 cover (Glop and SoPlex, no cuts, or one round of cuts for feasible problems with non-negative integer variables and integral sides), tolerance 0, no random branching. SoPlex needs integral bounds of integer variables."
  },
  {
   "property": "C95",
   "status": "proved",
   "theorems": [
    "MiniMip.Ieee.C95_generated"
   ],
   "note": "The error term is 8 k^2 2^-53 C X for a cut with k coefficients of size at most C and an LP optimum of size at most X."
  },
  {
   "property": "C96",
   "status": "proved",
   "theorems": [
    "MiniMip.Program.C96_registry_accounts",
    "MiniMip.Program.C96_wrong_optimum",
    "MiniMip.Program.C96_wrong_optimum_in_doubles"
   ],
   "note": "For any generators and selector that only read the LP, then for the program computing exactly and in doubles. Says nothing when Solve returns an error; mutable state of generators is not modelled."
  },
  {
   "property": "C97",
   "status": "proved",
   "theorems": [
    "MiniMip.Program.C97_lp_rows",
    "MiniMip.Program.C97_lp_rows_in_doubles"
   ],
   "note": "Whole program, exact cuts and cuts computed in doubles; the LP code may answer anything but hands out rows in order."
  },
  {
   "property": "C98",
   "status": "proved",
   "theorems": [
    "MiniMip.Program.C98_feasible",
    "MiniMip.Program.C98_ends",
    "MiniMip.Program.C98_optimal"
   ],
   "note": "Plug-ins as arbitrary functions of the model (customSolve); the contract is: the LP is only read, cut rows are clean, cuts hold at all feasible points when the LP was a relaxation. Termination is for the max-fractional rule and integrality tolerance at least the LP tolerance, as in C90."
  },
  {
   "property": "C99",
   "status": "partial",
   "theorems": [
    "MiniMip.Ieee.C99_measures",
    "MiniMip.Ieee.Selector.C99_score",
    "MiniMip.Ieee.Selector.C99_selection_partial",
    "MiniMip.Ieee.Selector.C99_tiny_violated",
    "MiniMip.Ieee.Selector.C99_huge_violated"
   ],
   "note": "For rows and objectives of length between 2^-200 and 2^200. For extreme rows false: a squared length that underflows makes a NaN score, which std::sort must not see next to two different scores (C99_tiny_violated), and one that overflows makes a violated cut score zero (C99_huge_violated)."
  }
 ]
}
