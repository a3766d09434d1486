{"id": "C01", "title": "Sparse vector: last write wins after cleaning", "statement": "After any sequence of AddEntry calls with non-negative indices, interleaved with CleanUpIfNeeded and Clear, once the vector is cleaned value(i) is the value of the last AddEntry for i since the last Clear (0 if there is none), and entries() is strictly increasing in index with no explicit zero.", "quantifier": "every finite sequence of AddEntry/CleanUpIfNeeded/Clear calls, every index", "why_tests_cant": "the result depends on order, duplicates, explicit zeros and when cleaning happens; the number of interleavings is unbounded", "anchors": ["minimip/data_structures/strong_sparse_vector.h:AddEntry", "minimip/data_structures/strong_sparse_vector.h:CleanUpIfNeeded", "minimip/data_structures/strong_sparse_vector.h:value", "minimip/data_structures/strong_sparse_vector.h:Clear"]}
{"id": "C02", "title": "Sparse vector: cleaning and cleanliness flag", "statement": "Whenever MayNeedCleaning() is false the entries are clean (strictly increasing indices, no explicit zeros); CleanUpIfNeeded always establishes this, changes nothing on a vector that does not need cleaning, and is idempotent.", "quantifier": "every finite history of vector operations with non-negative indices", "why_tests_cant": "a flag left false on dirty data only shows up on particular insertion orders", "anchors": ["minimip/data_structures/strong_sparse_vector.h:MayNeedCleaning", "minimip/data_structures/strong_sparse_vector.h:CleanUpIfNeeded", "minimip/data_structures/strong_sparse_vector.h:mutable_entries", "minimip/data_structures/strong_sparse_vector.h:IsClean"]}
{"id": "C03", "title": "Sparse vector addition is pointwise", "statement": "For clean vectors v and w held in distinct objects, v.AddMultipleOfVector(w, s), v += w and v -= w leave v clean and value(i) equal to v(i) + s*w(i) for every index (exact arithmetic), w unchanged.", "quantifier": "every pair of clean vectors, every scalar, every index", "why_tests_cant": "merge with cancellation has infinitely many overlap patterns", "anchors": ["minimip/data_structures/strong_sparse_vector.h:AddMultipleOfVector", "minimip/data_structures/strong_sparse_vector.h:operator+=", "minimip/data_structures/strong_sparse_vector.h:operator-="]}
{"id": "C04", "title": "Sparse vector self-addition", "statement": "v.AddMultipleOfVector(v, s) (and v += v, v -= v) is well defined and yields (1+s)*v.", "quantifier": "every clean vector, every scalar", "why_tests_cant": "aliasing of the argument with the target is a memory-safety matter; a test may pass by luck of allocation", "anchors": ["minimip/data_structures/strong_sparse_vector.h:AddMultipleOfVector"]}
{"id": "C05", "title": "Sparse dot product", "statement": "DotProduct of two clean vectors equals the sum over all indices of the products of their values; it is symmetric and linear in each argument (exact arithmetic).", "quantifier": "every pair of clean vectors, every scalar", "why_tests_cant": "the merge walk must be right for every overlap pattern", "anchors": ["minimip/data_structures/strong_sparse_vector.h:DotProduct"]}
{"id": "C06", "title": "Sparse vector scaling, division, negation and dense construction", "statement": "On a clean vector *= s, /= s (s != 0), unary minus and scalar products multiply every value by the scalar and leave the vector clean; the constructor from a dense vector returns a clean vector with exactly the dense values.", "quantifier": "every clean vector, every scalar, every dense vector", "why_tests_cant": "explicit zeros and empty results are corner cases of an infinite input space", "anchors": ["minimip/data_structures/strong_sparse_vector.h:operator*=", "minimip/data_structures/strong_sparse_vector.h:operator/=", "minimip/data_structures/strong_sparse_vector.h:operator-", "minimip/data_structures/strong_sparse_vector.h:Transform", "minimip/data_structures/strong_sparse_vector.h:SparseVector"]}
{"id": "C07", "title": "Sparse matrix behaves as a matrix", "statement": "For every history of SetCoefficient, PopulateRow, PopulateCol, Resize, Clear and reads with indices inside the current dimensions, GetCoefficient(c,r), row(r).value(c) and col(c).value(r) all return the latest value written to (c,r) (0 if never written, or if the cell was dropped by a Resize or overwritten by a row/column population), and rows and columns returned are clean.", "quantifier": "every finite history of matrix operations, every cell", "why_tests_cant": "row and column views are recomputed lazily; stale-view bugs need particular interleavings", "anchors": ["minimip/data_structures/strong_sparse_matrix.h:StrongSparseMatrix", "minimip/data_structures/strong_sparse_matrix.cc:GetCoefficient", "minimip/data_structures/strong_sparse_matrix.cc:SetCoefficient", "minimip/data_structures/strong_sparse_matrix.cc:PopulateRow", "minimip/data_structures/strong_sparse_matrix.cc:PopulateCol", "minimip/data_structures/strong_sparse_matrix.cc:Resize"]}
{"id": "C08", "title": "Problem validation catches every out-of-range reference", "statement": "FindErrorInMiniMipProblem returns the empty string exactly for problems in which every variable has a name and ordered bounds, every constraint has a name, ordered sides, as many coefficients as indices, no duplicate indices and all indices in [0, number of variables).", "quantifier": "every problem description", "why_tests_cant": "the set of malformed problems is infinite", "anchors": ["minimip/data_structures/problem.cc:FindErrorInMiniMipProblem"]}
{"id": "C09", "title": "MipData represents the user's problem", "statement": "For every well-formed problem and every point, the row activities, sides, bounds, integrality set computed from MipData are those of the user's constraints, and MipData's minimisation objective plus offset equals the user's objective plus offset (negated for maximisation), so optimal points coincide.", "quantifier": "every well-formed problem, every assignment of values to variables", "why_tests_cant": "a claim about all problems and all points", "anchors": ["minimip/data_structures/mip_data.cc:MipData", "minimip/data_structures/mip_data.h:MipData"]}
{"id": "C10", "title": "Integral constraints have integral activity and slack", "statement": "If MipData marks a constraint as integral, then for every assignment that gives integer values to the integer variables, the row activity is an integer, and so is its distance to either finite side (the slack).", "quantifier": "every problem, every assignment integral on integer variables", "why_tests_cant": "ranges over all points; a fractional side is a corner case tests do not try", "anchors": ["minimip/data_structures/mip_data.cc:is_integral_constraint", "minimip/cutting_interface/aggregating_generator.cc:HasIntegralSlackVariable"]}
{"id": "C11", "title": "Integrality test of solutions", "statement": "SolutionIsIntegral returns true iff each integer variable's value is within the tolerance of its nearest integer; continuous variables have no influence.", "quantifier": "every solution vector, every set of integer variables, every non-negative tolerance", "why_tests_cant": "infinite input space", "anchors": ["minimip/data_structures/mip_data.cc:SolutionIsIntegral"]}
{"id": "C12", "title": "Incumbent bookkeeping", "statement": "After any sequence of AddSolution calls with finite objectives, best_solution is the earliest added solution of minimal objective, and best_solution together with additional_solutions is exactly (as a multiset) the solutions added.", "quantifier": "every finite sequence of solutions", "why_tests_cant": "depends on the whole history", "anchors": ["minimip/data_structures/problem.h:MiniMipResult::AddSolution"]}
{"id": "C13", "title": "Search tree: node identity", "statement": "AddNodeByBranchingFromParent always returns an index that no live node has; a live node's parent, branching variable, branching value, direction and depth stay what they were when it was added until the node itself is reclaimed, through any sequence of adds, closes and updates of other nodes; depth(child) = depth(parent)+1.", "quantifier": "every history of tree operations that passes the documented checks", "why_tests_cant": "slots are recycled through a free list, so aliasing needs particular histories", "anchors": ["minimip/data_structures/mip_tree.cc:AddNodeByBranchingFromParent", "minimip/data_structures/mip_tree.cc:CloseNodeAndReclaimNodesUpToRootIfPossible", "minimip/data_structures/mip_tree.h:node"]}
{"id": "C14", "title": "Search tree: reclamation is exact", "statement": "Closing a leaf reclaims exactly that leaf and those ancestors that have no other live descendants; at any time the number of open children recorded equals the number of live children; TreeIsEmpty() holds iff no node is live.", "quantifier": "every history of tree operations", "why_tests_cant": "depends on tree shape and order of closes", "anchors": ["minimip/data_structures/mip_tree.cc:CloseNodeAndReclaimNodesUpToRootIfPossible", "minimip/data_structures/mip_tree.h:TreeIsEmpty"]}
{"id": "C15", "title": "Search tree: closing the root node is defined", "statement": "CloseNodeAndReclaimNodesUpToRootIfPossible may be called on the root when it has no children, and then empties the tree.", "quantifier": "every tree consisting of the root only, including one reached after other nodes were reclaimed", "why_tests_cant": "reading one element before an array may go unnoticed in a test run", "anchors": ["minimip/data_structures/mip_tree.cc:CloseNodeAndReclaimNodesUpToRootIfPossible"]}
{"id": "C16", "title": "Search tree: counters", "statement": "num_closed_nodes() counts the nodes that were closed, and num_added_nodes() the nodes added (plus root) over the life of the tree, as documented.", "quantifier": "every history of tree operations", "why_tests_cant": "needs histories in which slots are reused", "anchors": ["minimip/data_structures/mip_tree.h:num_added_nodes", "minimip/data_structures/mip_tree.h:num_closed_nodes"]}
{"id": "C17", "title": "Search tree: retrieved bounds are the path's decisions", "statement": "For a live node, a point lies within RetrieveLowerBounds/RetrieveUpperBounds(node, root bounds) iff it lies within the root bounds and satisfies the branching decision and the implied bounds of the node and all its ancestors.", "quantifier": "every tree, every live node, every root bounds, every point", "why_tests_cant": "ranges over all paths and points", "anchors": ["minimip/data_structures/mip_tree.cc:RetrieveLowerBounds", "minimip/data_structures/mip_tree.cc:RetrieveUpperBounds"]}
{"id": "C18", "title": "Branching is exhaustive, exclusive and progressing", "statement": "The down child (x <= floor v) and up child (x >= ceil v) of a branching on an integer variable contain between them every integer point of the parent, share none if v is fractional, and both exclude x = v.", "quantifier": "every value, every pair of parent bounds, every integer point", "why_tests_cant": "ranges over all values and points", "anchors": ["minimip/data_structures/mip_tree.cc:RetrieveLowerBounds", "minimip/data_structures/mip_tree.cc:RetrieveUpperBounds", "minimip/solver.cc:Solve"]}
{"id": "C19", "title": "Cut registry: index equals position", "statement": "After any sequence of AddCut, RemoveCut, ActivateCut and UpdateCutEfficacy, GetCut(i) returns the i-th surviving cut in insertion order, whose recorded index is i, and removal of a cut leaves all other cuts' contents and relative order unchanged.", "quantifier": "every finite history of registry operations with valid indices", "why_tests_cant": "index shifting depends on the history", "anchors": ["minimip/data_structures/cuts_data.cc:AddCut", "minimip/data_structures/cuts_data.cc:RemoveCut", "minimip/data_structures/cuts_data.cc:GetCut", "minimip/data_structures/cuts_data.cc:UpdateCutEfficacy"]}
{"id": "C20", "title": "Cut registry: the active set follows its cuts", "statement": "After any sequence of registry operations, the active indices denote exactly those surviving cuts that were activated (never a removed cut, never a different cut).", "quantifier": "every finite history, including repeated activation and removal through the list of active indices itself", "why_tests_cant": "needs double activation or aliasing of the argument", "anchors": ["minimip/data_structures/cuts_data.cc:ActivateCut", "minimip/data_structures/cuts_data.cc:RemoveCut"]}
{"id": "C21", "title": "Cut selection returns a sorted, filtered subset", "statement": "SelectCuttingPlanes returns distinct cuts from its input, in non-increasing order of score, each with score at least the threshold, and no later selected unforced cut is more parallel to an earlier selected cut than the minimum orthogonality allows.", "quantifier": "every list of candidate cuts, every parameter set", "why_tests_cant": "greedy elimination depends on the whole list", "anchors": ["minimip/cutting_interface/hybrid_selector.cc:SelectCuttingPlanes", "minimip/cutting_interface/hybrid_selector.cc:TwoCutsAreOrthogonal", "minimip/cutting_interface/hybrid_selector.cc:ComputeCutScore"]}
{"id": "C22", "title": "Cut selection respects max_num_cuts", "statement": "SelectCuttingPlanes returns at most max_num_cuts cuts; zero turns the selector off (no cut is returned) and -1 means no limit.", "quantifier": "every list of candidates, every int32 value of max_num_cuts", "why_tests_cant": "boundary values of a parameter combined with every list", "anchors": ["minimip/cutting_interface/hybrid_selector.cc:SelectCuttingPlanes", "minimip/parameters.proto:HybridSelectorParameters"]}
{"id": "C23", "title": "Forced cuts are always selected", "statement": "A cut marked as forced is returned by SelectCuttingPlanes whatever its score and whichever other cuts are present (unless the limit is reached).", "quantifier": "every list of candidates with forced cuts", "why_tests_cant": "depends on scores of all other cuts", "anchors": ["minimip/cutting_interface/hybrid_selector.cc:SelectCuttingPlanes", "minimip/data_structures/cuts_data.h:is_forced"]}
{"id": "C24", "title": "Cutting loop terminates and respects its limits", "statement": "One call of SeparateCurrentLPSolution performs finitely many rounds, at most max_iterations; the cuts it adds respect max_num_cuts_per_node / at_root and max_num_cuts_total.", "quantifier": "every LP oracle, generator and selector behaviour, every parameter set, every sequence of calls", "why_tests_cant": "quantifies over the behaviour of solver plug-ins and over the history of calls", "anchors": ["minimip/cutting_interface/default_runner.cc:MayRunOneMoreSeperationRound", "minimip/cutting_interface/default_runner.cc:SeparateCurrentLPSolution"]}
{"id": "C25", "title": "Registry and LP rows stay in step", "statement": "After SeparateCurrentLPSolution returns OK, the rows added to the LP are exactly the cuts added to the registry, in the same order, with the cut's coefficients and sides.", "quantifier": "every LP oracle, generator and selector behaviour", "why_tests_cant": "quantifies over all plug-in behaviours", "anchors": ["minimip/cutting_interface/default_runner.cc:SeparateCurrentLPSolution", "minimip/data_structures/cuts_data.cc:AddCut"]}
{"id": "C26", "title": "Aggregation of LP rows is an equality valid for the LP", "statement": "The row obtained by AggregateByWeight holds with equality at every point (x, s) satisfying the rows' slack equations, for every weight vector and choice of sides.", "quantifier": "every weight vector, LP, choice of sides and point", "why_tests_cant": "ranges over all points", "anchors": ["minimip/cutting_interface/aggregating_generator.cc:AggregateByWeight", "minimip/cutting_interface/aggregating_generator.cc:ChooseActiveSidesByBasis"]}
{"id": "C27", "title": "Substitution to non-negative variables and back", "statement": "TransformToNonNegativeVariables describes the same set of points in shifted/complemented variables, all non-negative within the bounds, and TransformBackToOriginalVariables of an inequality holds at x iff the inequality holds at the transformed point.", "quantifier": "every row, bounds, side choice and point", "why_tests_cant": "ranges over all points and bound combinations", "anchors": ["minimip/cutting_interface/aggregating_generator.cc:TransformToNonNegativeVariables", "minimip/cutting_interface/aggregating_generator.cc:TransformBackToOriginalVariables"]}
{"id": "C28", "title": "Slack substitution preserves the inequality", "statement": "SubstituteSlackVariables turns an inequality in structural and slack variables into one in structural variables that holds at x iff the former holds at (x, slacks of x).", "quantifier": "every row, LP and point", "why_tests_cant": "ranges over all points", "anchors": ["minimip/cutting_interface/aggregating_generator.cc:SubstituteSlackVariables"]}
{"id": "C29", "title": "Mixed-integer-rounding cuts are valid", "statement": "Every cut produced by the MIR rounder from an aggregated row is satisfied by every feasible point of the MIP (integer on integer variables, within bounds and rows).", "quantifier": "every MIP, every weight vector, every feasible mixed-integer point", "why_tests_cant": "validity ranges over all feasible points", "anchors": ["minimip/cutting_interface/aggregating_generator.cc:MIRRounder", "minimip/cutting_interface/aggregating_generator.cc:MIRRoundInteger", "minimip/cutting_interface/aggregating_generator.cc:MIRRoundContinuous", "minimip/cutting_interface/aggregating_generator.cc:GenerateCuttingPlanes"]}
{"id": "C30", "title": "Strong Chvatal-Gomory cuts are valid", "statement": "Every cut produced by the strong CG rounder is satisfied by every feasible point of the MIP.", "quantifier": "every MIP, every weight vector, every feasible mixed-integer point", "why_tests_cant": "validity ranges over all feasible points", "anchors": ["minimip/cutting_interface/aggregating_generator.cc:StrongCGRounder", "minimip/cutting_interface/aggregating_generator.cc:CGRoundInteger"]}
{"id": "C31", "title": "Generated cuts cut off the LP optimum", "statement": "Every cut returned by the tableau rounding generator is violated by the current LP solution.", "quantifier": "every LP state and parameter set", "why_tests_cant": "ranges over all LPs", "anchors": ["minimip/cutting_interface/aggregating_generator.cc:RemovesLPOptimum", "minimip/cutting_interface/aggregating_generator.cc:GenerateCuttingPlanes"]}
{"id": "C32", "title": "Generator respects max_num_cuts", "statement": "GenerateCuttingPlanes returns at most max_num_cuts cuts per call and none when max_num_cuts is 0.", "quantifier": "every LP state, every int32 parameter value", "why_tests_cant": "boundary values and early-exit order", "anchors": ["minimip/cutting_interface/aggregating_generator.cc:GenerateCuttingPlanes", "minimip/parameters.proto:CutGeneratorParameters"]}
{"id": "C33", "title": "Cuts used globally are globally valid", "statement": "A cut added to the LP while processing one node does not remove any feasible integer point of another node.", "quantifier": "every MIP, every node order, every feasible mixed-integer point", "why_tests_cant": "needs a tree in which the cut-off point lies in another subtree", "anchors": ["minimip/cutting_interface/aggregating_generator.cc:GenerateCuttingPlanes", "minimip/solver.cc:Solve", "minimip/cutting_interface/default_runner.cc:SeparateCurrentLPSolution"]}
{"id": "C34", "title": "Slack integrality lookups stay in range", "statement": "While separating, the generator never reads integrality data for a row that MipData does not have.", "quantifier": "every LP reached by adding cuts to the original rows", "why_tests_cant": "an out-of-range read may go unnoticed in a test", "anchors": ["minimip/cutting_interface/aggregating_generator.cc:HasIntegralSlackVariable", "minimip/data_structures/mip_data.h:is_integral_constraint"]}
{"id": "C35", "title": "Solver: reported solutions are feasible", "statement": "Every solution recorded by Solver::Solve is LP-feasible for the original rows and bounds and integral within tolerance on all integer variables, given a correct LP solver.", "quantifier": "every problem, LP oracle satisfying the LP contract, every search history", "why_tests_cant": "the search history is unbounded", "anchors": ["minimip/solver.cc:Solve", "minimip/data_structures/mip_data.cc:SolutionIsIntegral", "minimip/data_structures/problem.h:AddSolution"]}
{"id": "C36", "title": "Solver: optimality of the final incumbent", "statement": "If Solver::Solve returns OK then the best solution recorded is at least as good as every feasible mixed-integer point; if there is none the problem is reported infeasible.", "quantifier": "every problem, LP oracle satisfying the LP contract, every branching rule decision", "why_tests_cant": "quantifies over all feasible points and search histories", "anchors": ["minimip/solver.cc:Solve"]}
{"id": "C37", "title": "Solver: termination", "statement": "Solver::Solve terminates on every problem whose integer variables have finite bounds, whatever the LP solver's choice among optimal solutions.", "quantifier": "every problem with bounded integer variables, every LP oracle", "why_tests_cant": "termination is not testable", "anchors": ["minimip/solver.cc:Solve", "minimip/branching_interface/maxfractional_branching/maxfractional_branching.cc"]}
{"id": "C38", "title": "Solver: tree bookkeeping never aborts", "statement": "During Solver::Solve no internal check of the search tree fails and no tree slot is read out of range, whatever the LP solver and the cut runner answer.", "quantifier": "every sequence of LP answers and branching decisions", "why_tests_cant": "quantifies over LP answers", "anchors": ["minimip/solver.cc:Solve", "minimip/data_structures/mip_tree.cc"]}
{"id": "C39", "title": "Solver: node selection and backtrack_limit", "statement": "After more than backtrack_limit consecutive infeasible nodes the next node is taken from the top of the tree; with backtrack_limit = -1 the solver always back-tracks (never back-jumps because of infeasibility).", "quantifier": "every int32 value of backtrack_limit, every sequence of node outcomes", "why_tests_cant": "boundary value of a parameter with arbitrary histories", "anchors": ["minimip/solver.cc:Solve", "minimip/parameters.proto:backtrack_limit"]}
{"id": "C40", "title": "Solver: reported objective is the user's", "statement": "The objective value of the reported best solution is the user's objective (sense and offset included) evaluated at the reported point.", "quantifier": "every problem, including maximisation and non-zero offset", "why_tests_cant": "sense and offset must be right for every input", "anchors": ["minimip/solver.cc:Solve", "minimip/data_structures/mip_data.cc:MipData", "minimip/data_structures/problem.h:MiniMipSolution"]}
{"id": "C41", "title": "Convenience Solve returns the result", "statement": "The free function Solve(problem, parameters) returns the solver's result whenever solving succeeds.", "quantifier": "every problem and parameter set for which solving succeeds", "why_tests_cant": "holds or fails for all inputs at once", "anchors": ["minimip/solver.h:Solve"]}
{"id": "C42", "title": "Maximum-fractional branching", "statement": "If some integer variable is fractional beyond tolerance, the max-fractional rule returns such a variable whose distance to the nearest integer is maximal, and never a continuous or already integral variable.", "quantifier": "every LP solution, every set of integer variables", "why_tests_cant": "ranges over all solution vectors", "anchors": ["minimip/branching_interface/maxfractional_branching/maxfractional_branching.cc:NextBranchingVariable"]}
{"id": "C43", "title": "Random branching picks a fractional integer variable", "statement": "The random branching rule returns an integer variable whose LP value is fractional.", "quantifier": "every LP solution, every random outcome", "why_tests_cant": "depends on the random draw", "anchors": ["minimip/branching_interface/random_branching/random_branching.cc:NextBranchingVariable"]}
{"id": "C44", "title": "LP interface is a faithful store", "statement": "For every history of AddColumn(s), AddRow(s), SetColumnBounds, SetRowSides, SetObjectiveCoefficient, SetObjectiveSense, DeleteColumns, DeleteRows, DeleteRowSet and Clear, the getters return exactly the model described by the history.", "quantifier": "every finite history of modifications with valid indices", "why_tests_cant": "index shifting after deletions depends on the history", "anchors": ["minimip/lp_interface/lpi_glop.cc:AddColumn", "minimip/lp_interface/lpi_glop.cc:AddRow", "minimip/lp_interface/lpi_glop.cc:DeleteColumns", "minimip/lp_interface/lpi_glop.cc:DeleteRows", "minimip/lp_interface/lpi_glop.cc:DeleteRowSet"]}
{"id": "C45", "title": "DeleteRowSet returns the right mapping", "statement": "DeleteRowSet deletes exactly the marked rows, keeps the order of the others, and returns a mapping that sends each kept row to its new position and each deleted row to the invalid index.", "quantifier": "every LP, every deletion mask", "why_tests_cant": "ranges over all masks", "anchors": ["minimip/lp_interface/lpi_glop.cc:DeleteRowSet", "minimip/lp_interface/lpi_glop.cc:DeleteRowsAndUpdateCurrentBasis", "minimip/lp_interface/lpi_soplex.cc:DeleteRowSet"]}
{"id": "C46", "title": "Row deletion keeps the basis aligned", "statement": "After deleting rows, the remaining rows and all columns keep their basis status.", "quantifier": "every basis, every deletion mask", "why_tests_cant": "in-place compaction must be right for every mask", "anchors": ["minimip/lp_interface/lpi_glop.cc:DeleteRowsAndUpdateCurrentBasis"]}
{"id": "C47", "title": "IsSolved reflects modifications", "statement": "IsSolved() is true iff a solve method was called after the last modification of the LP.", "quantifier": "every history of modifications, file reads and solves", "why_tests_cant": "a single forgotten flag update needs the right history", "anchors": ["minimip/lp_interface/lpi_glop.cc:IsSolved", "minimip/lp_interface/lpi_glop.cc:ReadLpFromFile", "minimip/lp_interface/lpi_glop.cc:SolveInternal", "minimip/lp_interface/lpi_soplex.cc:IsSolved", "minimip/lp_interface/lpi_soplex.cc:ReadLpFromFile"]}
{"id": "C48", "title": "LP parameters: rejection is harmless and acceptance is faithful (Glop)", "statement": "SetLpParameters either returns an error and leaves the parameters as they were, or GetLpParameters then returns the parameters set (defaults resolved), and setting what was read back changes nothing.", "quantifier": "every parameter message", "why_tests_cant": "infinite parameter space", "anchors": ["minimip/lp_interface/lpi_glop.cc:SetLpParameters", "minimip/lp_interface/lpi_glop.cc:GetLpParameters", "minimip/lp_interface/lpi_glop.cc:LpParametersAreSupportedByGlop"]}
{"id": "C49", "title": "LP parameters: acceptance is faithful (SoPlex)", "statement": "After SetLpParameters returns OK on the SoPlex interface, GetLpParameters returns the parameters set (defaults resolved), including solve_from_scratch.", "quantifier": "every parameter message accepted", "why_tests_cant": "infinite parameter space", "anchors": ["minimip/lp_interface/lpi_soplex.cc:SetLpParameters", "minimip/lp_interface/lpi_soplex.cc:GetLpParameters"]}
{"id": "C50", "title": "LP parameter validation", "statement": "LpParametersAreValid returns OK exactly for messages whose tolerances are non-negative or -1, whose limits, interval, thread count and seed are non-negative, and whose time limit is positive when timing is on.", "quantifier": "every parameter message", "why_tests_cant": "infinite parameter space", "anchors": ["minimip/lp_interface/lpi.cc:LpParametersAreValid"]}
{"id": "C51", "title": "Strong branching covers every integer", "statement": "The down and up problems solved by SolveDownAndUpStrongBranch contain between them every integer value of the branching column within its bounds, and the reported validity flags refer to the right branch.", "quantifier": "every primal value, tolerance, column bounds and integer value", "why_tests_cant": "rounding with tolerance has measure-zero corner cases", "anchors": ["minimip/lp_interface/lpi_soplex.cc:SolveDownAndUpStrongBranch", "minimip/lp_interface/lpi_glop.cc:SolveDownAndUpStrongBranch"]}
{"id": "C52", "title": "Basis statuses survive a set/get round trip", "statement": "Setting basis statuses and reading them back gives the statuses set, for columns and rows.", "quantifier": "every vector of statuses", "why_tests_cant": "all status vectors of all sizes", "anchors": ["minimip/lp_interface/lpi_glop.cc:ConvertGlopVariableStatus", "minimip/lp_interface/lpi_glop.cc:SetBasisStatusForColumnsAndRows", "minimip/lp_interface/lpi_soplex.cc:GetBasisStatusForRows", "minimip/lp_interface/lpi_soplex.cc:SetBasisStatusForColumnsAndRows"]}
{"id": "C53", "title": "Failed basis load leaves the LP interface usable", "statement": "If SetBasisStatusForColumnsAndRows returns an error, later calls on the interface behave as if it had not been called.", "quantifier": "every status vector and later call (SoPlex)", "why_tests_cant": "needs an error followed by other calls", "anchors": ["minimip/lp_interface/lpi_soplex.cc:SetBasisStatusForColumnsAndRows", "minimip/lp_interface/lpi_soplex.cc:PreStrongBranchingBasisFreed"]}
{"id": "C54", "title": "Columns of the basis inverse", "statement": "GetSparseColumnOfBInverted(c) returns column c of the matrix whose rows GetSparseRowOfBInverted returns.", "quantifier": "every basis inverse, in dense or index-list representation", "why_tests_cant": "depends on the sparsity representation chosen at run time", "anchors": ["minimip/lp_interface/lpi_soplex.cc:GetSparseColumnOfBInverted", "minimip/lp_interface/lpi_soplex.cc:GetSparseRowOfBInverted", "minimip/lp_interface/lpi_glop.cc:GetSparseColumnOfBInverted"]}
{"id": "C55", "title": "Model conversion from MPModelProto", "statement": "MPModelProtoToMiniMipProblem returns an error for every model with general constraints, quadratic objective or annotations and for every model it cannot represent validly; otherwise it returns the problem with the same variables, constraints, objective, sense, offset and hints.", "quantifier": "every model proto", "why_tests_cant": "infinite input space", "anchors": ["minimip/utils/reader.cc:MPModelProtoToMiniMipProblem"]}
{"id": "C56", "title": "File extension check", "statement": "ReadMipProblemFromMPSFile rejects every existing path that does not end in .mps.", "quantifier": "every path string", "why_tests_cant": "wrap-around for short strings", "anchors": ["minimip/utils/reader.cc:ReadMipProblemFromMPSFile"]}
{"id": "C57", "title": "WriteLpToFile reports success correctly", "statement": "WriteLpToFile returns the path iff the file was written, and an error otherwise.", "quantifier": "every outcome of the underlying write", "why_tests_cant": "needs fault injection in the file system", "anchors": ["minimip/lp_interface/lpi_glop.cc:WriteLpToFile", "minimip/lp_interface/lpi_soplex.cc:WriteLpToFile"]}
{"id": "C58", "title": "User parameters override defaults", "statement": "For every user parameter message, the effective parameters have the user's value in each field the user set and the default elsewhere; in particular the user's cut selector and branching rule are the ones used.", "quantifier": "every user parameter message", "why_tests_cant": "infinite space of partially set messages", "anchors": ["minimip/parameters_factory.h:UserCustomizedParameters", "minimip/cutting_interface/default_runner.h:DefaultRunner", "minimip/branching_interface/branching_factory.h:CreateBranchingRule"]}
{"id": "C59", "title": "Cut efficacy is the distance to the LP point", "statement": "ComputeEfficacy of a cut with nonzero row is the signed Euclidean distance by which the LP point violates it: positive iff violated.", "quantifier": "every cut row, side and LP point", "why_tests_cant": "ranges over all points", "anchors": ["minimip/data_structures/cuts_data.cc:ComputeEfficacy", "minimip/data_structures/cuts_data.cc:CreateCut"]}
{"id": "C60", "title": "Tolerance helpers", "statement": "FloorWithTolerance(d) is an integer, equals floor(d) unless d is within the tolerance below the next integer, and differs from d by less than 1; IsIntegerWithinTolerance(d) holds iff some integer lies within the tolerance of d.", "quantifier": "every value and every tolerance in [0, 1/2)", "why_tests_cant": "infinite input space", "anchors": ["minimip/solver.h:IsIntegerWithinTolerance", "minimip/solver.h:FloorWithTolerance"]}
{"id": "C61", "title": "Cut statistics recorded at creation", "statement": "CreateCut records the row, side, name and flag it was given, the number of non-zero coefficients, the number of those on integer variables, and an objective parallelism that lies in [0,1] and is 1 for non-zero multiples of the objective.", "quantifier": "every clean row and objective, every set of integer variables", "why_tests_cant": "ranges over all rows and objectives", "anchors": ["minimip/data_structures/cuts_data.cc:CreateCut"]}
{"id": "C62", "title": "Cut score is the documented weighted sum", "statement": "For non-negative weights the score HybridSelector assigns to a cut is the weighted sum of its efficacy, its objective parallelism and its integer support (the fraction of its non-zeros on integer variables).", "quantifier": "every cut with at least one non-zero, every parameter set", "why_tests_cant": "quantifies over all real-valued statistics and weights", "anchors": ["minimip/cutting_interface/hybrid_selector.cc:ComputeCutScore", "minimip/parameters.proto:HybridSelectorParameters"]}
{"id": "C63", "title": "The side chosen for a row is usable and nearest", "statement": "When the generator chooses a side for the slack of each LP row, it chooses a finite side whenever the row has one, and among two finite sides the one nearer to the row activity.", "quantifier": "every LP, every activity vector", "why_tests_cant": "ranges over all activities and side combinations including one-sided rows", "anchors": ["minimip/cutting_interface/aggregating_generator.cc:ChooseActiveSidesByBasis"]}
{"id": "C64", "title": "Solving leaves the LP parameters unchanged", "statement": "A solve method of the LP interface, whatever it returns, leaves the LP parameters (GetLpParameters) as they were.", "quantifier": "every parameter setting and every sequence of results of the underlying solver", "why_tests_cant": "The effect shows only when an inner re-solve without scaling fails, or only in parameters that no test reads back after a solve.", "anchors": ["minimip/lp_interface/lpi_glop.cc:SolveInternal", "minimip/lp_interface/lpi_soplex.cc:SoPlexSolve"]}
{"id": "C65", "title": "LP parameters: rejection is harmless (SoPlex)", "statement": "If SetLpParameters on the SoPlex interface does not return OK, it returns an error (it does not abort) and GetLpParameters returns what it returned before.", "quantifier": "every parameter message and every state of the interface", "why_tests_cant": "infinite parameter space and every solver setting that may refuse a value", "anchors": ["minimip/lp_interface/lpi_soplex.cc:SetLpParameters"]}
{"id": "C67", "title": "A strong branching session leaves the LP interface as it was", "statement": "After StartStrongBranching, any SolveDownAndUpStrongBranch calls and EndStrongBranching, the LP, the basis, the LP parameters and IsSolved are what they were before the session.", "quantifier": "every LP, every sequence of strong branching calls, every result of the underlying solver", "why_tests_cant": "errors in one of several inner solves and restore steps must be combined with later reads of all state", "anchors": ["minimip/lp_interface/lpi_soplex.cc:StartStrongBranching", "minimip/lp_interface/lpi_soplex.cc:EndStrongBranching", "minimip/lp_interface/lpi_soplex.cc:SolveDownAndUpStrongBranch", "minimip/lp_interface/lpi_glop.cc:EndStrongBranching"]}
{"id": "C68", "title": "Status queries of the LP interface are consistent", "statement": "At most one of IsOptimal, IsPrimalInfeasible and IsPrimalUnbounded holds after a solve, and asking never aborts.", "quantifier": "every solver status the underlying LP solver can report", "why_tests_cant": "rare solver statuses cannot be provoked in tests", "anchors": ["minimip/lp_interface/lpi_soplex.cc:IsOptimal", "minimip/lp_interface/lpi_soplex.cc:IsPrimalInfeasible", "minimip/lp_interface/lpi_soplex.cc:IsPrimalUnbounded", "minimip/lp_interface/lpi_glop.cc:IsOptimal", "minimip/lp_interface/lpi_glop.cc:IsStable"]}
{"id": "C69", "title": "Rows of the basis inverse are exact", "statement": "GetSparseRowOfBInverted returns a clean sparse vector with exactly the elements of the requested row of the basis inverse.", "quantifier": "every row of every basis inverse, in dense or index-list representation", "why_tests_cant": "the representation is chosen at run time by the LP solver", "anchors": ["minimip/lp_interface/lpi_soplex.cc:GetSparseRowOfBInverted", "minimip/lp_interface/lpi_glop.cc:GetSparseRowOfBInverted"]}
{"id": "C66", "title": "The LP interface is loaded with exactly the relaxation of the problem", "statement": "After PopulateFromMipData the getters of the LP interface return the LP relaxation of the user's problem (bounds, sides, coefficients, minimisation objective), whatever LP the interface held before; its feasible points and objective values are those of the user's problem without integrality.", "quantifier": "every well-formed problem, every previous state of the interface", "why_tests_cant": "ranges over all problems and over lazily recomputed matrix states", "anchors": ["minimip/lp_interface/lpi_glop.cc:PopulateFromMipData", "minimip/lp_interface/lpi_soplex.cc:PopulateFromMipData", "minimip/data_structures/mip_data.cc:MipData"]}
{"id": "C70", "title": "Products of the basis inverse with the matrix are exact up to the tolerance", "statement": "GetSparseRowOfBInvertedTimesA and GetSparseColumnOfBInvertedTimesA return clean sparse vectors whose elements are those of the product of the basis inverse with the coefficient matrix the LP holds, except that elements of at most the feasibility tolerance may be 0.", "quantifier": "every LP, every basis inverse, every row and column, every representation the LP solver chooses", "why_tests_cant": "the representation is chosen at run time and the threshold only matters for tiny elements", "anchors": ["minimip/lp_interface/lpi_glop.cc:GetSparseRowOfBInvertedTimesA", "minimip/lp_interface/lpi_glop.cc:GetSparseColumnOfBInvertedTimesA", "minimip/lp_interface/lpi_soplex.cc:GetSparseRowOfBInvertedTimesA", "minimip/lp_interface/lpi_soplex.cc:GetSparseColumnOfBInvertedTimesA"]}
{"id": "C72", "title": "GetPrimalRay returns a ray of the LP", "statement": "If the LP solver holds a ray along which the LP is unbounded, GetPrimalRay returns a vector along which one can go arbitrarily far from every feasible point, staying feasible and improving the objective.", "quantifier": "every unbounded LP, every feasible point, every step length", "why_tests_cant": "no test calls GetPrimalRay and the direction can only be judged against all feasible points", "anchors": ["minimip/lp_interface/lpi_glop.cc:GetPrimalRay", "minimip/lp_interface/lpi_soplex.cc:GetPrimalRay"]}
{"id": "C73", "title": "Solver::Create", "statement": "For every well-formed problem and every parameter message whose LP parameters are valid and supported, Create returns a solver whose MipData represents the problem and whose LP interface holds its relaxation; for every invalid problem or unsupported LP parameters it returns an error; it never aborts.", "quantifier": "every problem, every user parameter message", "why_tests_cant": "infinite space of problems and partially set messages", "anchors": ["minimip/solver.h:Create", "minimip/lp_interface/lpi_factory.cc:CreateLpSolver", "minimip/cutting_interface/runner_factory.h:CreateCutRunner"]}
{"id": "C74", "title": "Every solution of the whole program is feasible", "statement": "After Solver::Create on a well-formed problem, every solution Solve stores satisfies all bounds and constraints of the problem as the user gave it, and its integer variables are integral within the integrality tolerance, provided the LP solver reports feasible points whenever it reports optimality.", "quantifier": "every well-formed problem, all parameters accepted by Create, both LP interfaces, every order of cuts, random numbers and LP answers, every iteration", "why_tests_cant": "the claim is about every problem and every run of the whole program; tests check a few instances", "anchors": ["minimip/solver.h:Create", "minimip/solver.cc:Solve"]}
{"id": "C75", "title": "The best solution of the whole program is optimal", "statement": "If Create succeeds on a well-formed problem whose objective is bounded on the relaxation and Solve returns OK, the best solution is at least as good as every feasible point of the problem in the sense the user asked for; if there is none, or Solve returns an error, the problem is infeasible; provided the LP solver answers rightly.", "quantifier": "every well-formed problem, all parameters accepted by Create, both LP interfaces, every right LP solver, every feasible point", "why_tests_cant": "optimality quantifies over all feasible points and all runs", "anchors": ["minimip/solver.h:Create", "minimip/solver.cc:Solve"]}
{"id": "C76", "title": "The whole program ends", "statement": "If all integer variables have finite bounds, Solve ends after a number of iterations that depends on the problem only, whatever the LP solver returns within its contract.", "quantifier": "every well-formed problem with bounded integer variables, all parameters, both LP interfaces, every LP solver within its contract", "why_tests_cant": "termination of all runs", "anchors": ["minimip/solver.cc:Solve"]}
{"id": "C77", "title": "The whole program does not crash", "statement": "On a well-formed problem, Solve after a successful Create never aborts and never runs into undefined behaviour if the calls of the LP solver return, and the only error it returns is the one for a root LP without optimum.", "quantifier": "every well-formed problem, all parameters, both LP interfaces, every LP solver whose calls return, any number of iterations", "why_tests_cant": "all runs", "anchors": ["minimip/solver.cc:Solve", "minimip/lp_interface/lpi_soplex.cc:SoPlexSolve", "minimip/lp_interface/lpi_glop.cc:SolveInternal"]}
{"id": "C78", "title": "Total correctness without cuts", "statement": "For a well-formed problem with bounded integer variables and bounded objective, with the cut runner off, the max-fractional rule, and valid LP parameters: Create succeeds, Solve returns within a number of iterations that depends on the problem only, and the outcome is right: an error only for infeasible problems, else a best solution that is feasible and optimal if the problem is feasible, and none if it is not.", "quantifier": "every such problem, every parameter message of that kind, every right LP solver", "why_tests_cant": "total correctness over all problems and runs", "anchors": ["minimip/solver.h:Create", "minimip/solver.cc:Solve"]}
{"id": "C79", "title": "The columns and rows in the basis are named right", "statement": "GetColumnsAndRowsInBasis names, for every row of the basis in the order of the LP solver, exactly the structural column or slack row that is basic there, for both interfaces.", "quantifier": "every LP, every basis of any size", "why_tests_cant": "all bases", "anchors": ["minimip/lp_interface/lpi_glop.cc:GetColumnsAndRowsInBasis", "minimip/lp_interface/lpi_soplex.cc:GetColumnsAndRowsInBasis"]}
{"id": "C80", "title": "The queries after a solve say how it ended", "statement": "After a solve whose LP solver calls return, IsSolved is true, the LP is unchanged, exactly the query that matches how the solve ended is true among IsOptimal, IsPrimalInfeasible, IsPrimalUnbounded and the three limit queries, and IsStable is true exactly if the solve ended with a proof or at a limit.", "quantifier": "every LP, every way a solve can end, all parameters, both interfaces", "why_tests_cant": "all ways a solve can end, including those rarely met", "anchors": ["minimip/lp_interface/lpi_glop.cc:SolveInternal", "minimip/lp_interface/lpi_soplex.cc:SoPlexSolve", "minimip/lp_interface/lpi.h:IsStable"]}
{"id": "C81", "title": "Dual rays prove infeasibility", "statement": "If the LP solver has a dual ray, GetDualRay returns one element per row and the vector is a Farkas proof that the stored LP has no feasible point.", "quantifier": "every infeasible LP, every dual ray, both interfaces", "why_tests_cant": "all LPs and rays", "anchors": ["minimip/lp_interface/lpi_glop.cc:GetDualRay", "minimip/lp_interface/lpi_soplex.cc:GetDualRay"]}
{"id": "C82", "title": "Primal and dual values prove optimality", "statement": "After a solve to optimality, GetPrimalValues, GetDualValues, GetReducedCosts and GetRowActivities return vectors of the sizes of the LP; the activities belong to the primal point, and the three others together prove that the point is optimal for the stored LP in its sense. SoPlex ends the process if values are asked for without optimality.", "quantifier": "every LP solved to optimality, both senses, both interfaces", "why_tests_cant": "all LPs", "anchors": ["minimip/lp_interface/lpi_glop.cc:GetPrimalValues", "minimip/lp_interface/lpi_soplex.cc:GetPrimalValues"]}
{"id": "C83", "title": "Total correctness with cuts", "statement": "For a well-formed problem with bounded non-negative integer variables, integral sides and bounded objective, with the cut runner on, the max-fractional rule, integrality tolerance 0 and valid LP parameters: Create succeeds, Solve returns within a number of iterations that depends on the problem only, without abort or undefined behaviour, and the outcome is right in the sense of C78.", "quantifier": "every such problem, every parameter message of that kind, every right LP solver that keeps a basis of the LP", "why_tests_cant": "total correctness over all problems and runs", "anchors": ["minimip/solver.cc:Solve", "minimip/cutting_interface/default_runner.cc:SeparateCurrentLPSolution", "minimip/cutting_interface/aggregating_generator.cc:GenerateCuttingPlanes"]}
{"id": "C84", "title": "Calling Solve again", "statement": "After Solve has returned OK, Solve may be called again on the same Solver: the second call returns OK too and stores a solution that is feasible and optimal, as the first one did; it never ends the process.", "quantifier": "every problem, parameters and right LP solver; any number of calls", "why_tests_cant": "all histories of calls; the failure needs a search that branched", "anchors": ["minimip/solver.cc:Solve", "minimip/data_structures/mip_tree.cc:SetLpRelaxationDataInNode"]}
{"id": "C85", "title": "No cuts for an LP without a solution", "statement": "A round of cut separation starts only if the LP was solved since its last change and that solve neither found it infeasible or unbounded nor hit a time, iteration or objective limit; otherwise SeparateCurrentLPSolution returns OK without any effect: no cut is generated, registered or added, and the LP is not solved again.", "quantifier": "every state of the LP interface of either kind, every behaviour of the LP code, every round of every call", "why_tests_cant": "needs LP states that a test cannot bring about at will, in the middle of a call", "anchors": ["minimip/cutting_interface/default_runner.cc:MayRunOneMoreSeperationRound", "minimip/cutting_interface/default_runner.cc:SeparateCurrentLPSolution", "minimip/lp_interface/lpi_glop.cc", "minimip/lp_interface/lpi_soplex.cc"]}
{"id": "C86", "title": "Branch and bound decides exactly in floating-point arithmetic", "statement": "For every LP solution made of doubles: the integrality test with tolerance, computed in IEEE arithmetic, says exactly whether the value is within the tolerance of an integer; FloorWithTolerance returns the exact result; the bounds of the children of a node are doubles and no integer is lost between them; the max-fractional rule returns an integer variable that is not integral within the tolerance, whose computed fractional part is largest (exact for values outside (-1/2, 0), up to 2^-52 otherwise); and Solve with this rule ends on bounded integer variables.", "quantifier": "every double, every tolerance, every list of doubles, every LP solver whose solutions are doubles", "why_tests_cant": "rounding errors show only for particular bit patterns, such as tiny negative values or values near 2^52", "anchors": ["minimip/solver.h:IsIntegerWithinTolerance", "minimip/solver.h:FloorWithTolerance", "minimip/data_structures/mip_data.cc:SolutionIsIntegral", "minimip/branching_interface/maxfractional_branching.cc:NextBranchingVariable", "minimip/solver.cc:Solve"]}
{"id": "C87", "title": "Sparse vector invariant in floating-point arithmetic", "statement": "In IEEE arithmetic with rounding, underflow, overflow, infinities and NaN: whenever a vector does not ask for cleaning its indices are strictly increasing and no stored value is zero; cleaning establishes this; adding a multiple of a clean vector to a clean vector returns a clean vector; scaling by a non-zero number keeps it.", "quantifier": "every sequence of calls that respects the preconditions, all doubles including infinities and NaN", "why_tests_cant": "underflow to zero needs particular operands, and the stored zero has no visible effect until an operation relies on its absence", "anchors": ["minimip/data_structures/strong_sparse_vector.h:AddEntry", "minimip/data_structures/strong_sparse_vector.h:CleanUpIfNeeded", "minimip/data_structures/strong_sparse_vector.h:Transform", "minimip/data_structures/strong_sparse_vector.h:AddMultipleOfVector", "minimip/data_structures/strong_sparse_vector.h:operator*="]}
{"id": "C88", "title": "Accuracy of sparse vector arithmetic", "statement": "Adding s times a clean vector to a clean vector gives at every index the rounded sum of the value a there and the rounded product b s, and if finite it is exact up to u abs(a) + (2u+u^2) abs(b s) + (1+u) eta with u = 2^-53 and eta = 2^-1075; a finite computed dot product of clean vectors with n entries in the first is within ((1+u)^(n+1)-1) sum abs(v_i w_i) + n (1+u)^n eta of the exact one, and all values at common indices are finite.", "quantifier": "all clean vectors of any length, all double values including infinities and NaN, all scalars", "why_tests_cant": "the error depends on all values and on the order of summation; tests compare with a tolerance on few vectors", "anchors": ["minimip/data_structures/strong_sparse_vector.h:AddMultipleOfVector", "minimip/data_structures/strong_sparse_vector.h:DotProduct"]}
{"id": "C89", "title": "Branch and bound on an LP solver with tolerances", "statement": "If the LP solver's optimal solutions satisfy bounds and rows up to eps, its objective values are right up to delta and it only rejects LPs without a feasible point, then: when Solve returns OK every stored solution satisfies bounds and rows of the problem up to eps and is integral up to the integrality tolerance, and if the problem has a feasible point there is a best solution that is worse by at most 2 delta (errors do not add up over nodes); when Solve reports an error the problem is infeasible; and with finite bounds on the integer variables Solve ends.", "quantifier": "every problem, every such LP solver, every branching rule, every eps and delta, any number of nodes", "why_tests_cant": "an LP solver's error on a particular LP cannot be prescribed in a test, and a run that does not end shows only for particular errors", "anchors": ["minimip/solver.cc:Solve", "minimip/data_structures/mip_data.cc:SolutionIsIntegral", "minimip/branching_interface/maxfractional_branching.cc:NextBranchingVariable"]}
{"id": "C90", "title": "The whole program on LP code with tolerances", "statement": "For Create followed by Solve with both LP interfaces: if the LP code answers rightly up to eps (bounds and rows) and delta (objective), the solutions returned satisfy the user's bounds and constraints up to eps and integrality up to the tolerance, the best one is worse than any feasible point by at most 2 delta, an error is returned only for infeasible problems, and Solve ends.", "quantifier": "every well-formed problem with finite bounds on integer variables and a bounded objective, all parameters, every LP code with these tolerances, eps at most the integrality tolerance", "why_tests_cant": "the errors of the LP code are not under the control of a test, and the claim is about all problems and any number of LP solves", "anchors": ["minimip/solver.cc:Solve", "minimip/solver.h:Create", "minimip/lp_interface/lpi_glop.cc:SolveLpWithDualSimplex", "minimip/lp_interface/lpi_soplex.cc:SolveLpWithDualSimplex"]}
{"id": "C91", "title": "Cuts generated in floating-point arithmetic", "statement": "A cut the tableau rounding generator computes in doubles, from LP answers that are the exact ones correctly rounded, is violated by no feasible point of the problem, or at most by an amount that is a small multiple of the rounding errors.", "quantifier": "every aggregated row of doubles of moderate size, every feasible point, every tolerance", "why_tests_cant": "rounding depends on every bit of the data; a sample of rows cannot cover the bits, and the wrong cut differs from the right one by the last bit of an intermediate result", "anchors": ["minimip/cutting_interface/aggregating_generator.cc:MIRRounder::RoundAggregatedRow", "minimip/cutting_interface/aggregating_generator.cc:StrongCGRounder::RoundAggregatedRow", "minimip/cutting_interface/aggregating_generator.cc:TableauRoundingGenerator::GenerateCuttingPlanes"]}
{"id": "C92", "title": "Solve with cuts computed in floating-point arithmetic", "statement": "With the default parameters, and an LP solver whose answers are right up to rounding to doubles, Solve on a bounded problem with integral data and finite bounds ends, and the objective value of the best solution it returns as optimal is that of an optimal solution up to rounding errors.", "quantifier": "every well-formed bounded problem with integral data, every right LP solver, every sorting algorithm", "why_tests_cant": "a wrong cut depends on the last bit of an intermediate result in the generator and on the score the selector gives it; a run that loses the optimum still reports optimal", "anchors": ["minimip/solver.cc:Solver::Solve", "minimip/cutting_interface/aggregating_generator.cc:StrongCGRounder::RoundAggregatedRow", "minimip/cutting_interface/hybrid_selector.cc:HybridSelector::SelectCuttingPlanes", "minimip/cutting_interface/default_runner.cc:DefaultRunner::SeparateCurrentLPSolution"]}
{"id": "C93", "title": "From a model to its solution", "statement": "For a linear, well-formed MPModelProto whose integer variables have finite bounds, reading it (from a string or from an existing .mps file), Solver::Create on the problem that was read and Solve end with a right outcome for the model itself: an error only if the model has no feasible point or is unbounded, OK only if it is not unbounded, OK without a solution only if it has no feasible point, otherwise a solution within all bounds and constraints, integral within the tolerance, and at least as good as every feasible point of the model.", "quantifier": "All models, paths, valid parameters without cuts and without random branching, and all LP code that answers rightly.", "why_tests_cant": "A test reads a handful of files and compares with known optima; it cannot cover all models, and it compares with what the reader made of the file.", "anchors": ["minimip/utils/reader.cc:22-112", "minimip/solver.h:40-75", "minimip/solver.cc:25-156"]}
{"id": "C94", "title": "Equivalent problems get equal answers", "statement": "Two problems of the same sense whose feasible points have the same objective values (the same problem, constraints in another order, an implied constraint added, ...) get the same answer at integrality tolerance 0 whatever the configuration of each run: Glop or SoPlex, with one round of cuts or without, any branching direction, backtrack limit and LP parameters. Both runs end, and either both report no solution or both report solutions of equal objective.", "quantifier": "All pairs of such problems, all covered configurations and all pairs of LP codes that answer rightly.", "why_tests_cant": "It relates two runs; tests compare a few pairs of configurations on a few problems.", "anchors": ["minimip/solver.cc:25-156", "minimip/solver.h:40-75", "minimip/parameters_factory.h:30-96"]}
{"id": "C95", "title": "What the cut generator returns in floating-point arithmetic", "statement": "Whatever the numbers of the LP and the answers of its solver: the generator makes cuts for an optimally solved LP only, fewer than the limit plus the number of rounders; every cut comes from a tableau row whose basic variable is an integer variable that is farther than the tolerance from every integer; its row has strictly increasing non-negative indices and no stored zeros if the LP rows do; and the LP optimum violates it up to the rounding errors of one dot product, unless coefficients are infinite or huge.", "quantifier": "All LPs, answers of the LP solver, lists of rounders and limits, with IEEE double arithmetic.", "why_tests_cant": "The claim covers all roundings and all sizes of numbers; a test sees the roundings of its own instances.", "anchors": ["minimip/cutting_interface/aggregating_generator.cc:279-283", "minimip/cutting_interface/aggregating_generator.cc:365-473", "minimip/data_structures/strong_sparse_vector.h:126-134"]}
{"id": "C96", "title": "A wrong answer leaves its evidence in the registry", "statement": "Whatever cuts the generators make, right or wrong: when Solve returns OK, every feasible point of the user's problem that satisfies all cuts of the registry is no better than the reported solution, up to twice the tolerance of the LP code, and a solution is reported if there is such a point. So if Solve reports a wrong optimum, or none for a feasible problem, the points it lost violate a cut that is still in the registry.", "quantifier": "All well-formed problems, all parameters, both LP interfaces, all generators and selectors that only read the LP, all LP codes that answer rightly up to tolerances, all numbers of nodes and cut rounds.", "why_tests_cant": "It speaks of every possible cut and every point cut off; a test knows the lost points of its own instances only.", "anchors": ["minimip/solver.cc:25-156", "minimip/cutting_interface/default_runner.cc:22-113", "minimip/data_structures/cuts_data.h:60-140"]}
{"id": "C97", "title": "The LP that Solve leaves", "statement": "When Solve returns OK, the LP holds the objective of the problem (negated for maximization), its constraints in order with their sides and coefficients, and after them exactly the cuts of the registry, one row each, in the order of their indices, unbounded below. No cut is lost, duplicated or removed through all rounds of all nodes.", "quantifier": "All well-formed problems, all parameters, both LP interfaces, all answers of the LP code, all numbers of nodes and rounds.", "why_tests_cant": "The rows are changed by every round in every node; a test looks at a few short runs, and the tests of the runner use one call.", "anchors": ["minimip/solver.cc:25-156", "minimip/cutting_interface/default_runner.cc:22-113", "minimip/lp_interface/lpi_glop.cc:150-330", "minimip/data_structures/cuts_data.h:60-140"]}
{"id": "C98", "title": "Cut generators and selectors of the user", "statement": "With generators and a selector of the user that only read the LP and the solution, Solve keeps its promises: every reported solution satisfies bounds and constraints up to the tolerance of the LP code and integrality up to the integrality tolerance, Solve ends, and if every cut is satisfied by every feasible point of the problem whenever the LP was a relaxation, the reported solution is within twice the LP accuracy of the best.", "quantifier": "All well-formed problems, all parameters, both LP interfaces, all lists of generators and all selectors that meet the contract, all answers of the LP code.", "why_tests_cant": "The plug-ins are open: a test has a few of them, the claim is about every one a user can write.", "anchors": ["minimip/cutting_interface/cuts_generator.h:30-46", "minimip/cutting_interface/cuts_selector.h:30-53", "minimip/cutting_interface/default_runner.cc:22-113", "minimip/solver.cc:25-156"]}
{"id": "C99", "title": "Cut selection in floating-point arithmetic", "statement": "Computed in doubles, the efficacy of a cut is its violation divided by the length of its row and the parallelism is the cosine of the angle to the objective, up to rounding proportional to the number of columns; the score is the weighted sum of the measures up to four roundings; the selector has defined behaviour and returns distinct candidates with non-increasing scores of at least the threshold, no unforced one of which is more parallel to an earlier one than allowed up to rounding, and leaves none out without a reason.", "quantifier": "All rows, right-hand sides and LP optima of doubles with up to 2^30 columns, all parameters, all behaviours of std::sort on ties and all square roots that meet IEEE 754.", "why_tests_cant": "Rounding depends on every bit of the inputs and std::sort is free on ties; tests use small integers for which all operations are exact.", "anchors": ["minimip/data_structures/cuts_data.cc:34-71", "minimip/cutting_interface/hybrid_selector.cc:26-122"]}
{"id": "C100", "title": "Solve works with every tolerance Create accepts", "statement": "If Create accepts the parameters, the integrality tolerance among them is one with which Solve can work: it is less than 1/2, and on a feasible, bounded problem with integer variables Solve ends with a solution that is integral up to the tolerance and at least as good as every feasible point.", "quantifier": "Every well-formed problem, every tolerance the user sets, every LP code that answers rightly.", "why_tests_cant": "Tests use the default tolerance; an unusable one shows only as a run that does not end or a result without solution.", "anchors": ["minimip/solver.h:38-72,104-114", "minimip/solver.cc:27-153", "minimip/parameters.proto:209-212"]}
{"id": "C101", "title": "Setting up the data rounds nothing, and only finite data gets in", "statement": "Building MipData from a problem gives, in double precision, exactly the numbers of the problem: objective, bounds, sides and matrix coefficients are those the user gave (the objective negated for a maximisation), whether read by row or by column, and a problem that passes the validation has a finite offset, finite objective coefficients and finite matrix coefficients.", "quantifier": "Every problem, every order of the hash set of integer variables.", "why_tests_cant": "Rounding in the set-up or an infinite coefficient let through would only show as a slightly or wildly wrong LP far from its cause.", "anchors": ["minimip/data_structures/problem.h:44-72", "minimip/data_structures/problem.cc:18-67", "minimip/data_structures/mip_data.cc:18-126", "minimip/data_structures/strong_sparse_matrix.cc:31-205"]}
{"id": "C102", "title": "The factories make what the message describes", "statement": "CreateCutGenerator, CreateCutSelector, CreateCutRunner and CreateBranchingRule return the plug-in the message describes, with the values set and the documented defaults otherwise, and an error status if the message chooses no plug-in; they never end the process.", "quantifier": "Every parameter message.", "why_tests_cant": "The messages the tests use are complete; an incomplete one reaches the factories only from code that builds its own parameters.", "anchors": ["minimip/cutting_interface/generator_factory.h:23-31", "minimip/cutting_interface/selector_factory.h:23-31", "minimip/cutting_interface/runner_factory.h:24-31", "minimip/cutting_interface/default_runner.h:34-55", "minimip/branching_interface/branching_factory.h:25-34"]}
{"id": "C103", "title": "The LP that is solved is the LP that is stored", "statement": "Each solve hands the simplex code exactly the LP that the getters of the interface describe at that moment, scaled exactly if the scaling parameter is on; strong branching hands over that LP with only the bounds of the branching column replaced. No earlier LP is ever solved in its place.", "quantifier": "Every sequence of modifications, solves (also failing ones and ones repeated without scaling), strong branching, basis loads, parameter changes and file reads on the Glop interface.", "why_tests_cant": "The interface solves a copy of the LP; a stale copy only shows when calls are interleaved in an order the tests do not try.", "anchors": ["minimip/lp_interface/lpi_glop.cc:545-620", "minimip/lp_interface/lpi_glop.cc:666-737", "minimip/lp_interface/lpi_glop.cc:1377-1387"]}
{"id": "C104", "title": "Integer variables without finite bounds", "statement": "Create followed by Solve also ends when integer variables have infinite bounds: with the optimal solution if there is one, with no solution if the problem is infeasible, and with the error if the objective is unbounded.", "quantifier": "Every well-formed problem, whatever bounds its integer variables have; every LP code that answers rightly.", "why_tests_cant": "Whether branch and bound ends without finite bounds depends on the shape of the set of optimal points, not on a size a test could vary; a run that does not end is indistinguishable from a slow one.", "anchors": ["minimip/solver.cc:28-155", "minimip/branching_interface/maxfractional_branching.cc:19-54", "minimip/data_structures/problem.h:30-60"]}
{"id": "C105", "title": "Rounding the returned solution", "statement": "Rounding the integer variables of the best solution that Create followed by Solve returns gives a feasible and optimal point of the user's problem; if the problem is infeasible, no solution is returned.", "quantifier": "Every well-formed problem that Solve ends on, feasible or not; every integrality tolerance from zero up to one half; every LP code that answers rightly.", "why_tests_cant": "The failing problems are those in which the size of a coefficient times the tolerance is not small; tests use coefficients of ordinary size and compare with the same tolerance.", "anchors": ["minimip/solver.cc:103-135", "minimip/data_structures/mip_data.cc:114-130", "minimip/parameters.proto:205-213"]}
{"id": "C106", "title": "Exceptions of SoPlex in strong branching", "statement": "If SoPlex throws during SolveDownAndUpStrongBranch, the SoPlex interface returns an error, as its other calls that run SoPlex do, and the LP and the iteration limit are what they were before the call.", "quantifier": "Every LP, column, value, tolerance and iteration limit; every answer and every exception of SoPlex, in either branch.", "why_tests_cant": "SoPlex throws on singular bases and failures of its factorisation, which a test cannot bring about at will.", "anchors": ["minimip/lp_interface/lpi_soplex.cc:262-404", "minimip/lp_interface/lpi_soplex.cc:108-149"]}
{"id": "C107", "title": "How many iterations Solve needs", "statement": "No bound on the iterations of Solve that is less than exponential in the number of integer variables holds, even with one constraint: for every m there is a problem with 2m+2 binary variables and one constraint, whose optimum is 1, on which Solve needs at least 2^(m+2) and at most 2^(2m+3) iterations.", "quantifier": "Every m; every parameter choice with cuts switched off, max-fractional branching and a tolerance below 1/(4m+2); both LP interfaces; every LP code that answers rightly and returns, whichever optimal point it chooses at each node.", "why_tests_cant": "The number of iterations depends on which optimal point the LP code returns at each node; a lower bound over all of them, for every m, cannot be observed.", "anchors": ["minimip/solver.cc:28-155", "minimip/branching_interface/maxfractional_branching.cc:19-54"]}
{"id": "C108", "title": "LPs that the LP code gives up on", "statement": "If Solve returns OK, no feasible point of the user's problem is better than the best solution by more than the tolerances of the LP code, even if the LP code stops at a time, iteration or objective limit in some nodes, that is, answers neither that the LP is optimal nor that it is infeasible or unbounded. If the LP code stops at a limit in the root, Solve does not say that the problem is infeasible or unbounded.", "quantifier": "Every well-formed problem, every parameter choice accepted by Create, both LP interfaces, every LP code that is right where it claims an optimum and stops wherever it likes; every number of iterations.", "why_tests_cant": "Tests use LPs that are solved within milliseconds; where an LP code stops, and which points are lost by it, is a matter of every node of every tree.", "anchors": ["minimip/solver.cc:75-96", "minimip/solver.cc:153-154", "minimip/lp_interface/lpi_glop.cc:546-620", "minimip/lp_interface/lpi_glop.cc:807-850", "minimip/lp_interface/lpi_soplex.cc:1082-1125", "minimip/parameters.proto:175-195"]}
{"id": "C109", "title": "The tree that Solve leaves behind", "statement": "When Solve returns OK the tree has been explored, so all nodes have been closed and reclaimed: TreeIsEmpty() is true. Whatever nodes are left, they belong to solutions: nodes without open children are as many as there are solutions in the result, and each shows the objective value of one of them.", "quantifier": "Every well-formed problem, every parameter choice accepted by Create, with and without cuts, both LP interfaces, every LP code (right or wrong), every number of iterations.", "why_tests_cant": "Which nodes are left depends on the whole history of the search; the unit tests only close nodes by hand and never look at the tree of a solver after Solve.", "anchors": ["minimip/solver.cc:82-96", "minimip/solver.cc:102-130", "minimip/data_structures/mip_tree.h:114-130", "minimip/data_structures/mip_tree.h:164-177", "minimip/data_structures/mip_tree.cc:62-98"]}
{"id": "C110", "title": "Equivalent problems at every tolerance and with every rule", "statement": "If the feasible points of two problems correspond to each other with the same objective values (constraints scaled, repeated, reordered or tightened without changing a feasible point; variables renamed or substituted), and Solve returns on both, the optima it reports are the same, or it reports none for both; also with different parameters, LP interfaces, branching rules and LP code. C94 is the case of tolerance 0, bounded integer variables and no random branching, in which both runs also end.", "quantifier": "All pairs of equivalent well-formed problems (neither objectives nor integer variables need be bounded), all parameters including the tolerance, with and without cuts, every branching rule, both LP interfaces, all LP code that answers rightly, every number of iterations.", "why_tests_cant": "A relation between two runs over all pairs of formulations of all problems and all LP codes; a test compares single numbers.", "anchors": ["minimip/solver.cc:28-155", "minimip/data_structures/mip_data.cc:114-125", "minimip/parameters.proto:209-212"]}
{"id": "C111", "title": "result() describes how Solve ended", "statement": "After Solve has returned, every field of the result that result() shows has been set: the status says what is known (kOptimal with a solution, kInfeasible or kInfeasibleOrUnbounded when there is none, an error status after an error), and the stopping reason, the error message and both bounds have values.", "quantifier": "All problems, all parameters, both LP interfaces, with and without cuts, all LP code, every number of iterations, runs that return OK and runs that return an error.", "why_tests_cant": "Reading a member that was never set gives some value, often zero, so a test on one build sees a plausible number; and no test looks at these members after an error.", "anchors": ["minimip/data_structures/problem.h:92-101", "minimip/data_structures/problem.h:121-170", "minimip/solver.cc:81-87", "minimip/solver.cc:152-155", "minimip/solver.h:53"]}
{"id": "C112", "title": "The memory the search needs is bounded by the depth of the tree", "statement": "At every point of a run of Solve the number of open nodes in the queue is at most the length of the longest path of the search tree plus one, which is bounded by the sum of the widths of the bounds of the integer variables: the search plunges in depth-first manner, as the documentation of backtrack_limit says, so there is at most one open sibling per level.", "quantifier": "All well-formed problems with finite bounds of the integer variables, all parameters with max fractional branching, all LP code that reports feasible points, every number of iterations; the negation for a family of problems of every size, and all LP code that is right.", "why_tests_cant": "The queue is a local variable of Solve; tests see it only when memory runs out, which takes problems with far more variables than those of the tests.", "anchors": ["minimip/solver.cc:30-34", "minimip/solver.cc:42-60", "minimip/solver.cc:89-96", "minimip/solver.cc:145-151", "minimip/parameters.proto:228-238"]}
{"id": "C113", "title": "backtrack_limit 0 leaves and 1 explores the sibling of an infeasible node", "statement": "When the first child of a node that was branched on turns out infeasible, the next node Solve explores is the sibling of that child if backtrack_limit is 1 or more, and another open node, nearer to the root, if backtrack_limit is 0 and there is one.", "quantifier": "All problem data, all LP and branching code with values for all columns, all reachable states of Solve, all limits.", "why_tests_cant": "Which node is explored next is not observable through the API, and both orders find the same optimum, so a test on the result passes for either meaning.", "anchors": ["minimip/parameters.proto:228-238", "minimip/solver.cc:42-60", "minimip/solver.cc:89-96", "minimip/solver.cc:145-151"]}
{"id": "C114", "title": "The error of Solve means that there is no optimum", "statement": "Solve returns its error \"The problem is infeasible or unbounded\" only if the problem has no feasible point or its objective takes arbitrarily good values at feasible points, and it never returns OK for a problem whose objective is unbounded.", "quantifier": "All well-formed problems, bounded or not, all parameters, both LP interfaces, all LP code that answers rightly, all numbers of iterations.", "why_tests_cant": "A test would need the unbounded and infeasible problems of all shapes; that an unbounded relaxation of a feasible mixed-integer problem makes the problem itself unbounded is a theorem about rational polyhedra, not something a run shows.", "anchors": ["minimip/solver.cc:28-155", "minimip/solver.cc:80-88", "minimip/lp_interface/lpi_glop.cc:807-810"]}
{"id": "C115", "title": "Sense, offset, hints and names have no influence on the run", "statement": "A maximisation problem is run exactly as the minimisation of the negated objective, and the offset, the solution hints and the name of the problem play no part: on two problems that differ in nothing else, Create ends in the same way, and Solve takes the same steps, ends in the same way and leaves the same result, tree, LP and cuts. With SoPlex the names of variables and constraints play no part either.", "quantifier": "All pairs of such problems, well-formed or not, all parameters, both LP interfaces, all LP code (right or wrong), all branching rules, any number of iterations, with the generators of the program in exact arithmetic and in doubles and with those of the user.", "why_tests_cant": "It compares two runs on every problem and every LP code; a test compares results of a few runs and cannot see that no field is read anywhere.", "anchors": ["minimip/data_structures/mip_data.cc:31-112", "minimip/lp_interface/lpi_glop.cc:159-183", "minimip/lp_interface/lpi_soplex.cc:410-454", "minimip/solver.h:38-72", "minimip/solver.cc:25-156"]}
{"id": "C116", "title": "Every documented parameter takes effect", "statement": "A run does what parameters.proto says of each parameter that is not marked as demonstrative. In particular the limits on the number of cuts (in total, at the root, per node), the cut selectors and generators the user describes, the maximum tree depth of a selector, its orthogonality at the root and the numerical tolerance each influence the run, and parameters that forbid cuts at the root leave no cut there.", "quantifier": "All problems, well-formed or not, all pairs of parameter messages, both LP interfaces, all LP code (right or wrong), any number of iterations, with the generators of the program in exact arithmetic and in doubles and with those of the user.", "why_tests_cant": "That a parameter has no influence is a statement on all pairs of runs; a test can only show that two runs differ or that some runs do not.", "anchors": ["minimip/parameters.proto:28-241", "minimip/cutting_interface/default_runner.cc:22-72", "minimip/cutting_interface/hybrid_selector.cc:74-122", "minimip/parameters_factory.h:24-92", "minimip/solver.h:38-72"]}
{"id": "C117", "title": "Nodes that cannot contain a better solution are not branched on", "statement": "Once Solve has found a feasible solution, it does not branch on a node whose LP value is no better than the value of the best solution found; nor does it branch on nodes whose LP is not optimal or whose LP solution is integral. The nodes processed thus depend on the solutions found so far.", "quantifier": "All problems, parameters, LP interfaces and LP code, all reachable states of the loop of Solve; for the independence of the search from the solutions also all separation and branching code, all states and all results.", "why_tests_cant": "A missing prune changes no result: every test that compares solutions passes. It shows only as work, on problems large enough, and that no solution whatsoever influences the search is a statement on all pairs of runs.", "anchors": ["minimip/solver.cc:28-155", "minimip/solver.h:119-129", "minimip/data_structures/problem.h:92-118"]}
{"id": "C118", "title": "The work of a run is limited: LPs solved, rounds of cuts, rows of the LP", "statement": "Solve solves exactly one LP for every iteration of its loop and one for every round of cuts. The parameter max_iterations limits the rounds of cuts of the whole run, not of a node, so the LP never has more rows than the problem has constraints plus max_iterations times the cuts of one round; with nothing said about cuts these are 100 rounds and 10100 rows. With finite bounds on the integer variables and the max fractional rule the number of LPs is limited in advance by the bounds and max_iterations.", "quantifier": "All problems that pass validation, parameters, LP interfaces and LP code, all numbers of iterations; cut generators and selector as in the code, in exact numbers and in doubles, and any others that leave the LP alone.", "why_tests_cant": "The counter of rounds is shared by all nodes and never reset; a reset per node, a solve too many or a cut added twice changes no result, and on small tests no limit is reached.", "anchors": ["minimip/solver.cc:36-152", "minimip/cutting_interface/default_runner.cc:21-117", "minimip/cutting_interface/cuts_runner.h:36-79", "minimip/cutting_interface/aggregating_generator.cc:365-473", "minimip/cutting_interface/hybrid_selector.cc:74-122"]}
{"id": "C119", "title": "What Solve guarantees whatever the LP code answers", "statement": "If cuts are turned off, or the installed cut generators and selector do nothing undefined, leave the LP alone and return cuts on the variables of the problem, then Solve never does anything undefined, whatever the LP code answers. Every solution it returns has a value for each variable, is integral up to the tolerance on the integer variables, and is the point and the value that the LP code reported together as optimal for an LP with all the rows of the problem and bounds no wider than the user's.", "quantifier": "All problems that pass validation, parameters with a tolerance that is not negative, LP interfaces, all LP code including code that reports wrong points, wrong statuses or different answers each time, and all numbers of iterations.", "why_tests_cant": "Tests run with an LP solver that answers rightly; the answers that an unstable or broken LP solver may give are not enumerable.", "anchors": ["minimip/solver.cc:28-155", "minimip/branching_interface/maxfractional_branching.cc", "minimip/branching_interface/random_branching.cc", "minimip/cutting_interface/default_runner.cc:21-117", "minimip/data_structures/mip_data.cc"]}
{"id": "C120", "title": "The assertions hold: debug and release builds do the same", "statement": "A failed DCHECK aborts the process in a build with assertions and is ignored in a build without. For every problem that passes validation no assertion on the way from Create to the end of Solve fails, so that both builds return the same; and where an assertion fails, that is the only difference: up to there both builds do the same.", "quantifier": "All problems that pass validation, all parameters, LP interfaces and LP code, all numbers of iterations; the assertions of MipData, SetColumnBounds, GetPrimalValues, GetObjectiveValue, the tableau generator and CutData.", "why_tests_cant": "Tests run in one of the two builds; an assertion that fails only for some order of the variables of a row or some tableau row shows up only in the debug build and only on such an input.", "anchors": ["minimip/data_structures/mip_data.cc:31-112", "minimip/data_structures/strong_sparse_vector.h:136-141", "minimip/data_structures/strong_sparse_matrix.cc:98-110", "minimip/cutting_interface/aggregating_generator.cc:59-79", "minimip/cutting_interface/aggregating_generator.cc:333-360", "minimip/data_structures/cuts_data.h:115-122", "minimip/lp_interface/lpi_glop.cc:382-385"]}
{"id": "C121", "title": "The assertions of the Glop interface hold after every sequence of calls", "statement": "After the constructor and any sequence of changes of parameters, changes of the LP, solves and strong branching, the calls SolveLp, GetLpParameters, IterationLimitIsExceeded and IsStable raise no assertion in a build with assertions, and return what they return in a build without.", "quantifier": "All sequences of calls of any length, all parameters accepted or refused, all answers and statuses of the solver.", "why_tests_cant": "A test makes a few calls in one order and its solves end optimal; the assertions fail after a limit, a failed solve or strong branching.", "anchors": ["minimip/lp_interface/lpi_glop.cc:139-153", "minimip/lp_interface/lpi_glop.cc:545-620", "minimip/lp_interface/lpi_glop.cc:666-737", "minimip/lp_interface/lpi_glop.cc:812-855", "minimip/lp_interface/lpi_glop.cc:866-880", "minimip/lp_interface/lpi_glop.cc:1136-1216"]}
{"id": "C122", "title": "Filling the LP raises no assertion", "statement": "For every problem that passes validation with in-range indices, PopulateFromMipData of either LP interface raises no assertion in a build with assertions and leaves the interface as a build without does; AddRow raises none exactly for rows that are clean, lie on columns of the LP and hold no infinite value.", "quantifier": "All problems of any size, all states of the interface before the call, all rows.", "why_tests_cant": "A test loads a few problems with small coefficients; the assertion on infinite coefficients fails only for values that validation does not look at.", "anchors": ["minimip/lp_interface/lpi_glop.cc:159-213", "minimip/lp_interface/lpi_glop.cc:254-281", "minimip/lp_interface/lpi_soplex.cc:410-454", "minimip/lp_interface/lpi_soplex.cc:499-551", "minimip/lp_interface/lpi_soplex.cc:578-602"]}
{"id": "C123", "title": "The sparse matrix asserts exactly on positions and data out of range", "statement": "In a build with assertions, every history of calls on a sparse matrix with positions inside its dimensions and data inside them raises no assertion and returns what a build without returns; after such a history a further call aborts exactly if a position is outside, or the data passed is unclean without being marked or keeps an index outside when cleaned.", "quantifier": "All dimensions, all histories of calls of any length mixing row and column access, all data vectors, dirty or clean.", "why_tests_cant": "The assertions depend on which view is stale and which vectors are marked, that is on the order of earlier calls; tests try a few orders.", "anchors": ["minimip/data_structures/strong_sparse_matrix.h:104-166", "minimip/data_structures/strong_sparse_matrix.cc:31-205", "minimip/data_structures/strong_sparse_vector.h:226-258"]}
{"id": "C124", "title": "A debug build creates every violated cut that a release build creates", "statement": "Creating a cut from finite data for a row that the current LP point violates raises no assertion: the cut of a debug build is the cut of a release build, with a parallelism between -1 and 1 and a non-negative efficacy, computed in double arithmetic.", "quantifier": "All numbers of columns up to 2^30, all rows, objectives and points with finite doubles, all right-hand sides, every correctly rounded square root.", "why_tests_cant": "The assertion compares a rounded quotient with exactly 1.0; whether rounding exceeds it depends on the last bits of the coefficients of a row parallel to the objective.", "anchors": ["minimip/data_structures/cuts_data.h:101-123", "minimip/data_structures/cuts_data.cc:34-71", "minimip/data_structures/strong_sparse_vector.h:414-436"]}
{"id": "C125", "title": "The sparse vector asserts exactly on missing cleaning, negative indices and zero divisors", "statement": "In a build with assertions, after any history of calls with non-negative indices, the next call on a sparse vector aborts exactly if it needs a clean vector and the vector or its argument is marked for cleaning, or if it divides by zero; otherwise it returns what a build without assertions returns. The constructor from entries aborts exactly if the last entry for a negative index is non-zero.", "quantifier": "All histories of calls of any length, all indices and values, exact and double arithmetic, all argument vectors.", "why_tests_cant": "Whether a vector is marked depends on the order of all earlier insertions, and in doubles on underflow of products of entries; tests try a few vectors.", "anchors": ["minimip/data_structures/strong_sparse_vector.h:118-436"]}
{"id": "C126", "title": "The Glop interface accepts exactly the documented modifications, and what it returns can be written back", "statement": "In a build with assertions, a history of calls that change the LP raises no assertion exactly if every call respects the dimensions of the LP described so far, brings clean vectors, non-empty ranges, bounds and sides that are not the wrong infinity, and ordered sides in SetRowSides; then the getters return the LP described, and copying any column or row raises no assertion. Bounds and sides read from the interface can be written back.", "quantifier": "All histories of calls of any length with any arguments, all positions.", "why_tests_cant": "The answer depends on the whole history of dimensions and on how deletions and insertions reorder the stored entries; tests try a few short sequences in release or debug.", "anchors": ["minimip/lp_interface/lpi_glop.cc:185-495", "minimip/lp_interface/lpi_glop.cc:1368-1371"]}
{"id": "C127", "title": "The SoPlex interface with assertions accepts exactly the documented calls and never runs into undefined behaviour", "statement": "In a build with assertions, a history of calls that change the LP outside strong branching raises no assertion exactly if every call respects the dimensions of the LP described so far, brings clean vectors with finite values, non-empty ranges, and bounds and sides that are ordered up to the tolerance and not the wrong infinity; then the getters return the LP described. The getters raise an assertion exactly at positions outside the LP. No call has undefined behaviour.", "quantifier": "All histories of calls of any length with any arguments, all positions, all parameters INFTY and EPSILON_ZERO, every order in which SoPlex stores non-zeros.", "why_tests_cant": "The answer depends on the whole history of dimensions; a missing assertion shows up only with wrong arguments, which tests do not pass.", "anchors": ["minimip/lp_interface/lpi_soplex.cc:458-808", "minimip/lp_interface/lpi_soplex.cc:855-960", "minimip/lp_interface/lpi_soplex.cc:1940-1950"]}
{"id": "C128", "title": "The assertions of the cut registry fail exactly on indices without a cut", "statement": "In a build with assertions, a history of AddCut, ActivateCut, RemoveCut and UpdateCutEfficacy on a new registry raises an assertion exactly if some index passed to it is not that of a cut then stored, or an update uses a row or an optimum that is marked for cleaning. Otherwise the registry is the same as without assertions, GetCut returns the stored cut at every valid index and asserts at all others, and reading GetCut(i) for all i in active_cuts() never asserts and gives the activated cuts in the order of activation.", "quantifier": "for all cuts, all histories of any length and all indices", "why_tests_cant": "Tests call the registry with valid indices and short histories; which combinations of calls leave an active index without a cut depends on the whole history.", "anchors": ["minimip/data_structures/cuts_data.cc:79-136", "minimip/data_structures/cuts_data.h:190-240"]}
{"id": "C129", "title": "Strong branching with SoPlex raises no assertion", "statement": "In a build with assertions, a strong branching session of the SoPlex interface (StartStrongBranching, any number of SolveDownAndUpStrongBranch on columns of the LP whose bounds do not cross, EndStrongBranching, with any other accepted calls in between) raises no assertion and has no undefined behaviour, whatever SoPlex answers, and leaves the interface as the build without assertions does.", "quantifier": "for all LPs, columns, primal values, tolerances, iteration limits, answers of SoPlex and sessions of any length", "why_tests_cant": "The assertions compare bounds computed from a rounded value with bounds of the column; whether they hold depends on the fractional parts of both, of which tests try a few.", "anchors": ["minimip/lp_interface/lpi_soplex.cc:209-239", "minimip/lp_interface/lpi_soplex.cc:262-404", "minimip/lp_interface/lpi_soplex.cc:983-999"]}
{"id": "C130", "title": "Setting parameters and solving with SoPlex raises no assertion", "statement": "In a build with assertions, after every history of SetLpParameters with any messages and of modifications, solves, basis changes, file reads and strong branching on a SoPlex interface with a time limit that is not negative, SetLpParameters and the solves raise no assertion beyond the checks that both builds have, and leave the interface as the build without assertions does.", "quantifier": "for all parameter messages, all answers of SoPlex and all histories of any length", "why_tests_cant": "The assertion on the time limit compares a value that came in through an earlier message and was stored by SoPlex; it is reached only by combinations of a message and a later solve.", "anchors": ["minimip/lp_interface/lpi_soplex.cc:108-207", "minimip/lp_interface/lpi_soplex.cc:1664-1934"]}
{"id": "C131", "title": "Asking for rows and columns of the basis inverse is safe in a build with assertions", "statement": "In a build with assertions, after any modifications of the LP, each of the four getters of vectors in the inverted basis matrix, asked for an index that exists, raises no assertion and returns what the build without assertions returns: a vector whose entries are clean, or an error where the LP solver reports one. Asked for an index that does not exist, or during strong branching with SoPlex, it ends the process by an assertion and never reaches the code of the LP solver.", "quantifier": "for all LPs, all integers as index, all four getters, both interfaces and all vectors of the right size the solver returns, dense or by index lists in any order", "why_tests_cant": "Tests ask for indices that exist; whether some index outside, of either sign, slips past the assertions of one of eight functions is a statement about all integers and LPs of all sizes.", "anchors": ["minimip/lp_interface/lpi_soplex.cc:1490-1661", "minimip/lp_interface/lpi_glop.cc:1021-1135"]}
{"id": "C132", "title": "While IsOptimal() holds, the solution getters return the solution of the LP", "statement": "In a build with assertions, after the constructor and any sequence of changes of parameters, modifications of the LP, solves, strong branching and file reads, each of the seven solution getters (objective value, primal values, dual values, reduced costs, row activities, primal ray, dual ray) raises an assertion exactly if its documented condition (IsOptimal, HasPrimalRay or HasDualRay) does not hold; otherwise it returns one element per column or row of the LP, taken from what the solver holds for that column or row, and never reads outside.", "quantifier": "for all sequences of calls of any length, all LPs and all answers of the solver", "why_tests_cant": "The condition reads the state of the solver and the sizes come from the LP of the interface; the two agree or not depending on the whole history of modifications, solves, failed solves and branchings.", "anchors": ["minimip/lp_interface/lpi.h:331-359", "minimip/lp_interface/lpi_glop.cc:545-620", "minimip/lp_interface/lpi_glop.cc:861-948", "minimip/lp_interface/lpi_soplex.cc:1127-1289"]}
{"id": "C133", "title": "Every query of the search tree is safe with any node number and any recorded column", "statement": "After any sequence of permitted calls, node(n), RetrieveLowerBounds(n, b) and RetrieveUpperBounds(n, b) with any integer n either return (the record; a row of the length of b) or fail a CHECK, the latter exactly if n is not the number of a live node; num_open_children(n) does the same. None of them reads or writes outside its containers, whatever columns and values were passed to AddNodeByBranchingFromParent and SetImpliedVariableBoundsInNode.", "quantifier": "all histories of permitted calls, all integers n, all rows b of any length, all recorded columns and values including NaN", "why_tests_cant": "Tests call the queries with node numbers they got from the tree and with columns of the problem; reading in front of a vector often goes unnoticed.", "anchors": ["minimip/data_structures/mip_tree.cc:126-164", "minimip/data_structures/mip_tree.h:136-141", "minimip/data_structures/mip_tree.h:183-186"]}
{"id": "C134", "title": "Restricting a problem never improves the reported optimum", "statement": "If one problem results from another by adding constraints, tightening sides or bounds or requiring variables to be integer, and Solve returns on both, the optimum reported for the restricted problem is no better than that of the original. An original without a reported optimum was infeasible, and then so is the restriction, or unbounded; an optimum is lost only if nothing is feasible any more. This also holds with different parameters, LP interfaces, branching rules and LP code.", "quantifier": "All well-formed problems, bounded or not, all restrictions of them, all parameters, both LP interfaces, all LP code that answers rightly, every number of iterations.", "why_tests_cant": "A relation between two runs over all pairs of problems; the optima that tests compare are literals, and a wrong optimum is noticed only if the right one is known.", "anchors": ["minimip/solver.cc:28-155", "minimip/data_structures/mip_data.cc:114-125"]}
{"id": "C135", "title": "A restriction that keeps the reported solution keeps the reported optimum", "statement": "If Solve returns a solution for a problem, and the problem is then restricted (constraints added, sides or bounds tightened, variables required to be integer or fixed at the values they have in that solution) so that this solution stays feasible, Solve reports the same optimum for the restricted problem. This also holds with different parameters, LP interfaces, branching rules and LP code in the second run.", "quantifier": "All well-formed problems, bounded or not, all restrictions that keep the solution returned, all parameters, both LP interfaces, all LP code that answers rightly, every number of iterations.", "why_tests_cant": "A relation between two runs where the second problem depends on what the first run returned; tests compare single runs with literals.", "anchors": ["minimip/solver.cc:28-155", "minimip/data_structures/mip_data.cc:114-125"]}
{"id": "C136", "title": "Splitting a problem at an integer variable splits the optimum", "statement": "If an integer variable x and an integer k are chosen and a problem is solved once as it is, once with the constraint x <= k added and once with x >= k + 1 added, the optimum Solve reports for the problem is the better one of the optima it reports for the two halves. If it reports none for the problem, it reports none for at least one half, and none for both unless the problem is unbounded. This also holds with different parameters, LP interfaces, branching rules and LP code in the three runs.", "quantifier": "All well-formed problems, bounded or not, every integer variable and every integer to split at, all parameters, both LP interfaces, all LP code that answers rightly, every number of iterations.", "why_tests_cant": "A relation between three runs of Solve, for every place to split at; tests compare single runs with literals.", "anchors": ["minimip/solver.cc:28-155", "minimip/data_structures/mip_data.cc:114-125"]}
{"id": "C137", "title": "Changing the objective changes the optimum by no more", "statement": "If the objective of a problem is changed so that its value changes by at least a and at most b on every feasible point, and nothing else is changed, the optimum Solve reports changes by at least a and at most b, and Solve reports an optimum for both problems or for neither. Adding d_n to the objective coefficients changes the value of a point by the sum of d_n times its values. This also holds with different parameters, LP interfaces, branching rules and LP code in the two runs.", "quantifier": "All well-formed problems, bounded or not, all changes of the objective, all parameters, both LP interfaces, all LP code that answers rightly, every number of iterations.", "why_tests_cant": "A relation between two runs of Solve for every change of the objective; tests compare single runs with literals.", "anchors": ["minimip/solver.cc:28-155", "minimip/data_structures/mip_data.cc:114-125"]}
