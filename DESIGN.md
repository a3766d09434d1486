# Formal model of MiniMIP: design

The source is `/repo` (C++), read as text. Everything in `lean/Verif` is a hand
translation of it; the code is never built or run here.

## Layout

* `lean/Verif/Model/*.lean`: definitions, one file per C++ component. Every
  definition cites the file and lines it models and says where it simplifies.
* `lean/Verif/Lemmas/*.lean`: helper lemmas.
* `lean/Verif/Props/*.lean`: the property theorems, with the small specifications
  they are stated against and, beside each, an `example` showing that a concrete
  non-trivial case meets the hypotheses.
* `lean/Verif/Check/*.lean`: the project's own unit tests, run on the model (see Trusted base).
* `properties.jsonl`: the properties in English. `MANIFEST.json`: which theorems
  carry which property. `seeded/LOG.jsonl`: wrong programs tried against the theorems.

Naming: `Cxx_...` belongs to property Cxx. The suffix `_partial` marks a theorem that
proves part of the claim (its comment says what is missing). The suffix `_violated`
marks a proof that the code breaks the claim. A property is `proved` in the manifest
only if the whole claim is proved for the code as it is.

## Modelling conventions

* **Outcomes.** A C++ call that can fail is a function into `Outcome α`:
  `ok a`, `error` (a non-OK `absl::Status`), `abort` (a failed `CHECK`/`CHECK_OK`,
  `.value()` on an error, `std::abort`) or `ub` (undefined behaviour: out-of-range
  access, read of an uninitialised field, invalid iterator). `DCHECK`s are
  compiled out in release builds and are therefore *not* outcomes: what happens
  behind a failed DCHECK is modelled as the release code does it. C120 adds the debug build,
  where a failed DCHECK is `abort`, as `debugCreate` and `debugSolve`.
* **Numbers.** `double` is modelled by exact rationals `ℚ` where only finite
  arithmetic matters, by `Dbl` (rationals plus `+inf`, `-inf`, `nan`, with the
  IEEE comparison rules) where infinities or NaN matter, and by `RDbl` (reals plus
  the infinities and `nan`) where square roots occur (efficacy, parallelism, score). These
  models compute exactly. Rounding, underflow and overflow of IEEE 754 binary64 are modelled by `Ieee`
  (`Ieee.round`, round to nearest, ties to even; no signed zeros) and used for the sparse
  vector (C87, C88), for the tests and the branching rule of branch and bound (C86) and for the cut
  generator (C91, C92, C95) and selector (C99); the other models do *not* have rounding error. `int`s are unbounded `Int`/`Nat` unless a property is about
  wrap-around (C56 models the `size_t` wrap).
* **Loops** are structural or well-founded recursion, or take a fuel argument
  (`Solver::Solve`, the cut runner, the walks up the tree, the re-solve of Glop,
  `SetLpParameters` of SoPlex). The comment of the definition says what running out of
  fuel stands for.
* **External code** (Glop, SoPlex, OR-tools readers, `std::sort`, random numbers) is a
  parameter of the model; what is assumed about it is an explicit hypothesis of
  the theorem.
* **Infinity.** Glop's infinity is `inf`. SoPlex's is a finite number (10^100), a parameter
  of the model (`Engine.soplexInfinity`): the generator compares with it, and the left-hand
  side of a cut is its negative, which is stored as `-inf` because SoPlex takes it for that.
  Other bounds and sides beyond it stay what they are; that SoPlex takes them for infinite
  is not modelled.
* **Hash sets.** The set of integer variables is a list without duplicates in an order
  that is a parameter (`MipData.HashOrder`, any permutation); every copy of the set has
  its own order (`Engine.copyOrder`).
* **Logging** (`VLOG`, `LOG`) has no effect.

## What is modelled

| model file | code | notes |
|---|---|---|
| `SparseVector` | `data_structures/strong_sparse_vector.h` | entry list and dirty flag, all mutators, iterators of the merge walks; aliasing at the level of the buffer |
| `SparseMatrix` | `data_structures/strong_sparse_matrix.{h,cc}` | both representations and the consistency state |
| `Problem`, `MipData` | `data_structures/problem.h`, `mip_data.{h,cc}` | validation, constructor, integrality test, incumbent list |
| `MipTree` | `data_structures/mip_tree.{h,cc}` | slots, free list, reclamation, bound retrieval |
| `CutRegistry` | `data_structures/cuts_data.{h,cc}` | registry, efficacy, statistics; references into the active list |
| `HybridSelector` | `cutting_interface/hybrid_selector.{h,cc}` | scores in `ℝ`; `std::sort` is any sorting permutation |
| `DefaultRunner` | `cutting_interface/default_runner.{h,cc}` | plug-ins are parameters |
| `Generator` | `cutting_interface/aggregating_generator.{h,cc}` | aggregation, substitution, MIR and strong CG rounding, side choice, the generator loop |
| `Branching` | `branching_interface/*.{h,cc}` | both rules; random numbers are a parameter |
| `Ieee` | `double` | values, rounding, operations |
| `IeeeBranching` | `solver.h`, `mip_data.cc`, `maxfractional_branching.cc` | tolerance tests and the max-fractional rule with rounding |
| `ArithVector` | `data_structures/strong_sparse_vector.h` | the sparse vector over any arithmetic; the exact one gives `SparseVector` (theorem `exact_agrees`), `Arith.ieee` rounds |
| `IeeeProblem` | `data_structures/problem.{h,cc}`, `mip_data.{h,cc}`, `strong_sparse_matrix.{h,cc}` | validation and set-up of the data with infinities and NaN |
| `IeeeGenerator` | `cutting_interface/aggregating_generator.cc` | the generator with rounding, infinities and NaN |
| `IeeeSelector` | `data_structures/cuts_data.cc`, `cutting_interface/hybrid_selector.cc` | the measures of a cut and the selector with rounding, infinities and NaN; the square root is a parameter |
| `GlopScaled` | `lp_interface/lpi_glop.cc` | the copy `scaled_lp_` and the problems handed to the simplex; the scaling itself is external |
| `IeeeProgram` | `solver.{h,cc}` and all of the above | the whole program with LP answers rounded to doubles and generators in doubles |
| `IeeeProgramSelector` | `solver.{h,cc}` and all of the above | the same with the measures of cuts and the selector in doubles; the parameters of the selector are an argument |
| `Solver` | `solver.{h,cc}` | the loop of `Solve` over the tree model; the LP is an oracle |
| `GlopLpi`, `GlopSession` | `lp_interface/lpi_glop.cc` | LP store, solving, basis, strong branching, status queries, primal ray |
| `SoplexLpi` | `lp_interface/lpi_soplex.cc` | same, with the saved basis |
| `LpSolution` | both | solving with the status that results, status queries, primal and dual values, reduced costs, activities, dual rays |
| `BasisInverse` | both | rows and columns of the inverse and of its product with the matrix |
| `LpParameters` | `lpi.cc` and both interfaces | validation, set, get |
| `Populate` | both | `PopulateFromMipData` |
| `Reader` | `utils/reader.cc` | conversion and extension check |
| `Setup` | `parameters_factory.h`, `parameters.proto`, the factories, `solver.h` | proto2 merge, `Solver::Create` |
| `Program` | `solver.h`, `solver.cc` and everything above | `Create` followed by `Solve` with the modelled interfaces, runner, generator, selector and rules plugged in; only the LP code (`Engine`) is left open |
| `DebugBuild` | `mip_data.cc`, `strong_sparse_{vector,matrix}`, `aggregating_generator.cc`, `cuts_data.h`, `solver.{h,cc}`, both interfaces | `Create` and `Solve` with their assertions |
| `DebugGlop` | `lpi_glop.cc` | solving, strong branching, the iteration limit, `IsStable` and `GetLpParameters` with their assertions |
| `DebugIeeeCut` | `cuts_data.{h,cc}` | `CreateCut` and the constructor of `CutData` in doubles with their assertions |
| `DebugMatrix` | `strong_sparse_matrix.{h,cc}` | every function of the sparse matrix with its assertions and those of the vectors it touches |
| `DebugPopulate` | `lpi_glop.cc`, `lpi_soplex.cc` | `PopulateFromMipData`, `AddColumn` and `AddRow` of both LP interfaces with their assertions |
| `DebugSoplexStore` | `lpi_soplex.cc` | the functions of the SoPlex interface that change or read the LP, with their assertions; `AddColumns` for a matrix whose columns are clean; assertions inside SoPlex are not modelled |
| `DebugRegistry` | `cuts_data.cc` | the functions of the cut registry with their assertions, including those of the dot products in `UpdateCutEfficacy` |
| `DebugSoplexBranch` | `lpi_soplex.cc` | strong branching with the assertions on the bounds of the column and the sizes of the saved basis; `setBasis` does not throw |
| `DebugSoplexSolve` | `lpi_soplex.cc` | `SetLpParameters` with its `LOG(DFATAL)`, `LpSolve` and `SoPlexSolve` with the assertion on the time limit |
| `DebugInverse` | `lpi_soplex.cc`, `lpi_glop.cc` | the four getters of the basis inverse of both interfaces with their assertions, for any integer as index |
| `DebugSolution` | `lpi_glop.cc` | the seven solution getters with their assertions, reading from the vectors the solver holds |
| `DebugStore` | `lpi_glop.cc` | the functions of the Glop interface that change the LP or copy a column or a row, with their assertions; assertions inside Glop are not modelled |
| `DebugVector` | `strong_sparse_vector.h` | every function of the sparse vector, over exact or double arithmetic, with all its assertions |

**Not modelled:** the simplex algorithms and factorisations inside Glop and SoPlex, the
MPS parser, the text and proto output, logging, scaling
inside Glop except its on/off switch and the factor of a column, the reason why a
SoPlex or Glop call throws, time. Memory allocation, threads. The SoPlex tolerance
adjustment inside `setRealParam` is not modelled.

## Per property

"Case" below is how the theorem is proved. All theorems hold for all inputs, states and
histories unless the manifest note says otherwise.

| id | what is modelled | how it is proved |
|----|------------------|------------------|
| C01, C02 | sparse vector under every history of mutators | refinement to a map by induction over histories; invariant "flag false implies clean" |
| C03 to C06 | addition, dot product, scaling | equality with the pointwise specification; self-addition at buffer level |
| C07 | matrix | refinement to a table for every history |
| C08 | `FindErrorInMiniMipProblem` | equivalence with a declarative predicate |
| C09 to C12 | `MipData`, incumbents | semantic equality at every point; induction over histories |
| C13 to C18 | tree | invariant by induction over histories; abstract tree |
| C19, C20 | cut registry | refinement to labelled cuts |
| C21 to C23, C62 | selector | induction over the greedy loop |
| C24, C25 | cut runner | induction over rounds, any plug-ins |
| C85 | the same on the two LP interfaces | induction over rounds; case analysis of the status queries |
| C26 to C34, C63 | generator | algebra at an arbitrary point; MIR and strong CG inequalities proved from scratch |
| C35 to C41 | `Solve` | loop invariants; a measure on the open boxes for termination |
| C42, C43 | branching rules | fold invariants |
| C44 to C47 | LP stores | refinement to an LP specification by induction over histories |
| C48 to C50, C65 | LP parameters | field-wise case analysis |
| C51, C67 | strong branching | arithmetic on the branch bounds; what the session restores |
| C52, C53 | basis statuses | round trip |
| C54, C69, C70 | basis inverse | values of the sparse vectors returned, given the solver's dense vectors |
| C55, C56 | reader | own meaning of a model; string arithmetic |
| C57 | file output | case analysis |
| C58, C73 | merge, factories, `Create` | field-wise; C66 for the LP |
| C59, C60, C61 | efficacy, tolerance helpers, statistics | arithmetic |
| C64 | parameters across solves | case analysis |
| C66 | loading the relaxation | loop invariants over rows and columns |
| C74 to C78 | the whole program | the oracle theorems C35 to C40 instantiated at the modelled program; the LP the interface holds extends the relaxation of the user's problem at every moment; with cuts (C75), every row added holds at every feasible point, by induction over the run and the nodes; the fundamental theorem of linear programming is proved to show that LP code as assumed exists |
| C83 | the same with one round of cuts | every call of generator, selector, registry and LP returns, by an invariant of the run; a cut of a problem with a feasible point has a non-zero; for integral problems the cut has a non-zero because the solution is basic and by Cramer's rule its entries are fractions with a bounded denominator, so tolerances below the inverse of the bound round nothing |
| C84 | calling `Solve` again on the same solver | a run that branched leaves a root that has children or is free, so the first store into the root of the next call fails a CHECK; runs that end at the root leave the tree as it was but for the stored bound |
| C79 to C82 | what both interfaces report after a solve | case analysis; Farkas proofs and weak duality from scratch |
| C86 | branch and bound in floating-point arithmetic | a double minus its nearest integer is a double, so the tests are exact; only the fractional parts of values in (-1/2, 0) are rounded |
| C87, C88 | sparse vector in floating-point arithmetic | invariant over all calls; rounding is nearest-even by an independent characterisation; error bounds by induction over the entries |
| C89, C90 | LP code with tolerances | the loop invariants of C35 to C40 for any contract of the LP solver; a value farther from the integers than the error has the floor and ceiling of a point within the bounds, so the measure still falls; with cuts (`C90_with_cuts_partial`) all cuts are valid at tolerance 0 whatever the LP code answers, so the relaxation keeps all feasible points |
| C91 | cuts in floating-point arithmetic | MIR rounding is Lipschitz in the row, so each rounding error costs a multiple of itself; `C91_generator_partial` adds up the errors of all stages from the LP to the cut, with invariants over the loops of aggregation, shifting and slack substitution; strong CG rounding is not continuous, but robust when its decisions are clear: the exact proof goes through with the larger fraction `f0 + margin` (`C91_strong_cg_partial`) |
| C92 | the whole program with cuts in floating-point arithmetic | a run with default parameters is followed through the exact model with the two changed parts; without cuts both programs agree step by step; feasibility and termination use only that generators and selector read the LP and that rows are added, whatever they are; the `C92_doubles` theorems repeat this with measures and selector in doubles, where the square root is only known up to its rounding |
| C93 | reader, `Create` and `Solve` together | C55, C56 and C114 (C78 for problems that may be unbounded) composed, stated about the model that was read; a violation for SoPlex and an integer variable with a fractional bound |
| C94 | two runs of the whole program | the outcomes that C78, C83 and C114 guarantee determine the objective value |
| C95 | the generator in doubles | cleanliness is kept by every stage; the test `rhs < activity` is the computed dot product with the sparse copy of the LP optimum, whose error is added up step by step |
| C96 | a wrong optimum and the cut registry | the loop invariant of C89 for one feasible point, on a run whose separation is filtered by "the point satisfies the registry so far"; registries only grow, so the filter passes all steps of a run whose last registry the point satisfies |
| C97 | the rows of the LP after `Solve` | invariant over all calls of the solver on the LP: first LP with other bounds, followed by the rows of the registry |
| C98 | `Solve` with generators and selectors of the user | the contracts of C89 need only that plug-ins read the LP; for optimality an invariant says that no feasible point violates a row of the LP, kept by honest cuts |
| C99 | efficacy, parallelism, score and selection in doubles | relative errors of dot products, roots, products and quotients are added up in `ℝ` (Cauchy–Schwarz bounds the terms of a dot product by the lengths); the selection loop is followed as in C21 |
| C100 | `Create` and `Solve` with any integrality tolerance | solutions are integral up to the tolerance (C74), so with a negative one there are none, but on OK a feasible problem has one (C75); from 1/2 on every number is integral, so the first LP answer ends the search |
| C101 | validation, `MipData` and the matrix in doubles | every operation of the set-up commutes with the embedding of exact data into doubles: there are copies, negations and comparisons only, but no sums |
| C102 | the factories with any message | case analysis against descriptions of what a message asks for |
| C103 | the copy of the LP the Glop interface solves, under every sequence of calls | invariant "not marked as modified implies the copy is of the stored LP"; refinement to the LP specification of C44 |
| C104 | `Create` and `Solve` on problems whose integer variables may have infinite bounds | potential as in C37, counted in a range that the constraints imply; for the failure an invariant "some open box contains the end of a ray of optimal points of the relaxation" |
| C105 | what `Create` and `Solve` return, with the integer variables rounded | linear forms change by at most the tolerance times the sizes of the coefficients, and integral values that differ by less than one are equal; combined with C104 for the whole program |
| C106 | `SolveDownAndUpStrongBranch` of the SoPlex interface with an `optimize` that may throw (`Model/SoplexThrows.lean`) | equality with the model of C51 if nothing is thrown; for the failure the state at the throw, for every interface, column and value |
| C107 | what `Create` and `Solve` do on `min z`, `z + 2 (x_1 + ... + x_n) = n`, `n = 2 m + 1`, all variables binary | a lower bound on the iterations left, the sum over the open boxes of `2^(l+1) - 1` for boxes with `m + 1 - l` fixed variables: an iteration lowers it by one at most, because a node with `m` fixed variables or fewer has an optimum with `z = 0`, which is not integral |
| C108 | `Create` and `Solve` with LP code that may stop at a limit in any LP | the accounting of C96 with the LP code asked only on the LPs that have the lost point; for the failure the run itself: root, two children closed, empty queue |
| C109 | the tree of the solver when `Solve` returns, seen through `node`, `num_open_children` and `TreeIsEmpty` | invariant "the leaves are the queued nodes and the nodes with integral optima, and these show the objectives"; closing a leaf makes no other node a leaf; a tree is related to one specification state only |
| C110 | what `Create` and `Solve` report on two equivalent problems, beyond C94: unbounded objectives and integer variables, random branching, cuts in any number of rounds (tolerance 0), and rounded solutions at other tolerances | both reports are the optimum of the user's problem (C74, C75, C105; none if there is none, C114), and equivalent problems have the same one |
| C111 | the members of `MiniMipResult` that `result()` shows after a run that returned OK or an error; `none` stands for a member that was never written | induction on the iterations: an iteration changes the result by `AddSolution` only; C114 for infeasible problems |
| C112 | the length of the queue at every state that `Solve` reaches on what `Create` built; for the failure, the problems of C107 | few open nodes: the queue is a stack of boxes whose slack (what is left of the widths of the bounds) grows from the back to the front; many open nodes: the boxes in the queue are exactly one wave of the tree of a breadth-first search, followed until all boxes with `m` ones and `m` zeros are in it |
| C113 | two consecutive iterations from any reachable state: one that branches, one that closes the first child | the queue after the first is `first, rest, last` with the two new children at the ends; the flag set by the second iteration decides which end is read |
| C114 | `Solve` on any well-formed problem, bounded or not; the LP code answers rightly (`Engine.Right`), or up to tolerances (`Engine.Approximate`); unbounded problems: it never calls an unbounded LP optimal (`Engine.SeesUnbounded`) | the LP of the root is the relaxation, also with cuts (separation needs an optimum first); Fourier-Motzkin elimination of the homogeneous system (`Lemmas/Recession.lean`) gives an integral ray of improvement, which added to a feasible point keeps integrality; then C75, C76, C77 for the bounded case, with and without cuts (`Props/ProgramUnboundedCuts.lean`, `Props/ProgramUnboundedApprox.lean`) |
| C115 | two runs of `Create` and `Solve` on problems that differ in sense and signs of the objective, offset, hints and name only (with SoPlex also in names), all LP code | a relation between the two `MipData` (objective multiplied by a sign) kept by the loops of the constructor; the reader of the LP interfaces and `Solve` do not read the fields that differ |
| C116 | two runs of `Create` and `Solve` on one problem with two parameter messages, all LP code | the counter of cuts and the list of active cuts stay 0 and empty in every run, so the two limits are only compared with 0; the loop of `Solve` on two oracles that agree on such states; the other parameters are read nowhere; the witness is that of C92 |
| C117 | the loop of `Solve` from every state, with two results; the states the whole program reaches, all LP code | each step of an iteration is the same function of everything but the result, induction on the iterations; for the witness three iterations are followed through the LPs of the root and its two children, whose optimal points are unique |
| C118 | the whole program, exact and in doubles, and with any plug-ins that leave the LP alone; the model counts successful LP solves (`World.solves`), rounds (`numCutrounds`), cuts of the registry and rows of the LP | an invariant of the runner's loop (one LP and at most generators times limit cuts for every round, as many rows as cuts), carried through the loop of `Solve` by induction on the iterations; the limit in advance uses C76 |
| C119 | the whole program with arbitrary LP code and arbitrary plug-ins (`customSolve`); undefined behaviour is the outcome `ub` of the model: an index out of range, `value()` of an empty optional, a CHECK-less read | a state invariant (the LP extends the first one, the cuts of the registry are on its columns), from which every call of the loop is shown not to be `ub`; when cuts are off the plug-ins are replaced by none with C116's agreement lemma; the solutions by C89's account of what a run stores |
| C120 | `Create` and `Solve` with the assertions of `MipData`, `SetColumnBounds`, `GetPrimalValues`, `GetObjectiveValue`, the tableau generator and `CutData` (`Model/DebugBuild.lean`, whose header lists the assertions that are left out) | the debug build refines the release build up to `abort`, function by function and then along the run; exact conditions for the constructor of `MipData`, for strong CG rounding and for the constructor of `CutData`, and that the generator asserts on nothing else; without cuts an invariant (every node branches at a finite value, the interface has all columns) shows that no assertion fails; with SoPlex the assertion on crossing bounds can fail, and then the CHECK of the next solve fails in the release build, compared by joining both steps; three violations |
| C121 | the Glop interface with the assertions of `SolveInternal`, `IterationLimitIsExceeded` and `GetLpParameters`, and the `LOG(DFATAL)` of `SetLpParameters` (`Model/DebugGlop.lean`) | induction over any sequence of calls from the constructor: the settings keep what `GetLpParameters` asserts, and the iteration count of the interface stays at least that of the solver as long as solves succeed and there is no strong branching; exact condition for a solve; three violations |
| C122 | filling the LP from the `MipData` and adding a row, in both interfaces, with the assertions on sizes, cleanness, indices and infinite values (`Model/DebugPopulate.lean`) | for every well-formed problem Glop's debug build does what the release build does (induction over the columns of the matrix, which stays related to its table); for SoPlex exactly if every coefficient is below `INFTY`; exact conditions for `AddRow`; a violation for SoPlex |
| C123 | the sparse matrix with all its assertions (`Model/DebugMatrix.lean`) | by the refinement relation of C07: both views satisfy the vector invariant, recomputing a view gives clean vectors; every legal history does what it does in the release build, and the exact condition on which the next call aborts |
| C124 | `CreateCut` in doubles with the assertions of `DotProduct` and of the constructor of `CutData` (`Model/DebugIeeeCut.lean`) | from the error bounds of C99: away from parallel rows and unviolated cuts, by more than the rounding errors, the debug build creates the cut of the release build; two violations |
| C125 | the sparse vector with all its assertions, over any arithmetic (`Model/DebugVector.lean`) | by the class invariant (C87), kept by every legal call; the exact condition on which the next call aborts, histories that clean before every call, and the constructor (the last entry of every index is followed through the sort and the compaction); a violation by underflow |
| C126 | the modifications of the LP in the Glop interface and the two functions that copy entries, with their assertions (`Model/DebugStore.lean`) | one call is accepted exactly if it is allowed on the dense LP (case by case, on the refinement of C44), then induction over the history; the copies are clean because the stored columns are; a violation for writing back |
| C127 | the modifications and getters of the LP in the SoPlex interface, with their assertions (`Model/DebugSoplexStore.lean`) | as C126, on the refinement of C44 for SoPlex; violations for the two calls without assertions on their positions and for `AddRows` |
| C128 | histories of calls on the cut registry, with assertions (`Model/DebugRegistry.lean`) | on the refinement of C19 and C20, by induction over the history; reading the active cuts for histories that activate no active cut, violations for the others |
| C129 | a call and a session of strong branching with SoPlex, with assertions (`Model/DebugSoplexBranch.lean`) | case by case on the branches solved; sessions by induction on the calls; violations for fractional bounds, columns out of range, and `AddRow` in a session |
| C130 | histories of parameter messages and calls on the SoPlex interface, with the assertions of `SetLpParameters` and of solves (`Model/DebugSoplexSolve.lean`) | validation excludes the values that reach `LOG(DFATAL)`; the stored time limit stays at least 0 along the history if SoPlex rejects negative ones; a violation for NaN |
| C131 | the eight getters of the basis inverse, with and without assertions, on any integer as index (`Model/DebugInverse.lean`); what the solver computes is an argument | induction over the loops: for indices that exist no assertion fails and every position read exists (`C131_answers`), other indices fail an assertion with SoPlex (`C131_assertions_partial`), without assertions a column that does not exist may be answered with zero (`C131_no_such_column`); an index without an assertion reaches the solver (`C131_row_times_matrix_violated`, `C131_argument_violated`) |
| C132 | histories of calls on the Glop interface together with the vectors the solver holds and the size of `scaled_lp_` (`Model/DebugSolution.lean`); what a solve leaves is any vectors of the size of the LP it solved | invariant along the history: while `IsSolved()`, the vectors have the size of the LP; it gives the sizes of all getters (`C132_history_partial`). Not in this history: `ReadLpFromFile` (`C132_read_violated`), getters after a modification (`C132_stale_violated`), and the two getters of basis statuses (C46) |
| C133 | `node`, the two retrievals of bounds and `num_open_children` of the tree model with any integer as node number, rows of any length and any columns and values recorded in the nodes (`Props/MipTreeQueries.lean`) | induction along the path to the root: which calls return, which fail a `CHECK` and which are undefined behaviour, without a gap (`C133_node`, `C133_bounds_partial`); the last kind is reached with a column that does not exist (`C133_invalid_column_violated`) and by `num_open_children` (`C133_open_children_violated`) |
| C134 | two runs of `Solve` on a problem and on one with more constraints, tighter sides or bounds or more integer variables (`Props/ProgramMonotone.lean`, `Props/ProgramMonotoneTolerance.lean`), with everything else possibly different | what a run reports is the optimum in both cases of C110 (tolerance 0, or integral numbers and rounding) and no worse at any tolerance, which is enough for the first run; these compare (`C134_tightened`, `C134_exact_partial`, `C134_rounded_partial`). False at every other tolerance up to 1/4 even without cuts (`C134_added_constraint_violated`, by an invariant of the search on one problem per tolerance), and with cuts on a fractional side (`C134_lowered_side_violated`) |
| C135 | as C134, where the second problem may depend on the solution the first run returned (`Props/ProgramKeep.lean`) | the solution returned, at any tolerance, is no worse than the points of the first problem and feasible for the second, whose optimum is no better (`C135_fixed`, `C135_cutoff`, `C135_exact_partial`, `C135_rounded_partial`). False at every tolerance in (0, 1/4] (`C135_added_constraint_violated`) |
| C136 | as C134, for three runs: a problem and its two halves at an integer variable (`Props/ProgramSplit.lean`) | the halves partition the feasible points (`C136_halves`), so the optimum is the better one of theirs (`C136_exact_partial`, `C136_rounded_partial`). False at every tolerance in (0, 1/4] (`C136_tolerance_violated`) |
| C137 | two runs of `Solve` on problems with the same feasible points and different objectives (`Props/ProgramObjective.lean`) | the optimum changes by no more than the objective does on the feasible points (`C137_coefficients`, `C137_exact_partial`, `C137_rounded_partial`). False at every tolerance in (0, 1/4] (`C137_tolerance_violated`) |
| C68, C72 | status queries, rays | case analysis; a ray must keep feasible points feasible and improve the objective |

No property of the list was found impossible to express.

## Where code and properties disagree

Each line is proved by a `_violated` theorem with a concrete input; what remains true is
the `_partial` theorem beside it.

| id | disagreement |
|----|--------------|
| C04 | adding a non-empty vector to itself in place iterates over a buffer it is appending to |
| C08, C55 | the validation accepts an index equal to the number of variables, and NaN bounds |
| C10 | a row is called integral although its side is fractional |
| C15 | closing the root reads the children counter of node -1 |
| C16 | the counters count reclaimed nodes and slots |
| C20 | activating twice duplicates; removing through a reference into the active list goes wrong; the active flag is never set |
| C22 | a limit of 0 does not switch the selector off |
| C23 | a forced cut below the score threshold is dropped |
| C24 | the limits on the number of cuts are not respected |
| C29, C30 | rounding is invalid for fractional bounds or sides, and when the tolerance rounds up |
| C32 | two rounders exceed the limit by one |
| C33 | cuts that use branching bounds are kept globally |
| C34 | a cut row in the LP makes the integrality lookup go out of range, as soon as a tableau row that is looked at combines it (`C34_exactly_partial`) |
| C36 | infeasible problems with a feasible root LP are reported optimal |
| C37, C43 | the random rule returns a position instead of a variable, and may not end |
| C39 | the back of the queue is not the top of the tree; -1 back-jumps always |
| C40 | the objective reported lacks the offset and has the wrong sign for maximisation |
| C41 | the free function `Solve` never returns a result |
| C42 | fractionality is distance to the floor, not to the nearest integer |
| C44 | SoPlex: `Clear` keeps the sense; rows may come unsorted |
| C46 | Glop: a stale basis of matching size is shifted |
| C47 | both: reading a file keeps `IsSolved`; Glop: a failing re-solve clears it; SoPlex: loading a basis clears it |
| C48 | Glop: an infinite limit with timing on reads back as off; the timing mode is global |
| C49 | SoPlex: `solve_from_scratch` and `num_threads` are not read back |
| C50 | NaN passes the validation |
| C51 | Glop: wrong branches for integer values, scaled columns and a failing up solve, iteration count never initialised; SoPlex: values exactly the tolerance above an integer |
| C52 | `kFixed` is never read back; SoPlex: free rows cannot be loaded and reading a basis not reported optimal aborts |
| C53 | SoPlex: after a failed load nearly every call aborts |
| C54 | SoPlex: wrong column when the rows come as index lists (read at the position of the column in the list instead of at the column); Glop: elements below the tolerance are dropped |
| C69, C70 | Glop only: vectors out of order (rows of the inverse, columns of the product); small elements of rows in dense form are dropped (C69) |
| C56 | paths with three characters pass the extension check |
| C57 | Glop reports an error exactly when the file was written; SoPlex aborts on an empty path |
| C58 | the user's cut selector is never used; the default generator stays; two fields are ignored |
| C21, C61 | with a zero objective the parallelism of every cut is `0 / 0`, so every score is NaN: cuts below the threshold are selected, in any order |
| C62 | integer support is an integer division |
| C64 | a failing re-solve leaves scaling off (Glop); a solve leaves presolving off (SoPlex) |
| C67 | a strong branching session of Glop loses basis and solution status; SoPlex aborts on the empty LP |
| C72 | Glop returns the negated ray |
| C73 | a NaN bound ends the process in `Create`; an index equal to the number of variables makes `Create` access columns out of range |
| C75 | one round of cuts, a fractional side: the cut removes the optimum and a worse point is reported as optimal |
| C76 | the random rule: `Solve` does not end on problems whose integer variables come behind the continuous ones |
| C77, C78, C93 | SoPlex: branching on an integer variable with a fractional bound makes bounds cross, which ends the process; Glop, default parameters: a fractional side gives a cut without non-zeros, by whose number of non-zeros the selector divides |
| C77, C83 | Glop, default parameters, all data integral: in the second round of cuts of a run the generator asks `MipData` about the integrality of a row that is a cut (out-of-range read, C34) |
| C80 | SoPlex: a solve that ends without result is called stable; Glop: the iteration limit is reported though no call of the simplex reached it |
| C84 | a second call of `Solve` on the same solver ends the process if the first one branched: the search starts again at the root, but the tree is the old one |
| C87 | scaling or dividing a sparse vector can underflow: a zero stays stored and the vector does not ask for cleaning |
| C89, C90 | if the LP solver may violate bounds by more than the integrality tolerance (a user can set either), `Solve` can branch on a variable with equal bounds forever, on every problem whose relaxation has an integral optimum |
| C91 | strong CG cuts computed in doubles cut off feasible points: for `3 x <= 4` the cut is `x/4 <= 0`, since the fraction of `4 fl(1/3)` is a little less than that of `fl(1/3)`, so that the slack's coefficient is rounded up to a step; if no such decision is within the errors, the cut is valid up to rounding errors (`C91_strong_cg_partial`); MIR cuts are violated by rounding errors only if the integrality tolerance is at least `2^-54`; for every smaller one (the parameter may be 0) an MIR cut may have an infinite coefficient (`C91_tiny_tolerance_violated`) |
| C92 | with default parameters `Solve` reports `x = 0` as optimal for `max x`, `3 x <= 4`, `0 <= x <= 9`, `x` integer (optimal is `x = 1`), whatever right Glop and whatever `std::sort`: the wrong strong CG cut of C91 gets a better score than the MIR cut and is the one that is added; with `1 <= x <= 9` instead `Solve` returns the error that the problem is infeasible or unbounded, though `x = 1` is feasible (`C92_infeasible_violated`) |
| C99 | a cut whose squared length underflows (`2^-600 x1 <= 0`) and that is orthogonal to the objective has the parallelism `0 / 0`; next to two cuts with different scores `std::sort` gets a comparison that is no strict weak ordering, which is undefined behaviour (`C99_tiny_violated`); a cut whose squared length overflows has the computed efficacy 0 and is dropped although it is violated (`C99_huge_violated`) |
| C100 | `Create` accepts a negative integrality tolerance; then no point counts as integral and `Solve` neither returns OK nor an error, on every feasible bounded problem with an integer variable; it accepts tolerances of 1/2 and more, with which the optimum of the LP relaxation is reported as optimal, integral or not |
| C101 | infinite and NaN coefficients and offsets pass the validation: it reads none of these numbers (`C101_unread_violated`); a row with an infinite coefficient is called integral |
| C102 | the factory of cut runners: a message without selector makes it read the first element of an empty list, one whose first selector chooses nothing ends the process (no message `Create` builds is like that) |
| C103 | after `ReadLpFromFile` on a solved Glop interface the next solve solves the old LP; strong branching after a modification uses the LP of the last solve and reads out of range for a new column; turning scaling off does not affect the next solve of an unmodified LP, but turns the check of its solution off |
| C104 | `Solve` does not end on `min z`, `2 x - 2 y + z = 1`, `x` and `y` non-negative integers, `z` in {0, 1} (optimum 1), whatever right LP code; the same for every problem with a ray of fractional optimal points of the relaxation along which all the fractional integer variables change |
| C105 | on `max y - 2 x`, `y <= 10^7 x`, `x` in {0, 1}, `0 <= y <= 1` (optimum 0) `Solve` calls optimal a solution of value 0.9999998 with `x` = 10^-7, because the tolerance for integers is absolute; rounding `x` makes it infeasible. Holds for integral problems with small coefficients |
| C106 | in strong branching with SoPlex `optimize` is called outside of a try block: an exception leaves the function, the bound of the branch stays in the LP and the iteration limit of the branch in the parameters, also after `EndStrongBranching` |
| C108 | `Solve` only asks `IsOptimal`, so an LP in which the LP code stopped at its time, iteration or objective limit is closed as if it were infeasible: with limits below the root `Solve` reports optimality without a solution, with a limit in the root it reports that the problem is infeasible or unbounded, for every well-formed problem |
| C109 | nodes with an integral LP optimum are never closed, so after a search that found a solution `TreeIsEmpty()` is false, and the nodes of all solutions found, not only the best, keep their ancestors in the tree |
| C110 | writing `y <= x` instead of `y <= 10^7 x` in the problem of C105 changes no feasible point, and changes the reported optimum from above 0.999 to 0; and with tolerance 0 one round of cuts changes the reported optimum of `max x`, `2 x <= 5/2` (see C75) |
| C111 | `Solve` writes one member of `MiniMipResult` beside the solutions, the status, and only on OK (solver.cc:153); the stopping reason and both bounds are never written anywhere in the sources, the status not after an error, and the error message stays empty. On an infeasible problem the caller sees `kOptimal` without a solution or an uninitialised status. (`Create` also moves the uninitialised members, solver.h:53-65, which is formally a read of indeterminate values; the model does not count this as undefined behaviour.) |
| C112 | with `backtrack_limit` of 1 or more (default 2) the search is not depth-first: siblings are put at the back of the queue and nodes are taken from the front, so a sibling waits until all nodes opened before it are done. On the problems of C107 the queue grows to `(2m choose m)` nodes while no path has more than `2m + 2` branchings |
| C113 | the documentation of `backtrack_limit` has the values 0 and 1 the wrong way round (or the code the two ends of the queue): after an infeasible first child the sibling is explored when the limit is 0 or less, and left behind when it is 1 or more and other nodes are open |
| C114 | holds without cuts, for unbounded problems with cuts too, and with cuts if sides are integral and integer variables non-negative; otherwise with cuts `Solve` returns the error for a feasible bounded problem: in exact arithmetic if a constraint has a fractional side (`C114_fractional_side_violated`), in doubles with integral data and the default parameters (`C92_infeasible_violated`) |
| C116 | `numerical_tolerance`, `cut_generators`, `cut_selectors`, the selectors in `cut_runner`, `max_num_cuts_at_root`, `maximum_tree_depth` and `minimum_orthogonality_at_root` have no influence on any run; of `max_num_cuts_per_node` only whether it is positive matters, of `max_num_cuts_total` only whether it is 0 |
| C117 | `Solve` has no bounding: it never reads the best solution found, so it branches on nodes whose LP value is worse than it (`max x - 4 w`, `2 x - 2 w ≤ 1`, binary: after the optimum (0, 0) has been found, the node `x = 1` of value -1 is branched on) |
| C120 | `Create` in the debug build aborts for a valid problem whose row does not name its variables in increasing order (`AddEntry` does not sort, `entries()` asserts). `Solve` in the debug build aborts with the default parameters on `max x`, `2 x + y ≤ 4`, `0 ≤ x ≤ 9`, `1 ≤ y ≤ 9` integer: strong CG rounding asserts `f0 < 1/k`, which fails for a row with an integral right-hand side; such rows occur because positive lower bounds are not shifted out. A zero objective makes the parallelism NaN, at which `CutData` asserts, and a continuous variable with a negative coefficient makes strong CG assert (`C120_strong_cg`) |
| C121 | with scaling on, which is the default, a solve that Glop ends at a feasible point without proof of optimality (an iteration or time limit) aborts in the debug build: `SolveInternal` expects this status and calls `GetPrimalValues`, which asserts optimality. The query of the iteration limit, and `IsStable` through it, aborts after strong branching and after a failed solve, because the count of the interface is then not the solver's |
| C122 | validation does not look at the size of the coefficients: a problem with a coefficient of 1e100 or more is accepted, the release build loads it into SoPlex, and the debug build aborts in `AddColumns` |
| C124 | the constructor of `CutData` asserts that the parallelism is at most one; the computed parallelism of the violated cut `0.3 x0 + 2.1 x1 <= 1` to the objective `x0 + 7 x1` is `1 + 2^-52`, so that a debug build aborts (`C124_parallel_violated`); a row whose squared length underflows has the parallelism NaN and aborts as well (`C124_tiny_violated`) |
| C125 | `operator*=` and `operator/=` do not mark the vector: if a product underflows, a zero stays stored, and in a debug build the next `entries()` or `CleanUpIfNeeded()` aborts (`C125_underflow_violated`) |
| C126 | `AddRow` accepts crossing sides, and `AddRow` and `AddColumn` accept the wrong infinity; `SetRowSides` and `SetColumnBounds` abort on them in a debug build, so the values read cannot be written back (`C126_write_back_violated`) |
| C127 | `DeleteRowSet` and `SetObjectiveCoefficient` of the SoPlex interface have no assertion on the size of the mask and on the column: undefined behaviour also in a debug build (`C127_delete_row_set_violated`, `C127_objective_violated`). `AddRows` accepts coefficients that are infinite for SoPlex, which `AddRow` refuses (`C127_infinite_row_violated`) |
| C128 | A cut activated twice and then removed leaves an active index without a cut, so reading the active cuts asserts (`C128_double_activation_violated`). `RemoveCut(active_cuts().back())` passes the assertions and is undefined behaviour (`C128_aliased_violated`) |
| C129 | Strong branching with SoPlex on a column with a fractional bound can raise an assertion, because a branch is solved if its bounds cross by at most 1/2 (`C129_fractional_bound_violated`); there is no assertion on the column (`C129_column_violated`); `AddRow` is accepted in a session but `EndStrongBranching` then asserts (`C129_add_row_violated`) |
| C130 | A message with the time limit NaN passes validation, and SoPlex, which compares with the ends of a range, takes it; the next solve then ends the process in a debug build (`C130_nan_time_limit_violated`) |
| C131 | `GetSparseRowOfBInvertedTimesA` of SoPlex and all four getters of Glop have no assertion on their argument: any index reaches the code of the solver, where the other three getters of SoPlex stop it (`C131_row_times_matrix_violated`, `C131_argument_violated`) |
| C132 | `IsOptimal()` of the Glop interface does not look at modifications: after `AddColumn` it still holds and `GetPrimalValues` returns the value of the slack of the first row as that of the new column, or reads behind the end if there is no row (`C132_stale_violated`); after `ReadLpFromFile` even `IsSolved()` holds (`C132_read_violated`); `GetRowActivities` and `GetReducedCosts` of SoPlex have no check (`C132_unchecked_violated`) |
| C133 | `AddNodeByBranchingFromParent` accepts any branching column. `RetrieveLowerBounds` skips a negative column (mip_tree.cc:137), `RetrieveUpperBounds` does not (mip_tree.cc:157): for a down-branch on `kInvalidCol` it writes in front of the row (`C133_invalid_column_violated`). `num_open_children` is the only query of a node without a check (`C133_open_children_violated`) |
| C134 | with one round of cuts and tolerance 0, lowering the side of `2 x <= 5/2` to 2 raises the reported maximum of `x` from below 1 to 1, because the cuts take the slack of the first for integral (`C134_lowered_side_violated`) |
| C134 | without cuts, at every tolerance `t` in (0, 1/4], in particular the default 1e-6: adding `x <= t` to `max y`, `y <= x / t`, `y <= 1 + x`, `y <= 3 - 4 x`, `x` binary raises the reported maximum from 0 to 1, because the constraint makes a point that is integral up to the tolerance the optimum of an LP (`C134_added_constraint_violated`) |
| C135 | the constraint `x <= t` of the last line is satisfied by the solution (0, 0) that `Solve` returns without it, and changes the reported maximum from 0 to 1 (`C135_added_constraint_violated`) |
| C136 | the problem with `x <= t` of the last two lines, split at `x <= 0` and `x >= 1`: `Solve` reports the maximum 1 for it, 0 for the first half and no solution for the second (`C136_tolerance_violated`) |
| C137 | in the problem of the last line `x` is 0 in every feasible point; subtracting `2 x / t` from the objective changes the reported maximum from 1 to 0 (`C137_tolerance_violated`) |

C72 (Glop) depends on what Glop's own ray is: the theorem assumes that the ray of the
solver is a ray of the LP in the usual sense, so that the negation in the interface is
the disagreement. If Glop's ray had the opposite sign, the interface would be right.
Likewise C51, C54, C69 and C70 depend on the documented behaviour of the solvers.

## Testing the theorems

`seeded/LOG.jsonl` has one line per wrong program: the definition edited in a scratch
copy, the edit, the claim it breaks, the theorems that failed to build afterwards, and
those tightened because of it. A theorem counts as failed when its proof no longer builds,
also if that is only because a lemma it uses fails. The lines `a1-...` are edits chosen at random by a
script (one token in one definition); for these the build was stopped at the first theorem that failed.

## Trusted base

* Lean 4.33.0's kernel, and the axioms `propext`, `Classical.choice` and `Quot.sound`.
  No axiom is added; there is no `sorry`, `native_decide` or `bv_decide`.
  Of the 484 theorems in the manifest 451 depend on all three axioms; 31 use fewer of
  them and 2 use none (`C41_errors_partial`, `C64_failed_solve_loses_scaling_violated`).
  `#print axioms` on a manifest name shows the list for each theorem.
* The faithfulness of the hand translation in `Verif/Model`, and of the descriptions of
  external classes in it, marked "(external)". As evidence for it, `Verif/Check` repeats the unit tests
  of the project on the model, with the inputs and the expected values of the tests: sparse vectors and
  matrices, MIP data, MIP tree, cut registry, hybrid selector (in doubles), branching rules, and the tests that build
  an LP with either interface. All of them hold. They are tests of the model; no claim in the manifest rests on
  them. Left out are the tests whose result comes from external code (LP solutions, file readers).
* Numbers: exact instead of IEEE doubles, but for C86 to C88, C91, C92, C95, C99, C101, C124 and C125 (see above; in C92 the LP answers are the
  exact ones rounded; the measures of a cut and the selector are exact but for the `C92_doubles` theorems, where they are in doubles too). For these: every operation rounds
  to nearest even and is performed as written (no fused multiply-add, no extended precision).
