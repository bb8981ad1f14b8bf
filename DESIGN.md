# Formal model of coin-or/Cgl in Lean 4 — design

## Approach

* The code is modelled function by function, one directory per generator: `lean/Verif/<Generator>/Model.lean` (for
  some generators several files). Every definition cites the lines of /repo it models and says what it simplifies.
* The specification layer is small and separate. `lean/Verif/Spec.lean` has a mixed-integer problem, "feasible
  point", "row cut / column cut satisfied"; all validity theorems are stated with it. What is particular to a
  generator (conditions on data, contracts of external searches, histories of calls) is in its own `Spec.lean`.
* The property theorems are in `Props.lean` of each directory. Concrete cases that meet their hypotheses, and the
  witnesses that show where the code violates the full property, are in `Witness.lean` (for small generators at the
  end of `Props.lean`). The other files are proofs.
* Where the code violates a property, the negation is proved with a concrete problem, and the theorem about the rest
  is named `..._partial`; its hypotheses are decidable conditions on the data or on the run.
* `double` is exact rational arithmetic (`ℚ`). Every tolerance constant of the code is kept, so the theorems say what
  the *algorithm* does including its tolerances; rounding errors of IEEE arithmetic, NaN and signed zero are outside
  the model. `COIN_DBL_MAX` is the exact value of `DBL_MAX`; a solver's infinity is a parameter.
* `int` is `Int`/`Nat`, or `BitVec 32` where the code works on bits. Overflow, division by zero, conversions out of
  range, out-of-range reads and writes, failed assertions, `abort`, `exit` and exceptions are distinct outcomes
  (`none` or `Except Fault`); the theorems say when they cannot happen, and witnesses exhibit them.
* Loops are structural recursions; loops with an unknown number of rounds have fuel, and a theorem says that the
  fuel suffices (termination).

## Trusted base

* Lean 4.33.0's kernel. Axioms: at most `propext`, `Classical.choice`, `Quot.sound`; no axiom is added, no `sorry`,
  `native_decide` or `bv_decide` (`vcheck` verifies this). Witnesses are checked by `decide +kernel` or by `rfl`,
  that is by evaluation inside the kernel.
* My reading of the C++ text. Each definition cites its lines. /repo cannot be compiled here, so the model was not
  compared with executions.
* The documented behaviour of the classes outside /repo:
  * `OsiSolverInterface`, `CoinPackedMatrix`, `CoinPackedVector`, `CoinIndexedVector`: problem data and sparse vectors;
    `CoinIndexedVector::quickAdd` with its special values (1e-50, 1e-100) is taken as exact addition.
  * `OsiCuts::insert`, `insertIfNotDuplicate`: append, or append unless an equal cut is there
    (`insertIfNotDuplicateAndClean` is taken as `insertIfNotDuplicate`: its rescaling of the cut is not modelled).
  * `CoinSort_2`: a stable sort where ties can matter to the result (DuplicateRow); elsewhere any sort.
  * `CoinFactorization`: the tableau rows are arbitrary inputs; the validity theorems ask that the row is a
    combination of the problem's rows, which is what a factorization delivers up to rounding.
  * `CoinRational`, `sqrt`, `cbrt`, `pow`, the clock, the random numbers: arbitrary functions.
  * `CoinConflictGraph`, `CoinBronKerbosch`, `CoinCliqueExtender`, `CoinOddWheelSeparator`, `CoinCutPool`,
    `CoinCliqueSet`: parameters with the contracts of `Conflict/Spec.lean`.
  * The simplex interface used by `CglLandP` (bases, tableau rows, pivots): arbitrary answers, with the contract of
    `LandP/Spec.lean` (`GoodBasis`, `GoodSteps`) in the validity theorem.
  * The LP solver used by `CglLiftAndProject`: any function; when it claims optimality its answer is optimal
    (`LiftProject.Right`).
  * `OsiRowCut2`, `hashCut`, `same`: the fields used, equality of cuts.

## What is modelled

| directory | code | not modelled |
|---|---|---|
| `SimpleRounding` | `CglSimpleRounding.cpp`, all | — |
| `Stored` | `CglStored.cpp`: cuts, files, probing cuts, best solution | `saveStuff`'s pointers beyond content |
| `TreeInfo` | `CglTreeInfo.cpp`: `CglTreeProbingInfo` (`fixes`, `initializeFixing`, `convert`, `packDown`, `fixColumns`, `generateCuts`, `analyze`, `outDupsEtc`) | `CglTreeInfo` plain data |
| `Clique` | `CglClique.cpp`, `CglCliqueHelper.cpp` | `CglFakeClique` (second solver), printing |
| `OddHole` | `CglOddHole.cpp`, all | — |
| `AllDiff` | `CglAllDifferent.cpp`, all | printing |
| `ResCap` | `CglResidualCapacity.cpp`, all | debug code |
| `Knapsack` | `CglKnapsackCover.cpp`, all that is compiled | `GUBCOVER` blocks (not compiled) |
| `MIR` | `CglMixedIntegerRounding.cpp`, `CglMixedIntegerRounding2.cpp` | the `CBC_HAS_CLP` block of the second |
| `GMI` | `CglGMI.cpp`, all seven cleaning procedures | `OSI_TABLEAU` variant, tracing |
| `Gomory` | `CglGomory.cpp`, default macros | second solver (`gomoryType_`, Clp only), marking as globally valid |
| `RedSplit` | `CglRedSplit.cpp` | `set_given_optsol` debugging aid |
| `RedSplit2` | `CglRedSplit2.cpp`, default macros: columns, rows, reduction, cuts, multipliers, choice of the best | the LU decomposition (any function of the system); `tiltLandPcut` only up to the access outside its array that every call with something to do makes |
| `Twomir` | `CglTwomir.cpp`, default macros | second solver, globally-valid marks |
| `FlowCover` | `CglFlowCover.cpp` | debug printing |
| `ZeroHalf` | `CglZeroHalf.cpp`, `Cgl012cut.cpp`: loading, parity rows, weakening, rounding, cut list, copies | the graph search here: arbitrary lists of cycles (`Env.cycles`), see `ZHSearch`; tabu search and pool (not compiled) |
| `DupRow` | `CglDuplicateRow.cpp`, modes 4 and 8, `outDuplicates` | `generateCuts12` (never called) |
| `Probing` | `CglProbing.cpp`: `generateCuts`, `generateCutsAndModify`, `gutsOfGenerateCuts`, `tighten`, `probe` | `probeFast`, `probeCliques`, `probeSlacks`, cliques and implication tables; assertions inside `probe` |
| `Conflict` | `CglBKClique.cpp`, `CglOddWheel.cpp`, `CglCliqueStrengthening.cpp` | the CoinUtils searches (contracts) |
| `LandP` | `CglLandP.cpp`, `CglLandPSimplex.cpp`, `CglLandPTabRow.cpp`, `CglLandPValidator.cpp`, `CglLandPUtils.hpp`: parameters, ranged rows, candidates, tableau rows, modularizing, bookkeeping of pivots, cuts, extra cuts, validator | which pivots are tried (arbitrary runs, `Step`, `Run`), reduced costs, `cleanCut2` (never called), statistics, printing |
| `LiftProject` | `CglLiftAndProject.cpp`, all that is compiled | warm starts, `generateCpp` |
| `PreClique` | `CglPreProcess.cpp`: `cliqueIt`, class `CglBK` | printing; rows `x - y <= 0`, which only the printing looks at |
| `PreTighten` | `CglPreProcess.cpp`: `tightenPrimalBounds`, `tighten` | printing; the variant `CBC_PREPROCESS_EXPERIMENT`; solvers whose bound pointers do not follow changes; division by explicit zeros |
| `Param` | the parameter classes and the setters of `CglGomory`, `CglTwomir`, `CglProbing` | NaN arguments |
| `MirIneq.lean`, `Tableau.lean`, `Osi.lean` | shared: the MIR inequality, tableau rows, Osi helpers | |
| `UniqueCuts` | `CglPreProcess.cpp`/`.hpp`: `CglUniqueRowCuts`; `CglProbing.cpp`: the insertion of `row_cut` | `hashCut` and `same` of Osi are parameters; overflow of sizes; `row_cut::addCuts` |
| `PreInteger` | `CglPreProcess.cpp`: `analyze`, `CglPreProcess::makeInteger` | messages |
| `PreFix` | `CglPreProcess.cpp`: `reducedCostFix`, `someFixed`, `passInProhibited`, `passInRowTypes`, `update`, `createOriginalIndices` | `scBound`, papilo, the calls of `resolve` (any answers), `CoinSort_2` (any sorting algorithm) |
| `ProbCliques` | `CglProbing.cpp`: `createCliques`, `cliqueModel`, `setupRowCliqueInformation`, `tightenThese` | messages and statistics; the arrays of the solver follow `setColLower` and `setColUpper` |
| `ZHSearch` | `Cgl012cut.cpp`, `CglZeroHalf.cpp`: the search for odd cycles (parity rows, edges, both graph stores, `cglShortestPath`, cycles) | time limit, printing; `std::make_heap`, `std::pop_heap` arbitrary |
| `PostProc` | `CglPreProcess.cpp`: `postProcess` | bases, Papilo and Clp sections, iteration counts, printing; the solvers and `postsolve` are parameters |
| `MakeInts` | `CglPreProcess.cpp`: `makeIntegers2` | blocks under `if (false)`, printing |
| `Triple` | `CglPreProcess.cpp`: `modified`, lines 6478-7094 (short rows are compared) | printing; `sqrt` is a parameter |
| `Rebuild` | `CglPreProcess.cpp`: `modified`, lines 7525-7537 and 7698-8578 (what is done with the answers of generators) | the generators (answers are inputs), clique cuts (see `CutRows`), printing, warm starts, resolving (its answer is an input) |
| `Setup` | `CglPreProcess.cpp`: `scaleRowIntegral`, `preProcessNonDefault` lines 1710-2600 (scaling, rounding of bounds, clique rows, slack columns) | `CoinRational` (a parameter), `makeEquality` 4 (accumulation variables, `makeInteger`), warm start, messages |
| `MoveObj` | `CglPreProcess.cpp`: `preProcessNonDefault` lines 2610-2920 (moving costs to integer columns) | `CBC_PREPROCESS_EXPERIMENT` (costed slacks), printing |
| `CutRows` | `CglPreProcess.cpp`: `modified` lines 7538-7650 (rows exchanged for clique cuts); `CglDuplicateRow.cpp`: `used` in `outDupsEtc` and `generateCuts8` | how the clique cuts are found (they are given), `resolve`, effectiveness of cuts |
| `Snapshot` | `CglProbing.cpp`: `snapshot` (lines 9930-10083), a repeated call of it | `cutVector_`, the copy by columns, `tighten` with cliques |
| `ProbingLife` | `CglProbing.cpp`: sizes of arrays in the constructors, `operator=`, the destructor, `generateCuts`, `generateCutsAndModify`, `snapshot`, `deleteSnapshot`, the start of `tighten` | cliques, `tightenBounds_`, `cutVector_`, option 2048, what is in the arrays |
| `DomCols` | `CglPreProcess.cpp`: dominated columns in `preProcessNonDefault`, 3236-3490 | overflow in products of infinite bounds; the message |
| `Vub` | `CglPreProcess.cpp`: rows with a singleton and an integer column in `preProcessNonDefault`, 3492-3598 | printing |
| `MadeCont` | `CglPreProcess.cpp`: integer singletons made continuous in `preProcessNonDefault`, 3805-3833 | the message |
| `Finish` | `CglPreProcess.cpp`: end of `preProcessNonDefault`: sets 3916-4126, rows that become cuts 4260-4297, right hand sides 4475-4529 | weights of sets, sorted copies that are not used, messages, SOS_SUB_STUFF, the length of `rowType_` |
| `Relax` | `CglPreProcess.cpp`: bounds of fixed continuous columns in `preProcessNonDefault`, 3122-3142 | when the solver reports that it failed |
| `ProcLife` | `CglPreProcess.cpp`: arrays of models, `startModel_` and `appData_` over the life of objects, 1642-1716, 8589-8849, 8866-8898 | other members, leaks, `postProcess`, how `preProcess` ends (any result with arrays of sufficient size) |
| `Clique.Life` | `CglClique.cpp:93-156`: settings of an object after calls | the same as for `Clique` |
| `Clique.Fake` | `CglClique.cpp:807-934`: `CglFakeClique` | cuts of `CglProbing`, cutoffs; the same as for `Clique` |
| `Gomory.Original` | `CglGomory.cpp:98-118, 342-357, 2007-2115`, `CglTwomir.cpp:97-139, 536-664, 2249-2259`: the original problem held | sizes only; the problem as such and the cuts made from it |
| `Gomory.Useless` | `CglGomory.cpp:127-199, 256-263, 289-320`, `CglTwomir.cpp:158-230, 271-278, 490-522`: cuts from the original problem | the search for cuts itself (a parameter here, see `Gomory` and `Twomir`), rows added for type 2 |

Not modelled at all: the rest of `CglPreProcess` (the driver `preProcess` after its start, the parts of `modified` that are not in the table, and the interfaces to solvers), `CglMessage`, the C++ memory management (leaks and double deletes are not visible in the model).

## Plan and method per property

See `properties.jsonl` for the statements, `MANIFEST.json` for the theorems.

| id | modelled | proof |
|----|----------|-------|
| C01, C02 | SimpleRounding: row derivation, power-of-ten scaling, gcd, cut; sign array threaded through the loop | Chvátal–Gomory argument; Euclid = gcd; invariant over rows; backward-error version for arbitrary coefficients |
| C03–C06 | Stored: list of cuts, violation test, four addCut overloads, bytes of a file | induction over histories, round trip both ways |
| C07–C11 | TreeProbingInfo: BitVec 32 entries, tables | BitVec facts, sort/compaction lemmas, soundness by fold invariants, induction over histories of `fixes` |
| C12, C49 | `analyze` and `outDupsEtc` | invariants over the loops; C12 false: witness |
| C13–C15 | Clique: selection, intersection graph, enumeration, greedy | every recorded list is a clique of the conflict graph, and this graph is sound; C15 false: witness, exact description of what is enumerated |
| C16–C18, C35, C36 | OddHole: row list, shortest paths, count/halve, limits | parity argument; fuel suffices; witnesses |
| C19, C38, C39 | AllDifferent: possible table, propagation, backtracking | every solution stays possible; every surviving value has support; termination measure |
| C20, C37 | ResidualCapacity | case analysis on y ≤ μ−1 / y ≥ μ; induction over histories |
| C21, C22, C40, C41 | KnapsackCover: derivation, covers, three liftings, exact knapsack | superadditivity of the lifting function; branch-and-bound invariant; loop measures |
| C23, C42–C44 | MIR, MIR2 | MIR inequality; aggregation invariants |
| C24, C25, C46–C48 | Gomory, GMI | GMI inequality from the split of one tableau row; each cleaning step relaxes |
| C26, C56, C57 | RedSplit | integer combinations of rows; norm decreases |
| C26, C80–C84 | RedSplit2 | rounded multipliers are checked, so any solution of the systems will do; integer combination of tableau rows, then Gomory; partitions of positions; sorted selection |
| C85–C87 | PreClique | invariant of the search: candidates and excluded columns are the common neighbours of the columns taken; a maximal clique always meets the columns branched on; at most one 1 in a clique |
| C88–C90 | PreTighten | the running sums of a row bound its activity at every point within the current bounds (`Sums`); every new bound holds at the feasible points; rows made free hold near the final bounds, by integrality; a reduced coefficient changes the row only at points that satisfy it anyway |
| C91–C93 | UniqueCuts | invariant: every entry of the hash table has no successor and an index below the number of cuts; duplicates by the pigeonhole principle for an arbitrary hash function; without collisions every cut is at its place and every entry belongs to a cut or to an erased number |
| C94, C95 | PreInteger | invariant: every feasible point is dominated by one that is integral in the columns found so far; three kinds of steps (already integral, shift a pair, round a column); count of the columns as a measure; the last round is a fixpoint |
| C96, C97, C98 | PreFix | weak duality for the reduced costs; invariants of the two loops of `someFixed`; induction over the in-place copy and over the chain of index maps |
| C99, C100, C101 | ProbCliques | the model while columns get fixed (a preorder of models), counting of strong entries, positions of a counting sort, a count of fresh columns for the loop of `setupRowCliqueInformation` |
| C102, C103, C104, C105 | ZHSearch | a graph store equal to a list of lightest edges; invariant of the tree of shortest paths without any assumption on the heap; parity of walks; optimality of the two-state weakening; witnesses for every lawful heap library |
| C106, C107, C108, C109, C110, C111 | PostProc | invariant of the loop over the passes (bounds inside, values that round inside); honest solvers as a hypothesis; invariant of the row activities while columns move; witnesses with a solver that is honest for every model |
| C112, C113, C114 | MakeInts | moves that make one more column integral (round a column alone in its rows; lower a column until its row is tight, then move a pair along the row), strong induction on the number of fractional columns; invariants of the loops; a count of marked rows and of integer columns for termination; witness with a column that is passed over |
| C115, C116, C117 | Triple | masks of rows with the same columns stand for the same sets; invariants of the loops over columns and pairs; implied bounds for both values of the binary column; a weighted comparison of two inequalities over columns that are not negative; witness in which only two of three columns are compared |
| C118, C119, C120, C121 | Rebuild | value of a row split into fixed columns, the singleton and a multiple of the greatest common divisor; induction over rows, entries of the tables, column cuts and answers; witnesses for stale types, elements not set and integer overflow |
| C122, C123, C124, C125, C126 | Setup | greatest common divisor and least common multiple make all numbers integers; the value of a row as fixed part plus ones minus ones; invariant of the loop over rows: bounds follow from the rows that get no slack column; induction over slack columns; witnesses for a multiplier rounded to zero, stored zeros, overflow, an inconsistent row copy and crossed bounds |
| C127, C128, C129 | MoveObj | invariant of the scan of a row (one column on one side, equal coefficients on the other); the change of the costs is a multiple of the row; induction over rows; witnesses for the wrong sign of the offset |
| C130, C131, C132 | CutRows | invariant of `used` in the loops of `outDupsEtc`: a clique dropped as a subset points to one that stays, and that one points at or below it; the choice among equal cliques takes a row if there is one; a chain of at most two steps; witness for the loop that never ends: the number of cliques, which stands for "not used", is taken for a row |
| C133, C134, C135 | Snapshot | the invariant of `tighten` for a point (`Probing`); a second invariant without a point: every row has its bounds or follows from bounds of the columns that the present ones are within, up to the rounding of integer columns; witnesses for the rounding, the row of the objective and a second call |
| C136, C137 | ProbingLife | state machine of sizes of arrays; invariants over histories (`lookedAt_` has as many entries as columns, or at least as many as any later problem); witnesses for growing problems, copies and snapshots |
| C138, C139 | DomCols | state machine over pairs of candidates; invariant: each fixed column has a candidate that is not fixed and at least as good (`choose` = -1 is strict); moving the value of a column to a better one keeps rows, bounds and objective; witnesses for negative costs, negative columns and maximisation |
| C140, C141 | Vub | fold over rows on the changing problem; invariant on the rows to come (a column of length one is in no other row); the singleton is moved to the row or to its bound; witnesses for fractional bounds and coefficients other than 1 |
| C142 | MadeCont | fold over columns on the changing problem; backward induction: the other columns of the equation are integer when a column becomes continuous; witness with a fractional coefficient |
| C143, C144, C145 | Finish | fold over rows with marks (invariant: sets are rows, marks are members); membership in the two filters; rounding is within 1e-13 and integer activities cannot lie between; witnesses for overlap and for fractional coefficients |
| C146 | Relax | fold over columns without repetitions; each bound is between the one before and the one of the user |
| C147 | ProcLife | state machine of objects with faults; invariant on arrays and on owners of application data; witnesses by evaluation |
| C148 | Clique.Life | the object after a call as a function; induction over calls; witness with two solvers |
| C149 | Clique.Fake | the loop over rows as a fold; validity of cliques from `generateCuts_valid` for the problem with the bounds put in |
| C150 | Clique.Fake | two flags for the pointers; induction over calls; two witnesses where NULL is followed |
| C151 | Gomory.Original | sizes of the problem held and the type; invariant, induction over calls; a witness for each way to an assertion |
| C152 | Gomory.Useless | the search for cuts as a parameter; the loop over cuts as a recursion, equal to a filter; witness where Clp gives up |
| C27, C54, C55 | Twomir | two-step MIR inequality |
| C28, C50–C52 | FlowCover | superadditive lifting function on flow sets |
| C29, C62–C65 | ZeroHalf | parity: sum of rows with even coefficients, halved and rounded |
| C30, C66–C68 | DuplicateRow | pairwise row algebra; enumeration of at most eight points; clique subsets |
| C31, C69–C72 | Probing | activity bounds of rows as invariants of the propagation; both ways cover all points; undo restores the state |
| C32, C45, C53 | parameter classes | local conditions per class, induction over histories with any number of objects |
| C33, C73–C75 | LandP | intersection cut from a tableau row and its strengthening for any sequence of good pivots; cleaning only weakens; counting; no fault for the default settings |
| C76–C79 | LiftProject | layout of the arrays = cone problem; feasible multipliers give a disjunctive cut; counting of rows |
| C34, C58–C61 | BKClique, OddWheel, CliqueStrengthening | cliques of a sound conflict graph; odd-wheel parity |

## What the model shows about the code

The list names the places where a full property fails. Those with a theorem name are proved by a witness; the others
were found while modelling and are described in comments of the model.

* SimpleRounding: coefficients below the tolerance (`generateCuts_tiny_invalid`), casts of large values
  (`generateCuts_overflow_ub`).
* TreeInfo: `convert` loses one sentinel entry (`convert_loses`); `outDupsEtc` takes {1,3} for a subset of {1,2,4}
  (`cleanup_loses`), ignores directions (`cleanup_ignores_direction`), keeps an inequality instead of an equal
  equation (`cleanup_prefers_first`), reads past a clique (`cleanup_reads…`); extra cliques write through NULL
  (`extra_cliques_fault`).
* Clique: enumeration looks at one maximal clique only (`generateCuts_misses`); negative lower bounds
  (`generateCuts_negative_invalid`).
* OddHole: fixed columns (`generateCuts_fixed_invalid`, `generateCuts_cover_invalid`), configured limits ignored
  (`limits_…`), array overrun with fewer rows than columns (`generateCuts_overflow`), assignment disables
  (`assign_disables`).
* AllDifferent: column numbers and positions confused (`generateCuts_mixup_invalid`), large ranges
  (`generateCuts_large_invalid`), no sets: NULL (`generateCuts_default_faults`).
* ResidualCapacity: tolerance (`tolerance_invalid`), stale preprocessing (`stale_invalid`).
* Knapsack: tiny coefficients (`generateCuts_invalid_tiny`, `generateCuts_ub_tiny`); `exactSolveKnapsack` is not
  optimal for fractional profits (`exactSolve_not_optimal`).
* MIR: see `MIR/Witness.lean` (tiny coefficients dropped without relaxing, coefficient exactly at the tolerance,
  fractional bounds complemented, reads outside arrays in the second generator, stale preprocessing, copies).
* GMI, Gomory, RedSplit, Twomir, FlowCover: near-integers taken as integers, small coefficients on unbounded columns
  dropped, integer columns at fractional bounds, negative gcd turning a cut round; see each `Witness.lean`.
* RedSplit: `ind_row > nrow` should be `>=` (`reads_past_end`). Parameters: `getMAXDYN` returns `MAXDYN_LUB`,
  `setMAX_SUPP_REL` writes `MINVIOL` (`Param/Witness.lean`).
* RedSplit2: rows with too many nonzeros are skipped but still counted (`skipped_rows_uninitialised`); 0 rows to combine
  are accepted and write before a list (`zero_rows_outside`); right-hand sides from 1e100 on (`huge_rhs_asserts`);
  overflows (`support_overflow`, `lambda_overflow`); `tiltLandPcut` indexes an array of one row by the rows of the tableau
  (`tilt_fails`, `tilt_useless`); cuts that are not violated (`far_not_cut_off`). The time limit has no effect because
  `CHECK_SPLIT_TIME` is not defined; the quality of a cut divides by the squared norm (comments).
* ZeroHalf: near-integers, casts of bounds, local bounds kept in "global" cuts, copies silent, assignment aborts.
* DuplicateRow: equation lost, wrong subset test, loop over the wrong variable, stale flags on a second call, failed
  assertions, casts.
* Probing: artificial bounds, tolerance snapping, objective-based fixings used as bounds, failures when maximising,
  all-or-nothing cut limit (`over_limit`).
* Conflict: `row_lost`, `near_tie_cut_off`, `second_call`, `other_row`, `no_elements`, `long_name`, `bk_history`,
  `ow_copy`, `negative_center`.
* LandP: extra cuts made when a variable enters the basis overwrite the row of the search (`entering_invalid`); only
  the first call looks for ranged rows (`ranged_later_invalid`), and a first call with ranged rows leaves the pivots
  switched off (`landp_switched_off`); fractional bounds (`fractional_bound_invalid`); the assertion in
  `generateExtraCut` fails for values above 1 (`extra_assertion`); `AllViolatedMigs` reads members before they are set
  (`allMigs_fault`); the dynamic weight throws (`dynamic_throws`); an empty cut is added when no cut is found
  (`empty_cut`); extra cuts may use columns that do not exist (`extra_column`); the rule `initialReducedCosts` writes
  `rowFlags_[-1]` (`initial_costs_write`); assigning parameters copies one limit into another (`assign_differs`).
  After a failed first attempt the pivot limit for the tree is lost for the remaining rows (comment).
* LiftProject: the column type is looked up with the left-over index `i = m`, so cuts come from continuous columns too
  (`continuous_invalid`) and problems in the documented form read outside the array (`documented_fails`); gaps in the
  matrix (`gap_uninitialised`) and problems without rows (`no_rows_fails`) fail; cuts that are not violated are added
  (`not_violated`).
* PreClique: the Bron-Kerbosch search counts a column once per shared row, so a branch with a pivot that shares two rows
  with a candidate is given up, cliques are missed, and rows are deleted that nothing replaces: the new model has more
  feasible points (`shared_pair_adds_points`).
* PreTighten: a row is made free because of bounds derived from it, although these are rounded outwards by up to 1e-5
  afterwards: `x >= 1e-5` for a binary column is dropped (`tighten_adds_point_fractional`; with integral data and a large
  tolerance `tighten_adds_point`); a continuous column with bounds below 1e-8 is fixed at 0 (`tighten_loses_point`);
  fractional bounds of integer columns are loosened (`tighten_loosens`); 0 is returned although bounds were changed
  (`silent_result`).
* UniqueCuts: the hash tables never chain.  When the place of a new cut is taken by another cut and the chain has
  length one, the code takes the branch "first" and overwrites the entry, so the other cut is no longer found and can be
  added again (`duplicates_held`, for every hash function; in the preprocessor the result is a repeated row).
  `eraseRowCut` does not work for the last cut (`erase_last_fails`) nor after a collision, and leaves entries that make a
  later insertion use a null pointer (`stale_result`, `reuse_fails` after `addCuts`).  Copies read uninitialised pointers
  unless the array is full (`copy_fails`).
* PreInteger: in the test for pairs of continuous columns `makeInteger` walks through the first column twice instead of
  through both, so the other rows of the second column are ignored and the optimum can change (`makeInteger_fails`);
  explicit zeros overflow the array `which` (`makeInteger_zeros_fails`); coefficients within 1e-12 of an integer count as
  integers, which can make a feasible problem infeasible (`analyze_inexact_fails`).
* PreFix: `reducedCostFix` compares a reduced cost with the gap as if the bound were integral, and an integer column with a
  fractional bound is fixed at the fraction (`reducedCostFix_fails`). `someFixed` reads `upper[number]` instead of
  `upper[iColumn]`, outside the array if every column is a candidate (`someFixed_outside`), and "fixes" a column at its
  upper bound by setting its lower bound to its lower bound (`someFixed_fails`). `update` mixes up the row types if the rows
  change order or are new (`update_rows_fails`, `update_new_row`). `createOriginalIndices` sorts the original columns
  (`originalIndices_fails`), and uses a null pointer if a pass without a presolve comes before one with
  (`originalIndices_null`).

* ProbCliques: `createCliques` scans the clique rows a second time after columns have been fixed, and takes every row with a
  finite lower bound that is not an upper clique any more for a lower clique, so `x0 + x1 + x2 = 1` with `x0` fixed at 1
  gives the false clique "at most one of x1, x2 is 0" (`createCliques_fails`); it casts row bounds below -2^31 to `int`
  (`createCliques_casts`) and treats columns with a gap below 1e-8 as fixed at the lower bound whatever the coefficient
  (`createCliques_loses`).  `cliqueModel` reads a null pointer without cliques, and type 2 takes packed entries for column
  numbers.  `setupRowCliqueInformation` allocates arrays of size -99999 after an infeasible problem.
* ZHSearch: `cglShortestPath` lowers keys inside the heap, appends nodes without `push_heap`, and stops when the front has
  not been reached: for every standard library it overlooks nodes at distance zero, hands `pop_heap` vectors that are no
  heaps, and misses the cut of three rows around a triangle at (1/2, 1/2, 1/2).  The count of the pairs of a row overflows
  for 46342 odd entries.
* PostProc: `postProcess` rounds a fractional integer column without looking at its bounds (`leftover_beyond`), counts with an
  assertion that fails when the preprocessing has made columns integer (`leftover_assertion`), turns a reduced model without
  a solution into a "proven optimal" user's model (`unsolved_silent`), gives semi-continuous columns that presolve removed at
  0 a positive lower bound (`sc_zero_lost`), composes column numbers in place (`original_numbers_order`), loses the objective
  limit of the reduced model (`cutoff_lost`), and in simple mode deletes 99 models where one was allocated
  (`simple_unsolved_outside`).
* MakeInts: `makeIntegers2` passes over continuous columns without a cost (in the stronger mode those in exactly one row),
  although they keep a row from being integral, so the optimum of `min x, x + z >= 1, z <= 1/2` goes from 1/2 to 1 in every
  mode (`makeIntegers2_fails`).  Rows marked in the main loop are not spread from; this does no harm, because a column that
  shares a row and is in several rows has to have an equation of its own.
* Triple: when `modified` compares two rows with three entries, the verdict "same" asks only that one of the two scaled elements
  beside the binary column is equal, so `x0 + x1 + x2 <= 1` is made free because of `x0 + x1 - x2 <= 1` and (0, 1, 1) becomes
  feasible (`triple_fails`).  Fixing the binary column at 0 is written `setColLower(iColumn, 0.0)`, which has no effect.  The
  scale factor of the other half of an equation or range is never set: it is 0 or left over from an earlier comparison; this does
  no harm to solutions.
* Rebuild: in `modified` the loop that moves the types of rows declares its own `int numberRowType_`, so the member keeps the old
  number: an equation that is added gets the type of a dropped row instead of -1 (`types_stale`), and the next change of rows fails
  `assert(numberRowType_ == numberRows)` (`types_assert`).  If a row is found infeasible before the last one, elements of `keepRow`
  that were never set are read (`unset_read`).  A coefficient above about 1.8e7 in a row with a singleton is multiplied by 120 and
  converted to `int`, which is undefined (`int_overflow`).  Row cuts of `CglDuplicateRow` are added twice, once at once and once
  at the end.
* Setup: a row whose numbers are all multiples of something above 1e12 gets a multiplier below 1e-12, which is rounded to 0; the
  double check accepts 0 (`huge_zero`), and then `assert(fabs(vint)>0.9)` fails, or with assertions off the row is lost
  (`huge_assert`).  The same assertion fails for a stored zero (`zeroCoef_assert`).  The least common multiple of denominators up
  to 1000 is kept in 64 bits and overflows for coefficients 1/2, 1/3, ..., 1/53 (`primes_overflow`).  If the double check fails
  for a row that is to be negated, the local row copy keeps the scaled coefficients although the row is only negated
  (`skew_copy`): the row is then taken for a clique, and with `makeEquality` 2 solutions are lost (`skew_lost`).  A row with crossed
  bounds becomes feasible (`crossed_feasible`).  Clique rows without a lower bound, the usual form, are passed over
  (`packing_skipped`), and cliques found from the lower side are never used.  Rounded bounds and fixed columns go to the user's
  model only: `startModel_`, which is preprocessed further, was copied before (`prob_setup`).
* MoveObj: when costs are moved, the offset of the objective gets the wrong sign if the costs are positive and the coefficients of
  their columns negative, or the other way round, and the right hand side is not 0: the value of the objective at a feasible point
  changes from -66 to -42 (`wrong_plus`), from -78 to -102 (`wrong_minus`).  The order of solutions stays (`moveCosts_order`).
* CutRows: "not used" is marked by the number of cliques, which `CglPreProcess::modified` takes for a row number.  If the row with this
  number is a clique cut that is a copy of another clique, `while (earliest >= numberRows)` never ends (`never_ends`: three rows and
  one cut).
* Snapshot: a row can be marked as redundant because of a bound that is rounded up afterwards, and the row that gave the bound can then
  be redundant within the tolerance: `0.01 x <= 0.0299995` and `1000000 x <= 2999950` are both freed and `x = 3` is left
  (`not_redundant`).
* Snapshot: `rowLower_` and `rowUpper_` of the row for the objective are never written (`not_objective`); `gutsOfGenerateCuts` only
  overwrites its copies of them if `usingObjective_` is positive.
* Snapshot: `deleteSnapshot` leaves `lookColumn_`, which makes `tighten` take `numberRows_` for a count of rows to look at and set it to
  0, so a second `snapshot` (or `refreshSolver`) leaves an object with no rows (`again_lost`), and `setDimensions` of CoinUtils, asked
  for fewer rows than the matrix has, throws at its end (C136).
* ProbingLife: `lookedAt_` is allocated once, for the columns of the first problem; a later problem with more columns is written behind its
  end (`not_more`); a copy made after a smaller problem has a shorter array (`not_shrunk`), and a copy can read behind the end
  (`not_copied`).
* ProbingLife: `generateCuts` frees `colLower_` and `colUpper_` of a snapshot, a copy then reads them through `NULL` (`snapshot_copy`);
  `tighten` sets `numberRows_` to 0, and the second call after a snapshot fails an assertion (`snapshot_twice`); a second snapshot throws
  (`snapshot_again`); the destructor of an object with an unused snapshot fails an assertion (`snapshot_destroy`).
* ProbingLife: a copy made after `generateCutsAndModify` has `numberThisTime()` entries but no `lookedAt()` (`not_list`), because
  `numberColumns_` was never set.
* DomCols: a column with a negative cost in covering rows only may be fixed although both columns at 1 are best (`not_gain`); a
  covering row is taken to be satisfied by one column at its upper bound even if another column may be negative, and the problem can
  become infeasible (`not_negative`); the sense of the objective is not read (`not_max`).
* DomCols: the upper bound of a fixed column becomes 0 even if it was negative (`not_crossed`).
* Vub: a singleton column is made integer if the numbers of its row are integers, also if its upper bound is fractional (`not_bound`)
  or its coefficient is not 1 (`not_unit`): the optimum is lost.
* MadeCont: an integer column becomes continuous if its equation has integer columns only; coefficients of the other columns and the
  right hand side are not tested, and points with fractional values can become feasible (`not_whole`).
* Finish: coefficients such as 0.6 pass the test for integers when right hand sides are cleaned, because `fabs` is missing around the
  difference (`CglPreProcess.cpp:4498`); a feasible point can be lost (`not_kept`).
* ProcLife: a copy of an unused `CglPreProcess` frees an unset pointer (`not_copy`); assigning an unused object to a used one frees
  `modifiedModel_` twice (`not_assign`); the destructor after `clean` follows `NULL` (`not_clean`); a copy after an infeasible problem
  clones `NULL` (`not_infeasible`); copies free the same application data (`not_app`); after 99 passes `clean` and copies read behind
  arrays (`not_odd`) and `clean` or another `preProcess` frees the solver of the user (`not_user`).
* Clique: after a call that returns early (fewer than two columns) the tolerance of that solver stays as the minimum violation of the
  object, because -1 is put back at the end of the function only (`CglClique.cpp:123-127`); a violated clique can then be missed with
  another solver (`not_alike`).
* FakeClique: an object made without a solver and given one by `assignSolver` has no probing object, and copying it follows `NULL`
  (`CglClique.cpp:826-828`, `fake_late`); `assignSolver(NULL)` on an object with a probing object follows `NULL` as well (861-862,
  `fake_away`).  With Clp the reduced costs are copied over the primal solution instead of the reduced costs (889-890), so cliques are
  looked for at the wrong point (`not_point`).
* Gomory, Twomir: with an original problem, `setGomoryType(0)` (`not_type`) or `swapOriginalSolver` on a new object (`not_swap`) lead to a
  failed assertion in `generateCuts`; for `CglGomory` also `setGomoryType(2)` without an original problem (`CglGomory.cpp:343-345`,
  `not_two`).  A problem with another number of columns is replaced by the one given with all its cuts, and later calls with fewer cuts
  fail (`not_fewer`).
* Gomory, Twomir: if Clp cannot solve the original problem with the changed objective, the saved objective is freed without being put back
  (`CglGomory.cpp:256-263`, `CglTwomir.cpp:271-278`), and all later calls work with the wrong one (`not_restored`).

## Tests of the theorems

`seeded/LOG.jsonl` has one line per seeded bug: an edit of one definition of the model in a scratch copy
(`tools/mutate.py`), the claim it breaks and the theorems that failed. Edits after which everything still proved were
reviewed: either no claim is about the edited behaviour, or a theorem was tightened.
