import json
P=[]
def p(title,statement,quant,why,anchors):
    P.append(dict(id="C%02d"%(len(P)+1),title=title,statement=statement,quantifier=quant,why_tests_cant=why,anchors=anchors))
EX=" (arithmetic on doubles read as exact rational arithmetic, tolerances kept as the code has them)"
p("Simple rounding cuts never cut off an integer solution",
  "Every row cut that CglSimpleRounding::generateCuts adds is satisfied by every point that satisfies all rows, column bounds and integrality of the solver it was given, when no nonzero coefficient lies inside the generator's zero tolerance and the coefficients are decimals the scaling represents exactly"+EX+".",
  "all problems, all rows (<=, >=, =, ranged, free), all bounds incl. infinite, all feasible points",
  "a test sees a handful of instances; validity must hold for every feasible point of every instance",
  ["src/CglSimpleRounding/CglSimpleRounding.cpp: generateCuts, deriveAnIntegerRow, power10ToMakeDoubleAnInt","src/CglSimpleRounding/CglSimpleRounding.hpp: gcd, gcdv"])
p("Simple rounding cuts are integral and primitive",
  "Every cut CglSimpleRounding adds has integer coefficients whose greatest common divisor is 1, an integer right-hand side, and mentions only non-fixed integer columns.",
  "all problems and rows","needs the gcd/scaling loop to be right for all coefficient vectors",
  ["src/CglSimpleRounding/CglSimpleRounding.hpp: gcd, gcdv","src/CglSimpleRounding/CglSimpleRounding.cpp: generateCuts"])
p("The stored-cut generator returns exactly the violated stored cuts",
  "CglStored::generateCuts (without probing info) appends to the caller's collection exactly the stored cuts whose violation at the solver's current solution is at least the required violation, unchanged and in storage order, and changes nothing else.",
  "all stored collections, solutions, thresholds","quantifies over all histories of addCut and all solutions",
  ["src/CglCommon/CglStored.cpp: generateCuts, addCut"])
p("Stored cuts are never lost, duplicated or altered",
  "After any sequence of addCut calls (four overloads), copies and assignments, the generator holds exactly the added cuts in order, with the bounds and coefficients given, each marked to be kept when diving (maximal effectiveness).",
  "all operation histories","histories are unbounded",
  ["src/CglCommon/CglStored.cpp: addCut, copy constructor, operator="])
p("A cut file written in the documented layout loads back to the same cuts",
  "The file constructor of CglStored reads, from the sequence of records (length, two bounds, indices, coefficients) terminated by a negative length, exactly the cuts written.",
  "all lists of cuts","round trip over all lists and lengths",
  ["src/CglCommon/CglStored.cpp: CglStored(const char*)"])
p("Cuts from stored probing implications are valid",
  "When every recorded implication 'binary i at 0 (or 1) forces j to its lower (or upper) bound' is true of the problem, every cut CglStored adds from those implications is satisfied by every feasible point, including implications on general bounded columns.",
  "all implication tables, all bounds, all feasible points, all LP solutions","eight cases times all bounds and points",
  ["src/CglCommon/CglStored.cpp: generateCuts"])
p("Clique entries encode a (column, direction) pair without loss",
  "For every 31-bit column number and direction flag, setting one field of a clique entry changes only that field and reading returns what was written, in any order of sets, from any previous content.",
  "all 32-bit words, all sequences of sets","2^32 words times all op sequences",
  ["src/CglCommon/CglTreeInfo.hpp: sequenceInCliqueEntry, setSequenceInCliqueEntry, oneFixesInCliqueEntry, setOneFixesInCliqueEntry"])
p("Recorded implications are exactly the implications exposed",
  "After any sequence of fixes(...) calls that returned true, the ordered tables (toZero, toOne, fixEntries) list for each binary and each direction exactly the set of implications recorded for it, no more and no fewer.",
  "all operation histories, all numbers of columns","unbounded histories; sort and in-place compaction",
  ["src/CglCommon/CglTreeInfo.cpp: fixes, convert, initializeFixing"])
p("Packing down keeps exactly the 0-1 implications",
  "packDown() keeps, per binary and direction and in order, exactly the implications whose target is itself 0-1, drops the others, and returns the number kept.",
  "all tables","in-place compaction over all table shapes",
  ["src/CglCommon/CglTreeInfo.cpp: packDown"])
p("Fixing columns from implications never removes a feasible point",
  "If the recorded implications are true of the problem, then after fixColumns (either overload) every feasible point of the problem with the old bounds (and, for the one-variable form, with the given value) satisfies the new bounds; and a return of -1 means there is no such point.",
  "all implication tables over 0-1 columns, all bounds, all feasible points","all tables and points",
  ["src/CglCommon/CglTreeInfo.cpp: fixColumns"])
p("Implication cuts and fixings from the probing table are valid",
  "Every row cut and column cut produced by CglTreeProbingInfo::generateCuts is satisfied by every feasible 0-1 point that respects the recorded implications; the infeasibility cut is produced only if no such point exists.",
  "all tables, bounds, LP solutions, points","all tables and points",
  ["src/CglCommon/CglTreeInfo.cpp: CglTreeProbingInfo::generateCuts"])
p("Removing duplicate and dominated cliques loses no constraint",
  "The clique clean-up used by analyze() only discards a clique that is implied by a clique it keeps.",
  "all clique lists","all lists; expected to fail: entries are compared by column only",
  ["src/CglCommon/CglTreeInfo.cpp: outDupsEtc, analyze"])
p("Clique cuts never cut off a 0-1 solution",
  "Every cut CglClique adds is satisfied by every feasible point of the solver, when columns outside the selected binaries have non-negative lower bounds.",
  "all problems, LP solutions, options, enumeration orders","recursive enumeration over all graphs",
  ["src/CglClique/CglClique.cpp: generateCuts, find_rcl, find_scl, enumerate_maximal_cliques, greedy_maximal_clique, recordClique","src/CglClique/CglCliqueHelper.cpp: selectFractionalBinaries, selectRowCliques, createSetPackingSubMatrix, createNodeNode"])
p("Clique cuts are violated and are cliques",
  "Every cut CglClique adds has distinct columns, unit coefficients and right-hand side 1, and the LP solution passed in violates it by at least the minimum violation.",
  "all graphs, thresholds","all graphs",
  ["src/CglClique/CglClique.cpp: enumerate_maximal_cliques, greedy_maximal_clique, recordClique"])
p("Clique enumeration is complete below the threshold",
  "When the degrees and candidate counts stay below the enumeration thresholds, every set of at least three binary columns of which any two share a row sum <= 1, and whose LP values sum to at least 1 plus the minimum violation, is contained in some clique cut that generateCuts returns.",
  "all graphs","all graphs; exhaustive recursion",
  ["src/CglClique/CglClique.cpp: enumerate_maximal_cliques"])
p("Odd-hole (packing) cuts never cut off a feasible point",
  "Every cut CglOddHole adds from set-packing rows is satisfied by every feasible point.",
  "all problems, LP solutions","shortest-path search over all graphs; all feasible points",
  ["src/CglOddHole/CglOddHole.cpp: generateCuts, createRowList"])
p("Odd-hole (covering) cuts never cut off a feasible point",
  "Every cut CglOddHole adds from set-covering rows is satisfied by every feasible point.",
  "all problems, LP solutions","as above",
  ["src/CglOddHole/CglOddHole.cpp: generateCuts, createRowList"])
p("Odd-hole cuts respect the configured limits",
  "Every cut CglOddHole adds is violated by at least the minimum violation at the LP solution it separated and has at most the maximum number of entries; after any sequence of setter calls the limits stay inside their documented ranges.",
  "all problems; all setter histories","all histories",
  ["src/CglOddHole/CglOddHole.cpp: generateCuts, setMinimumViolation, setMinimumViolationPer, setMaximumEntries"])
p("All-different tightening never removes a solution",
  "Every assignment of integers within the column bounds whose values are pairwise different inside every declared set satisfies every column bound change CglAllDifferent produces, and the infeasibility cut is produced only if there is no such assignment.",
  "all set systems, all integer bounds, all assignments","fix-point loop plus exhaustive backtracking search",
  ["src/CglAllDifferent/CglAllDifferent.cpp: generateCuts"])
p("Residual capacity cuts never cut off a feasible point",
  "Every cut CglResidualCapacity adds is satisfied by every feasible point of the solver"+EX+", when no coefficient, lower bound, coefficient-times-bound or difference of integer coefficients lies inside the zero tolerance without being zero.",
  "all problems, LP solutions, points","all points of all problems",
  ["src/CglResidualCapacity/CglResidualCapacity.cpp: resCapPreprocess, determineRowType, treatAsLessThan, resCapSeparation, generateResCapCuts"])

p("The derived knapsack is implied by the row",
  "The 0-1 knapsack (with complemented columns) that CglKnapsackCover derives from a row is satisfied by every feasible point; if it reports infeasibility no feasible point exists.",
  "all rows, bounds, points","all points",
  ["src/CglKnapsackCover/CglKnapsackCover.cpp: deriveAKnapsack"])
p("Cover and lifted cover cuts never cut off a feasible point",
  "Every lifted cover cut CglKnapsackCover builds from a cover of the derived knapsack is satisfied by every feasible point, after uncomplementing.",
  "all knapsacks, covers, points","lifting coefficients depend on all data",
  ["src/CglKnapsackCover/CglKnapsackCover.cpp: liftAndUncomplementAndAdd, seqLiftAndUncomplementAndAdd, liftUpDownAndUncomplementAndAdd, liftCoverCut, liftMinus"])
p("Mixed integer rounding cuts never cut off a feasible point",
  "Every cut CglMixedIntegerRounding and CglMixedIntegerRounding2 derive from an aggregated row by bound substitution, complementing, scaling and rounding is satisfied by every feasible point"+EX+".",
  "all rows, bounds, variable bounds, scaling factors, points","all points of all problems",
  ["src/CglMixedIntegerRounding/CglMixedIntegerRounding.cpp: cMirInequality, cMirSeparation, boundSubstitution, aggregateRow","src/CglMixedIntegerRounding2/CglMixedIntegerRounding2.cpp"])
p("Gomory mixed integer cuts never cut off a feasible point",
  "The cut CglGomory and CglGMI derive from a simplex tableau row by the mixed-integer rounding formula, with variables at either bound and slacks substituted out, is satisfied by every feasible point"+EX+".",
  "all tableau rows that are combinations of the constraints, all bounds, points","all points",
  ["src/CglGomory/CglGomory.cpp: generateCuts","src/CglGMI/CglGMI.cpp: generateCuts"])
p("Cleaning up a cut only relaxes it",
  "When CglGMI removes small coefficients or scales a cut to integral coefficients, every point within the column bounds that satisfied the cut before satisfies it after, or the cut is rejected.",
  "all cuts, bounds, parameters","all points",
  ["src/CglGMI/CglGMI.cpp: cleanCut, removeSmallCoefficients, scaleCutIntegral"])
p("Reduce-and-split cuts never cut off a feasible point",
  "Row combinations chosen by CglRedSplit are integral, so the split cut derived from them is satisfied by every feasible point"+EX+".",
  "all tableaux, reductions, points","unbounded reduction sequences",
  ["src/CglRedSplit/CglRedSplit.cpp","src/CglRedSplit2/CglRedSplit2.cpp"])
p("Two-step MIR cuts never cut off a feasible point",
  "Every cut CglTwomir builds from a base inequality (tableau row or formulation row) by one-step or two-step mixed integer rounding is satisfied by every feasible point"+EX+".",
  "all base inequalities, parameters, points","all points",
  ["src/CglTwomir/CglTwomir.cpp: DGG_buildMir, DGG_build2step"])
p("Flow cover cuts never cut off a feasible point",
  "Every lifted flow cover inequality CglFlowCover generates is satisfied by every feasible point"+EX+".",
  "all rows, bounds, points","all points",
  ["src/CglFlowCover/CglFlowCover.cpp: generateOneFlowCut, flowPreprocess, liftMinus, liftPlus"])
p("Zero-half cuts never cut off an integer solution",
  "Every zero-half cut is satisfied by every integer point satisfying the integer system it was built from.",
  "all integer systems, tabu/cycle search histories, points","all points and search histories",
  ["src/CglZeroHalf/Cgl012cut.cpp: get_cut, cut_score, best_cut","src/CglZeroHalf/CglZeroHalf.cpp"])
p("Duplicate-row removal does not change the feasible set",
  "Fixings and row removals reported by CglDuplicateRow keep the set of feasible points (or, where it uses the objective, at least one optimal point).",
  "all problems","all problems",
  ["src/CglDuplicateRow/CglDuplicateRow.cpp: generateCuts, generateCuts4, generateCuts8, outDuplicates"])
p("Probing bound changes never cut off a feasible point",
  "Every column bound CglProbing tightens from row activities, alone or under a probed value and its complement, holds for every feasible point; declared infeasibility means there is none"+EX+".",
  "all problems, probing orders, points","fix-point propagation over all problems",
  ["src/CglProbing/CglProbing.cpp: tighten, probe"])
p("Parameter setters never leave a generator with an illegal parameter",
  "After any sequence of setter calls starting from a default-constructed parameter object, each parameter whose setter validates its argument lies in its documented range, and a rejected call changes nothing.",
  "all call histories","unbounded histories",
  ["src/CglCommon/CglParam.cpp","src/CglGMI/CglGMIParam.cpp","src/CglRedSplit/CglRedSplitParam.cpp","src/CglRedSplit2/CglRedSplit2Param.cpp"])
p("Lift-and-project cuts never cut off a feasible point",
  "The disjunctive/intersection cut that CglLandP derives from a tableau row is satisfied by every feasible point, with or without the modularization strengthening"+EX+".",
  "all tableau rows, bounds, points","all points",
  ["src/CglLandP/CglLandPSimplex.cpp: createIntersectionCut, createMIG, modularizeRow"])
p("Odd-wheel and clique strengthening keep every feasible 0-1 point",
  "Clique cuts of CglBKClique, odd-wheel cuts of CglOddWheel and the strengthened rows of CglCliqueStrengthening hold at every 0-1 point that respects the conflict graph and the rows.",
  "all conflict graphs, rows, points","all graphs",
  ["src/CglBKClique/CglBKClique.cpp","src/CglOddWheel/CglOddWheel.cpp","src/CglCliqueStrengthening/CglCliqueStrengthening.cpp"])
p("Odd-hole generation always ends and stays within its arrays",
  "For every problem, LP solution and row list, CglOddHole::generateCuts returns after finitely many steps and never reads or writes outside the arrays it allocates.",
  "all problems, LP solutions, row lists, random number sequences","termination and memory safety of a shortest-path search on all graphs",
  ["src/CglOddHole/CglOddHole.cpp: generateCuts"])
p("Copies of an odd-hole generator behave like the original",
  "An odd-hole generator that is copy-constructed, cloned or assigned from another returns the same cuts as the original on every problem.",
  "all generator states, problems, LP solutions","all states and problems",
  ["src/CglOddHole/CglOddHole.cpp: CglOddHole(const CglOddHole &), operator="])
p("Residual capacity cuts stay valid although rows are classified once",
  "In any sequence of generateCuts calls on one CglResidualCapacity object whose problems differ from the first one only by tightened column bounds (nodes of a search tree), every cut of every call is satisfied by every feasible point of the problem it was generated for; with setDoPreproc(1) the problems need not be related.",
  "all call sequences, problems, LP solutions, points","unbounded histories of calls",
  ["src/CglResidualCapacity/CglResidualCapacity.cpp: generateCuts, resCapPreprocess, setDoPreproc, refreshPrep"])
p("All-different bound tightening is exact for each set when ranges are small",
  "If the listed columns' integer bounds span at most 29 values and CglAllDifferent::generateCuts does not report infeasibility, then for every column of every declared set each of its two bounds after the run is attained by some assignment of integers within the bounds that is all-different inside that set (no further tightening from one set is possible).",
  "all collections of sets, bounds","backtracking search over all assignments and fix-point over all sets",
  ["src/CglAllDifferent/CglAllDifferent.cpp: generateCuts"])
p("All-different propagation always ends and stays within its arrays",
  "CglAllDifferent::generateCuts returns after finitely many steps for all declared sets and integer bounds, without undefined behaviour and without throwing.",
  "all collections of sets, bounds","termination of nested fix-point and backtracking loops",
  ["src/CglAllDifferent/CglAllDifferent.cpp: generateCuts, CglAllDifferent(int, const int *, const int *)"])
p("Knapsack cover generation always ends and stays within its arrays",
  "CglKnapsackCover::generateCuts returns after finitely many steps for every problem, LP solution and parameter setting, without reading outside its vectors (in particular the branch-and-bound of the auxiliary knapsacks ends and no element of an empty or one-element cover is read past its end).",
  "all problems, LP solutions, parameters, sorting orders","termination of an unbounded search and memory safety for all data",
  ["src/CglKnapsackCover/CglKnapsackCover.cpp: generateCuts, exactSolveKnapsack, findExactMostViolatedMinCover, findLPMostViolatedMinCover, findJohnAndEllisCover, findPseudoJohnAndEllisCover, liftCoverCut"])
p("The auxiliary 0-1 knapsack is solved to optimality",
  "The branch and bound with which CglKnapsackCover finds most violated covers and lifting coefficients returns, for items ordered by profit per weight, a selection that fits into the (tolerance-enlarged) capacity and whose profit is the largest possible.",
  "all item lists and capacities","optimality over exponentially many selections",
  ["src/CglKnapsackCover/CglKnapsackCover.cpp: exactSolveKnapsack"])
p("Mixed integer rounding cuts stay valid although rows are classified once",
  "In any sequence of generateCuts calls on one mixed integer rounding generator whose problems differ from the first one only by column bounds and by appended rows, every cut of every call is satisfied by every feasible point of the problem it was generated for.",
  "all call sequences, problems, LP solutions, points","unbounded histories of calls",
  ["src/CglMixedIntegerRounding/CglMixedIntegerRounding.cpp: generateCuts, mixIntRoundPreprocess"])
p("Mixed integer rounding calls return normally",
  "generateCuts of both mixed integer rounding generators, called on an object, on a copy or on an assigned object, returns without throwing (no duplicate index is inserted in a packed vector) and without reading outside the arrays of the problem.",
  "all problems, LP solutions, parameters, object histories","memory safety for all data",
  ["src/CglMixedIntegerRounding/CglMixedIntegerRounding.cpp: generateMirCuts, cMirSeparation","src/CglMixedIntegerRounding2/CglMixedIntegerRounding2.cpp: generateMirCuts, boundSubstitution, gutsOfCopy"])
p("Every mixed integer rounding cut cuts off the LP solution",
  "Every row cut that a call to generateCuts of either mixed integer rounding generator adds has no lower bound and is violated by the LP solution it was called with.",
  "all problems, LP solutions, parameters","all data",
  ["src/CglMixedIntegerRounding/CglMixedIntegerRounding.cpp: cMirSeparation","src/CglMixedIntegerRounding2/CglMixedIntegerRounding2.cpp: cMirSeparation"])
p("A setter changes exactly the parameter it names, and the getter reads it back",
  "For every parameter of the parameter classes, Gomory, two-step MIR and probing generators: after any history of default constructions, copies, assignments and setter calls, the getter of a parameter of an object returns the argument of the last accepted call of its setter on that object (or the value inherited from the object last copied or assigned, or the default); the lists of strategies of the reduce-and-split parameters contain what the calls since the last reset asked for.",
  "all call histories, all arguments","unbounded histories",
  ["src/CglCommon/CglParam.cpp","src/CglGMI/CglGMIParam.cpp","src/CglRedSplit/CglRedSplitParam.cpp","src/CglRedSplit/CglRedSplitParam.hpp: getMAXDYN","src/CglRedSplit2/CglRedSplit2Param.cpp: setMAX_SUPP_REL, addColumnSelectionStrategy","src/CglGomory/CglGomory.cpp: setLimit, setAway","src/CglTwomir/CglTwomir.hpp","src/CglProbing/CglProbing.cpp: setMode"])
p("Generated Gomory cuts of CglGMI respect the limits of the parameter object",
  "Every cut that a call of CglGMI::generateCuts adds has at least one coefficient, no column twice, at most MAX_SUPPORT_ABS + MAX_SUPPORT_REL * columns coefficients, no two coefficients whose magnitudes differ by more than the factor MAXDYN, and (except for the final relaxation of the right-hand side) is violated by the LP solution by at least MINVIOL; with positive EPS and without integral scaling the call always returns.",
  "all problems, LP solutions, parameters","all data",
  ["src/CglGMI/CglGMI.cpp: cleanCut, checkSupport, checkDynamism, checkViolation"])
p("Scaling a cut to integral coefficients gives integral coefficients",
  "When CglGMI's integral scaling reports success and the rational approximations were exact, all coefficients on integer columns (on all columns if INTEGRAL_SCALE_CONT) and the right-hand side are integers.",
  "all cuts, parameters","all data; gcd/lcm loop",
  ["src/CglGMI/CglGMI.cpp: scaleCutIntegral, computeGcd"])
p("Gomory cuts of CglGomory respect the length limit and cut off the LP solution",
  "With a limit between 1 and the number of columns, no row cut that a call of CglGomory::generateCuts adds has more coefficients than the limit (the limit at the root outside the tree); unless candidates are sorted (options 256), every row cut added is either the infeasible cut 1 <= 0 or is violated by the LP solution by at least 1e-7.",
  "all problems, LP solutions, bases, parameters","all data",
  ["src/CglGomory/CglGomory.cpp: generateCuts"])
p("The clique model returned by the probing table keeps every feasible point",
  "Let any history of implications be recorded with fixes() and then analyze() be called for a problem. Every point that is feasible for that problem, has 0 or 1 in the 0-1 columns and for which the recorded implications are true is feasible for the model that is returned, whose rows come from the matrix, from pairs of implications and from strengthening.",
  "all call histories, problems, points","unbounded histories and iterated strengthening",
  ["src/CglCommon/CglTreeInfo.cpp: analyze, outDupsEtc"])
p("Every flow cover cut cuts off the LP solution and is well formed",
  "Every row cut that a call of CglFlowCover::generateCuts adds is violated by more than 0.05 at the LP solution, has no lower bound, has at least one coefficient, names columns of the problem in strictly increasing order, and has no coefficient smaller than 1e-6 in size.",
  "all problems, LP solutions, objects","all data",
  ["src/CglFlowCover/CglFlowCover.cpp: generateOneFlowCut"])
p("The limit on the number of flow cover cuts holds over the life of a generator",
  "After setMaxNumCuts(n) on a new CglFlowCover, whatever sequence of generateCuts calls (on any problems) and copies follows, at most n cuts are added in total, each call only appends to the collection, and once the limit is reached calls change nothing.",
  "all call histories","unbounded histories",
  ["src/CglFlowCover/CglFlowCover.cpp: generateCuts, operator=","src/CglFlowCover/CglFlowCover.hpp: setMaxNumCuts, getNumFlowCuts"])
p("The search for a flow cover ends",
  "For every row the two search loops of CglFlowCover (promotion of secondary candidates and greedy cover) end after at most as many rounds as the row has columns.",
  "all rows, LP solutions","termination for all data",
  ["src/CglFlowCover/CglFlowCover.cpp: generateOneFlowCut"])
p("A copied or assigned parameter object is equal to the original",
  "The copy constructor and the assignment operator of the parameter classes and of the Gomory and two-step MIR generators make every parameter of the target equal to that of the source, also parameters no getter shows, so that the two generate the same cuts from then on.",
  "all objects","all states of source and target",
  ["src/CglCommon/CglParam.cpp: operator=","src/CglGMI/CglGMIParam.cpp: operator=","src/CglRedSplit/CglRedSplitParam.cpp: operator=","src/CglRedSplit2/CglRedSplit2Param.cpp: operator=","src/CglGomory/CglGomory.cpp: operator=","src/CglTwomir/CglTwomir.cpp: operator="])
p("Two-step MIR cuts are well formed and cut off the LP solution",
  "Every row cut that a call of CglTwomir::generateCuts adds has fewer coefficients than the element limit in force, names distinct columns of the problem that are not fixed, has no upper bound and is violated by the LP solution; every column cut tightens one bound of one column; cuts already in the collection stay.",
  "all problems, LP solutions, bases, parameters","all data",
  ["src/CglTwomir/CglTwomir.cpp: generateCuts, DGG_generateCutsFromBase, DGG_isCutDesirable"])
p("A call of CglTwomir::generateCuts returns",
  "For a feasible problem every call of CglTwomir::generateCuts comes back without undefined behaviour: every list access is inside its list, no division is by zero and every conversion to int is of a representable number.",
  "all feasible problems, LP solutions, bases, parameters","absence of undefined behaviour for all data",
  ["src/CglTwomir/CglTwomir.cpp: generateCuts, DGG_buildMir, DGG_build2step, DGG_nicefyConstraint"])
p("The reduction of tableau rows in CglRedSplit ends",
  "For every parameter object a program can build and whatever tableau rows the solver returns, the loop that reduces the rows before reduce-and-split cuts are generated makes only finitely many rounds (at most the sum of the squared norms divided by minReduc times normIsZero, plus one), and the multipliers it uses stay integral combinations of the rows it started from.",
  "all parameter histories, problems, tableaus","termination for all data",
  ["src/CglRedSplit/CglRedSplit.cpp: reduce_contNonBasicTab, test_pair, find_step"])
p("Reduce-and-split cuts are well formed and cut off the LP solution",
  "A call of CglRedSplit::generateCuts only appends to the collection, adds no duplicate, adds at most one cut per fractional basic integer column, and every new cut has lower bound -INFINIT, columns of the problem in increasing order, at most MAX_SUPPORT and fewer than 300 coefficients, none of them negligible, and is (up to the final relaxation) violated by the LP solution.",
  "all problems, LP solutions, bases, parameters","all data",
  ["src/CglRedSplit/CglRedSplit.cpp: generateCuts, generate_packed_row, row_scale_factor"])
p("Clique strengthening keeps the set of feasible points",
  "After strengthenCliques on a CglCliqueStrengthening object, the changed model has exactly the feasible points of the model given to the constructor, for both forms of the call and wherever the time limit stops the loop.",
  "all problems, conflict graphs, extensions, time limits","equality of two solution sets for all problems",
  ["src/CglCliqueStrengthening/CglCliqueStrengthening.cpp: strengthenCliques, detectCliqueRows, checkDominance, addStrongerCliques"])
p("CglBKClique only adds cuts violated by at least the minimum violation",
  "Whatever setters, copies and calls came before, every cut that CglBKClique::generateCuts adds is violated by the LP solution by at least the minimum violation the generator is set to.",
  "all problems, LP solutions, generator histories","all histories and data",
  ["src/CglBKClique/CglBKClique.cpp: generateCuts, separateCliques, setMinViol"])
p("The conflict graph generators return",
  "CglBKClique::generateCuts, CglOddWheel::generateCuts and CglCliqueStrengthening::strengthenCliques come back without failed assertion, abort, exit or access outside their arrays.",
  "all problems, conflict graphs, generator histories","absence of undefined behaviour for all data and histories",
  ["src/CglBKClique/CglBKClique.cpp: generateCuts, insertCuts","src/CglOddWheel/CglOddWheel.cpp: generateCuts, checkMemory","src/CglCliqueStrengthening/CglCliqueStrengthening.cpp: strengthenCliques, cliqueExtension"])
p("Conflict graph generators answer alike whatever came before",
  "A call of CglBKClique or CglOddWheel on a given problem and LP solution adds the same cuts whatever calls the object answered before, a copy answers as the original does, and an odd wheel gives the full wheel inequality.",
  "all call histories","unbounded histories",
  ["src/CglBKClique/CglBKClique.cpp: separateCliques, CglBKClique(const CglBKClique&)","src/CglOddWheel/CglOddWheel.cpp: generateCuts, CglOddWheel(const CglOddWheel&)"])
p("Zero-half cuts cut off the LP solution",
  "Every row cut that a call of CglZeroHalf::generateCuts adds is violated by the LP solution by more than 0.0011, whatever the generator was used for before.",
  "all problems, LP solutions, generator histories","all histories and data",
  ["src/CglZeroHalf/CglZeroHalf.cpp: generateCuts","src/CglZeroHalf/Cgl012cut.cpp: get_cut, define_cut, best_cut"])
p("Zero-half cuts are integral inequalities on integer columns",
  "Every row cut that CglZeroHalf::generateCuts adds has no lower bound, an integral upper bound, nonzero integral coefficients, and its columns are integer columns of the problem in strictly increasing order.",
  "all problems, LP solutions, generator histories","all histories and data",
  ["src/CglZeroHalf/CglZeroHalf.cpp: generateCuts","src/CglZeroHalf/Cgl012cut.cpp: define_cut, best_cut"])
p("refreshSolver and generateCuts of CglZeroHalf return",
  "CglZeroHalf::refreshSolver and CglZeroHalf::generateCuts come back without division by zero, failed assertion, exit, integer overflow or access outside their arrays.",
  "all problems, LP solutions, generator histories","absence of undefined behaviour for all data and histories",
  ["src/CglZeroHalf/CglZeroHalf.cpp: refreshSolver, generateCuts","src/CglZeroHalf/Cgl012cut.cpp: get_cut, best_cut, best_weakening, get_ori_cut_coef"])
p("A zero-half generator answers alike whatever came before, and its copies answer as it does",
  "After refreshSolver the cuts of a CglZeroHalf call depend only on the refreshed problem, the flags, the bounds and the LP solution of the call, not on earlier calls or on what was loaded earlier; copies, clones and assigned generators give the same cuts as the original.",
  "all call histories","unbounded histories",
  ["src/CglZeroHalf/CglZeroHalf.cpp: refreshSolver, generateCuts, CglZeroHalf(const CglZeroHalf&), operator="])
p("CglDuplicateRow only adds cuts, and outDuplicates only removes rows and tightens bounds",
  "Whatever the problem, mode and history, CglDuplicateRow::generateCuts leaves the cuts it is given in place and adds at most one column cut and one row cut, and the row cut is one that no point satisfies; in the tree and in modes 1 to 3 it does nothing; outDuplicates changes the solver only by deleting rows and tightening column bounds.",
  "all problems, modes, object states","all problems and object states",
  ["src/CglDuplicateRow/CglDuplicateRow.cpp: generateCuts, generateCuts4, generateCuts8, outDuplicates"])
p("CglDuplicateRow answers alike in any history, and its copies are the same",
  "After refreshSolver, whatever calls with that matrix came before (also with other bounds), the bounds that CglDuplicateRow::generateCuts reports are valid and outDuplicates keeps the feasible set; a copy or clone holds the same data as the original.",
  "all call histories","unbounded histories",
  ["src/CglDuplicateRow/CglDuplicateRow.cpp: refreshSolver, generateCuts, outDuplicates, CglDuplicateRow(const CglDuplicateRow&), operator="])
p("Calls of CglDuplicateRow return",
  "CglDuplicateRow::refreshSolver, generateCuts and outDuplicates come back without failed assertion, abort, undefined conversion or access outside their arrays.",
  "all problems, modes, histories","absence of undefined behaviour for all data",
  ["src/CglDuplicateRow/CglDuplicateRow.cpp: refreshSolver, generateCuts4, generateCuts8, outDupsEtc, outDuplicates"])
p("Row cuts of probing hold for every solution within the objective limit",
  "Every row cut that CglProbing adds (disaggregated rows, strengthened rows, reduced big-M coefficients, the cut that declares infeasibility) is satisfied by every feasible point whose objective is not beyond the limit, whatever columns are probed in whatever order and whatever cuts are taken for duplicates.",
  "all problems, LP solutions, settings, orders of probing, feasible points","all feasible points and orders",
  ["src/CglProbing/CglProbing.cpp: probe, generateCuts, generateCutsAndModify"])
p("Implications recorded by probing hold",
  "When CglProbing reports to its CglTreeInfo that a 0-1 column at one of its bounds fixes another column, then every feasible point within the objective limit with the first column at that bound has the second column at the reported value.",
  "all problems, LP solutions, settings, orders of probing, feasible points","all feasible points and orders",
  ["src/CglProbing/CglProbing.cpp: probe"])
p("Calls of CglProbing return",
  "CglProbing::generateCuts and generateCutsAndModify come back without failed assertion on their data and without reading values that were never set.",
  "all problems, LP solutions, settings","absence of faults for all data",
  ["src/CglProbing/CglProbing.cpp: gutsOfGenerateCuts, calcRowBounds, probe"])
p("CglProbing only adds cuts, within its limits and of the kinds asked for",
  "A call of CglProbing::generateCuts leaves the cuts it is given in place; it adds at most a third as many row cuts as there are rows in the tree, ten times as many at the root (a hundred times in the first pass), besides the cut that declares infeasibility; with setRowCuts(0) it adds no other row cut.",
  "all problems, LP solutions, settings","all inputs",
  ["src/CglProbing/CglProbing.cpp: generateCuts, probe, row_cut::addCuts","src/CglProbing/CglProbing.hpp: setRowCuts"])
p("CglLandP cuts pass the tests of the validator",
  "Every cut that CglLandP::generateCuts adds has at least one entry and at most maxFillIn times the number of columns, no entry of magnitude pivot tolerance eps or less, a ratio of largest to smallest magnitude within the validator's limit, and is violated at the current point by at least the validator's minimum violation.",
  "all problems, bases, pivots, parameters","all inputs and solver answers",
  ["src/CglLandP/CglLandPValidator.cpp: cleanCut","src/CglLandP/CglLandP.cpp: generateCuts"])
p("CglLandP only adds cuts, within its limits, and keeps its parameters",
  "CglLandP::generateCuts leaves the cuts it is given in place, adds at most maxCutPerRound cuts (and at most one per row) plus at most extraCutsLimit extra cuts, extra cuts only if asked for, and leaves its parameters and validator as they are except for the time used; it goes on generating cuts in later calls.",
  "all problems, bases, pivots, parameters, histories of calls","all inputs and histories",
  ["src/CglLandP/CglLandP.cpp: generateCuts","src/CglLandP/CglLandPSimplex.cpp: generateExtraCuts, optimize"])
p("Calls of CglLandP return",
  "CglLandP::generateCuts comes back, for every setting its parameters accept, without failed assertion, uncaught exception, null pointer or access outside its arrays.",
  "all problems, bases, pivots, parameters","absence of faults for all data and settings",
  ["src/CglLandP/CglLandP.cpp: generateCuts","src/CglLandP/CglLandPSimplex.cpp: optimize, generateExtraCut, genThisBasisMigs"])
p("Cuts of CglLiftAndProject are valid",
  "Every row cut that CglLiftAndProject::generateCuts adds is satisfied by every feasible point of the mixed-integer problem, whichever optimal multipliers the LP solver returns.",
  "all problems, LP solutions, optimal solutions of the cone problem, feasible points","all feasible points and solver answers",
  ["src/CglLiftAndProject/CglLiftAndProject.cpp: generateCuts"])
p("CglLiftAndProject only adds cuts, one per column, with the chosen normalization",
  "CglLiftAndProject::generateCuts leaves the cuts it is given in place and adds at most one cut per column, of the form alpha x >= beta over all columns; beta is 1 or -1 whatever the object went through, setBeta rejects any other value, and copies and assigned objects are the same as the original.",
  "all problems, LP solutions, solver answers, object histories","unbounded histories, all inputs",
  ["src/CglLiftAndProject/CglLiftAndProject.cpp: generateCuts, CglLiftAndProject(const CglLiftAndProject&), operator=","src/CglLiftAndProject/CglLiftAndProject.hpp: setBeta"])
p("Cuts of CglLiftAndProject cut off the LP solution",
  "Every row cut that CglLiftAndProject::generateCuts adds is violated by the LP solution, and no other cut from the same disjunction and normalization is violated by more.",
  "all problems, LP solutions, solver answers","all inputs",
  ["src/CglLiftAndProject/CglLiftAndProject.cpp: generateCuts"])
p("Calls of CglLiftAndProject return",
  "For every problem in the form the generator asks for (all rows >=, with rows for the bounds of the binary columns), generateCuts comes back without access outside its arrays and without reading memory that was never written.",
  "all problems and LP solutions","absence of undefined behaviour for all data",
  ["src/CglLiftAndProject/CglLiftAndProject.cpp: generateCuts"])
p("CglRedSplit2 adds cuts of the promised form, within its limits",
  "CglRedSplit2::generateCuts leaves the cuts it is given in place and adds at most maxNumCuts and at most maxNumComputedCuts cuts; each is a <= row over existing columns in increasing order, with coefficients above EPS_COEFF and within a factor MAXDYN of each other, with support within MAX_SUPP_ABS plus MAX_SUPP_REL times the number of columns, and cuts off the LP solution by at least MINVIOL per coefficient before its right-hand side is relaxed.",
  "all problems, bases, tableaus, parameters, strategies, solutions of the linear systems","all inputs and parameter histories",
  ["src/CglRedSplit2/CglRedSplit2.cpp: generateCuts, generate_packed_row, check_dynamism"])
p("Multipliers of CglRedSplit2 are different small integer combinations that shorten a row",
  "CglRedSplit2::generateMultipliers returns at most as many vectors as asked for, pairwise different, with one integer per row of the problem; entries are nonzero only in rows whose basic variable is an integer column, the absolute values sum to at most maxSumMultipliers, and each vector combines at least two rows so that the combination is shorter than one of them, by the factor minNormReduction, on the columns of one of the chosen strategies; single rows are returned only if skipGomory is off. Cuts are collected only if asked for.",
  "all problems, bases, tableaus, parameters, strategies, solutions of the linear systems","all inputs; correctness must not depend on the accuracy of the linear systems",
  ["src/CglRedSplit2/CglRedSplit2.cpp: generateMultipliers, reduce_workNonBasicTab, get_list_rows_reduction"])
p("Calls of CglRedSplit2 return",
  "CglRedSplit2::generateCuts, generateMultipliers and tiltLandPcut come back, for every setting the parameters accept, without failed assertion, access outside their arrays, integer overflow or use of memory that was never written.",
  "all problems, bases, tableaus, parameters, strategies","absence of undefined behaviour for all data and settings",
  ["src/CglRedSplit2/CglRedSplit2.cpp: generateCuts, reduce_workNonBasicTab, generateMultipliers, tiltLandPcut"])
p("The column strategies of CglRedSplit2 form complete families",
  "For every tableau the strategies CS1-3, CS4-8, CS15-17 and CS18-21 each split the continuous nonbasic columns and slacks into disjoint sets, in the first two families in order of absolute reduced cost; CS9/CS10, CS11/CS12 and CS13/CS14 each split the cheapest two thirds, four fifths and half of them.",
  "all numbers of columns, reduced costs and prices","all sizes and residues of the number of columns, ties",
  ["src/CglRedSplit2/CglRedSplit2.cpp: fill_workNonBasicTab"])
p("CglRedSplit2 keeps the best cuts if fewer are wanted than are computed",
  "A call for n cuts or vectors of multipliers delivers n of those that a call without this limit delivers (all of them if there are no more), with their multipliers, and none of the others is better: the amount of violation divided by the squared norm of the cut is at least as large for those delivered.",
  "all problems, bases, tableaus, parameters, limits","all inputs and ties",
  ["src/CglRedSplit2/CglRedSplit2.cpp: generateCuts, rs2_compareElements"])
p("cliqueIt does not change the feasible points",
  "The model that CglPreProcess::cliqueIt returns has the same columns as the given model and exactly the same feasible integer points, although clique rows have been replaced by others.",
  "all problems, fractions of cliques needed, random numbers and orders of ties, points","all points; the search has exponentially many branches",
  ["src/CglPreProcess/CglPreProcess.cpp: CglPreProcess::cliqueIt, CglBK::CglBK, CglBK::bronKerbosch, CglBK::newSolver"])
p("cliqueIt replaces clique inequalities by all maximal cliques",
  "The model that CglPreProcess::cliqueIt returns has fewer rows than the given one: rows of it, in their order, followed by rows sum <= 1 over the maximal cliques with more than two columns, each of them once and none missing; rows that are not clique inequalities are kept, except repetitions of a row with two entries.",
  "all problems, random numbers and orders of ties","completeness of an exponential search for every conflict graph",
  ["src/CglPreProcess/CglPreProcess.cpp: CglBK::bronKerbosch, CglBK::newSolver"])
p("cliqueIt works on problems with enough cliques, without undefined behaviour",
  "CglPreProcess::cliqueIt comes back for every problem and every value of cliquesNeeded; it returns a model only if there are at least two clique rows and their number exceeds the fraction cliquesNeeded of the number of rows.",
  "all problems and fractions","absence of undefined behaviour, termination of a recursive search",
  ["src/CglPreProcess/CglPreProcess.cpp: CglPreProcess::cliqueIt"])
p("Bound tightening by the preprocessor loses no feasible point",
  "CglPreProcess::tightenPrimalBounds changes column bounds, row bounds and coefficients of a model so that every feasible point of the model stays feasible, and returns a negative number only if the model has no feasible point.",
  "all problems in integer and continuous columns, tolerances, orders of equal coefficients, feasible points","all points; many interacting roundings and a running update of the sums",
  ["src/CglPreProcess/CglPreProcess.cpp: CglPreProcess::tightenPrimalBounds, tighten"])
p("Bound tightening by the preprocessor adds no feasible point",
  "The model that CglPreProcess::tightenPrimalBounds leaves, with rows made free, rounded bounds and reduced coefficients, has no feasible point that the given model does not have, if the return value is not negative.",
  "all problems, tolerances, points","all points; a row is dropped because of bounds that are derived from it",
  ["src/CglPreProcess/CglPreProcess.cpp: CglPreProcess::tightenPrimalBounds, tighten"])
p("Bound tightening by the preprocessor keeps the shape of the model and never loosens bounds",
  "CglPreProcess::tightenPrimalBounds keeps the number of columns and rows and the types of the columns, and no column bound of the model it leaves is looser than before; it returns 0 only if it changed nothing.",
  "all problems and tolerances","all inputs",
  ["src/CglPreProcess/CglPreProcess.cpp: CglPreProcess::tightenPrimalBounds"])
p("A collector of unique row cuts loses and invents no cut",
  "Offering cuts one after the other to a CglUniqueRowCuts, or to the collector of CglProbing, has no undefined behaviour and always comes back; return value 0 means that the cut (with its row sorted) is held behind the others, return value 1 that nothing changed and the cut has extreme coefficients or is held already; every cut held was offered, and every acceptable cut offered is held.",
  "all sequences of cuts, initial sizes, hash functions, comparisons","all histories, with growth of the arrays and all collisions in the hash table",
  ["src/CglPreProcess/CglPreProcess.cpp: CglUniqueRowCuts::insertIfNotDuplicate", "src/CglProbing/CglProbing.cpp: row_cut::addCutIfNotDuplicate"])
p("A collector of unique row cuts holds no cut twice, and cuts can be erased",
  "After any sequence of insertions and erasures a CglUniqueRowCuts holds, in the order of insertion with the last cut in the place of an erased one, exactly the cuts that were inserted and not erased, none of them twice; no operation has undefined behaviour.",
  "all histories of insertions and erasures, hash functions, sizes","all histories, with all collisions in the hash table",
  ["src/CglPreProcess/CglPreProcess.cpp: CglUniqueRowCuts::insertIfNotDuplicate, CglUniqueRowCuts::eraseRowCut", "src/CglProbing/CglProbing.cpp: row_cut::addCutIfNotDuplicate"])
p("A collector of unique row cuts can be copied, emptied and used again",
  "A copy of a CglUniqueRowCuts holds the same cuts; addCuts gives every cut once to the OsiCuts and leaves an empty collector, which can be used like a new one.",
  "all histories of insertions, hash functions, sizes","all histories; absence of undefined behaviour",
  ["src/CglPreProcess/CglPreProcess.cpp: CglUniqueRowCuts::CglUniqueRowCuts, CglUniqueRowCuts::operator=, CglUniqueRowCuts::addCuts"])
p("Continuous columns are declared integer only if the optimum stays the same",
  "The preprocessor declares continuous columns integer (its static function analyze, and CglPreProcess::makeInteger) only if every feasible point has a counterpart that is integral in these columns too, is at least as good in the objective, and has the same values in the columns that were integer; no new points get feasible.",
  "all problems, objectives, feasible points","all points; an iteration in which each column found makes others possible",
  ["src/CglPreProcess/CglPreProcess.cpp: analyze, CglPreProcess::makeInteger"])
p("The search for implied integer columns ends, stays within its arrays and overlooks nothing",
  "The search comes to an end for every problem; analyze returns -1 only for an infeasible problem and otherwise the number of columns that were declared integer, makeInteger declares only columns in the objective integer; a column that an equation forces to be integral, or whose rows all stop it only at integers, is found.",
  "all problems and objectives","all problems; termination, absence of undefined behaviour, completeness of a fixpoint iteration",
  ["src/CglPreProcess/CglPreProcess.cpp: analyze, CglPreProcess::makeInteger"])
p("Fixing columns by reduced cost loses no solution within the limit",
  "CglPreProcess::reducedCostFix, called with an optimal solution of the relaxation, keeps every feasible point whose objective value is within the dual objective limit and adds no feasible point; it changes nothing but the bounds of integer columns, fixes each changed column at one of its bounds, returns the number of columns it fixed, and fixes every integer column whose reduced cost exceeds the gap.",
  "all problems, objectives of both senses, optimal solutions, limits, feasible points","all points and dual solutions",
  ["src/CglPreProcess/CglPreProcess.cpp: CglPreProcess::reducedCostFix"])
p("someFixed fixes the right columns and not too many",
  "CglPreProcess::someFixed returns a model with the same rows and no new feasible point, in which only columns that may be fixed are fixed, at a bound at which the solution is; columns to be kept are not changed, columns to be discarded are all fixed, the others in the order of their reduced costs, and no more than the given fraction asks for; it stays within its arrays.",
  "all problems, solver answers, fractions, arrays keepColumn","all inputs; absence of undefined behaviour",
  ["src/CglPreProcess/CglPreProcess.cpp: CglPreProcess::someFixed"])
p("Marks and indices follow the columns and rows through presolve",
  "After CglPreProcess::update every remaining column is prohibited exactly if it was before, and every remaining row has the type it had; passInProhibitedColumns adds to the prohibited columns; originalColumns and originalRows give, for each column and row of the final model, the column and row of the original model it comes from, -1 for a new row.",
  "all numbers of passes, index maps, arrays of marks","all chains of presolves; absence of undefined behaviour",
  ["src/CglPreProcess/CglPreProcess.cpp: CglPreProcess::update, CglPreProcess::passInProhibited, CglPreProcess::passInRowTypes, CglPreProcess::createOriginalIndices"])
p("The cliques of the probing generator are true, and finding them changes no feasible point",
  "CglProbing::createCliques may fix columns of the solver but leaves its feasible points as they are, returns a negative number only if there is no feasible point, and every clique in its tables is true: at each feasible point its columns are 0 or 1, at most one of them is at its strong value, and exactly one if the clique is marked as an equality.",
  "all problems, size limits, feasible points","all points; columns get fixed while the rows are scanned, and the rows are scanned again afterwards",
  ["src/CglProbing/CglProbing.cpp: CglProbing::createCliques"])
p("The clique tables of the probing generator are complete and consistent",
  "Every row in which all free columns are binary with coefficient 1 or -1, and whose bound allows one of them at its strong value, gives a clique with exactly its free columns if its size is between the limits; a clique lists each column once; the lists of the columns give, for each column and each of the two values, the cliques it fixes at this value; createCliques comes back and stays within its arrays.",
  "all problems and size limits","all inputs; absence of undefined behaviour, a counting sort over arrays of computed size",
  ["src/CglProbing/CglProbing.cpp: CglProbing::createCliques"])
p("The users of the clique tables get right groups and rows",
  "CglProbing::setupRowCliqueInformation comes back for every solver with the same columns, and columns of a row with the same group are in one clique, so that at most one is at its strong value; a row has no groups exactly if no clique has two of its free columns or a clique has all of them.  CglProbing::cliqueModel gives a model with the same feasible points.  CglProbing::tightenThese marks the given columns and no others.",
  "all problems, row copies, bounds of the solver, types of clique models, lists of columns","all inputs; termination of a loop whose counts go negative",
  ["src/CglProbing/CglProbing.cpp: CglProbing::setupRowCliqueInformation, CglProbing::cliqueModel, CglProbing::tightenThese"])
p("The zero-half generator adds up rows along short odd cycles only",
  "For every problem and point the search of CglZeroHalf comes back, stays within its arrays, and gives for every node of its graph a list of different odd cycles through this node whose weights add up to at most one; the nodes are the columns away from their bounds and one more, and every edge is a row, or one bound of a column, in which all other odd columns are replaced by a bound at which they may be relaxed, with the parity of what is left on the right and the slack plus the losses as weight; no choice of row and bounds gives a lighter edge for the same two columns and parity.",
  "all problems, points, limits, implementations of the heap functions of the standard library","all problems and points; absence of undefined behaviour, invariants of an array-based graph search",
  ["src/CglZeroHalf/Cgl012cut.cpp: get_parity_ilp, basic_separation, best_weakening, get_shortest_odd_cycle_list", "src/CglZeroHalf/CglZeroHalf.cpp: cglShortestPath"])
p("The storage of the zero-half separation graph does not matter",
  "The dense array and the hash table for the edges of the separation graph hold the same edges: the threshold between them, which the user can set, has no effect on the cycles that are found.",
  "all problems, points, thresholds","all problems; two data structures that must stay equal through every insertion",
  ["src/CglZeroHalf/Cgl012cut.cpp: initialize_sep_graph, update_weight_sep_graph, get_edge", "src/CglZeroHalf/CglZeroHalf.hpp: CglZeroHalf::setSepGraphSparseThreshold"])
p("The zero-half generator does not overlook violated cuts of weight zero",
  "The shortest paths of CglZeroHalf are shortest: every node within the limit is found with its distance. So if some rows form an odd cycle of weight zero, which gives a cut violated by one half, CglZeroHalf generates a violated cut.",
  "all problems, points, implementations of the heap functions of the standard library","all graphs and all implementations of the standard library",
  ["src/CglZeroHalf/CglZeroHalf.cpp: cglShortestPath", "src/CglZeroHalf/Cgl012cut.cpp: get_shortest_odd_cycle_list, basic_separation"])
p("The zero-half generator uses the standard library as it may",
  "CglZeroHalf calls std::pop_heap only with a vector that is a heap, and its int arithmetic does not overflow, whatever the problem is.",
  "all problems, points, implementations of the heap functions of the standard library","absence of undefined behaviour for all problems",
  ["src/CglZeroHalf/CglZeroHalf.cpp: cglShortestPath", "src/CglZeroHalf/Cgl012cut.cpp: zhRowPairCount"])
p("The solution that comes back from preprocessing is feasible for the user's problem",
  "After CglPreProcess::postProcess with a solved reduced model, if the user's model is proven optimal, its solution satisfies the rows, the bounds and the integrality of the model the user gave to preProcess.",
  "all user's models, chains of presolve passes, reduced models, answers of the solvers and of postsolve","all chains of passes and all answers of the solvers called in between",
  ["src/CglPreProcess/CglPreProcess.cpp: CglPreProcess::postProcess"])
p("The way back from preprocessing loses nothing of the objective",
  "The solution in the user's model after CglPreProcess::postProcess is at least as good as every point of the user's linear relaxation that has the integer values of the solution of the reduced model, transformed back, and lies within its bounds.",
  "all user's models, chains of presolve passes, reduced models, answers of the solvers, points","all points and all answers of the solvers",
  ["src/CglPreProcess/CglPreProcess.cpp: CglPreProcess::postProcess"])
p("Integer columns left fractional by postsolve are settled without violating rows or bounds",
  "If some integer column is not near an integer after the passes are undone, CglPreProcess::postProcess moves such columns to one of the two neighbouring integers; a row that held up to the tolerance still does, the user's bounds are respected, of two possible values the one that is better for the objective is taken, and a column is left as it is only if both violate a row.",
  "all user's models, solutions of the model unwound","all inputs; an invariant of row activities that are updated column by column",
  ["src/CglPreProcess/CglPreProcess.cpp: CglPreProcess::postProcess"])
p("A reduced model without a solution is not turned into a solution of the user's model",
  "If the reduced model has no solution, also after it is solved once more, CglPreProcess::postProcess does not leave the user's model with a solution that looks like an answer.",
  "all user's models, reduced models, answers of the solvers","all answers of the solvers",
  ["src/CglPreProcess/CglPreProcess.cpp: CglPreProcess::postProcess"])
p("postProcess comes back, says how it went and leaves the settings of the solvers as they were",
  "CglPreProcess::postProcess comes back without undefined behaviour for every object that preProcess has made, also when called again; the message for infeasibility is sent exactly when the user's model is not proven optimal; the hints of the user's model and the objective limit of the reduced model are the same as before.",
  "all objects, reduced models, answers of the solvers, values of deleteStuff","absence of undefined behaviour for all objects and histories",
  ["src/CglPreProcess/CglPreProcess.cpp: CglPreProcess::postProcess"])
p("Semi-continuous columns come back with an allowed value",
  "After CglPreProcess::postProcess every semi-continuous column of the user's model (passed in as application data) is either fixed or has its low value as lower bound, under the number it has in the user's model, and a solution of the reduced model in which it is 0 is not lost.",
  "all user's models, semi-continuous columns, chains of presolve passes, answers of the solvers","all chains of passes and all answers of the solvers",
  ["src/CglPreProcess/CglPreProcess.cpp: CglPreProcess::postProcess"])
p("Continuous columns that preProcess declares integer on request do not change the optimum",
  "With the tuning option of CglPreProcess::preProcessNonDefault that makes continuous columns integer, every solution that is optimal for the problem with the new types is feasible and optimal for the problem without them, and every feasible point has one with the new types that is at least as good and has the same values in the columns that were integer.",
  "all problems, objectives, modes","all points of the relaxation and all ways in which columns share rows",
  ["src/CglPreProcess/CglPreProcess.cpp: makeIntegers2"])
p("Declaring columns integer on request comes to an end and touches nothing else",
  "The option always comes to an end. Rows stay as they are, integer columns stay integer with their bounds; only columns that were continuous, not fixed and at most 10 wide become integer, and their bounds stay or are rounded to integers within the tolerance. The number of columns that became integer is the number counted.",
  "all problems, objectives, tolerances, modes","termination and a count for all problems",
  ["src/CglPreProcess/CglPreProcess.cpp: makeIntegers2"])
p("With the weaker option all columns with a cost become integer, or none",
  "With mode 1, either the problem does not change, or the columns that become integer are exactly the continuous columns with a cost that are not fixed and at most 10 wide, and no bound changes.",
  "all problems, objectives, tolerances","all problems",
  ["src/CglPreProcess/CglPreProcess.cpp: makeIntegers2"])
p("Comparing short rows in preProcess loses no solution",
  "When preProcess compares rows with two or three entries, rounds bounds of integer columns and takes bounds from pairs of rows, every feasible point of the problem stays feasible, and a problem that has a feasible point is not declared infeasible.",
  "all problems, sets of possible cuts, feasible points with values up to 1e200","all points and all pairs of rows",
  ["src/CglPreProcess/CglPreProcess.cpp: modified"])
p("A row that preProcess makes free because of a stronger row follows from the rest",
  "When preProcess makes a row of two or three entries free because another row is at least as strong, the problem has the same feasible points as before.",
  "all problems, sets of possible cuts, points with values up to 1e200","all points and all pairs of rows",
  ["src/CglPreProcess/CglPreProcess.cpp: modified"])
p("Comparing short rows in preProcess comes to an end and touches nothing else",
  "The comparison never aborts, fails an assertion, reads an element that was not set or overruns an array. Coefficients and types of columns stay. Bounds of columns only get tighter (up to rounding bounds of integer columns within 1e-6) and those of integer columns become integers. Only rows of at most three entries that are not possible cuts, have one infinite bound and only integer columns that are not negative are made free.",
  "all problems, sets of possible cuts","all problems",
  ["src/CglPreProcess/CglPreProcess.cpp: modified"])
p("Using the answers of the generators in preProcess keeps the solutions",
  "Between generators, preProcess replaces rows by strengthened ones, drops duplicate rows, strengthens a singleton coefficient, takes equations and bounds from implications and applies column cuts. If the answers of the generators are right, the new problem has exactly the feasible points of the old one, and it is declared infeasible only if there are none.",
  "all problems, all sequences of generators and answers that are right about the problem they were asked about, all points","all points and all sequences of answers",
  ["src/CglPreProcess/CglPreProcess.cpp: modified"])
p("Equations and bounds taken from implications are true",
  "When preProcess turns implications recorded by probing into equations between two columns (equal, or sum one) and into bounds, every point with values 0 and 1 of which the recorded implications are true satisfies them, and the problem is declared infeasible only if there is no such point.",
  "all histories of recorded implications, all points","all histories of recorded implications and all points",
  ["src/CglPreProcess/CglPreProcess.cpp: modified", "src/CglTreeInfo.hpp: CglTreeProbingInfo"])
p("Types of rows follow the rows through preProcess",
  "When rows are dropped and equations are added between generators, the row types passed in by the user stay with their rows and the added rows get type -1.",
  "all problems with types of rows, all sequences of answers","all sequences of answers",
  ["src/CglPreProcess/CglPreProcess.cpp: modified"])
p("Using the answers of the generators in preProcess never goes wrong",
  "Rebuilding the rows between generators never reads an element that was not set or is outside an array, never converts a number to int that does not fit and never fails an assertion.",
  "all problems, all sequences of generators and answers that are right","all sequences of answers",
  ["src/CglPreProcess/CglPreProcess.cpp: modified"])
p("Scaling of rows in preProcess keeps the solutions",
  "preProcess multiplies rows by -1 or by a factor that makes all their numbers integers. The scaled problem has exactly the feasible points of the one given, and a row whose coefficients are changed other than in sign has integer coefficients afterwards.",
  "all problems whose row numbers are the fractions they are recognised as, all points","all problems and points",
  ["src/CglPreProcess/CglPreProcess.cpp: preProcessNonDefault, scaleRowIntegral, computeGcd"])
p("The start of preProcess keeps the solutions of the user's model and finds it infeasible only rightly",
  "Before any presolve, preProcess changes the user's own model: rows are scaled, bounds of integer columns are rounded, columns are fixed by rows that leave no choice. The model keeps exactly its feasible points, and NULL is returned at this stage only if there are none.",
  "all problems, all values of makeEquality except 4, all points","all problems and points",
  ["src/CglPreProcess/CglPreProcess.cpp: preProcessNonDefault"])
p("Slack columns added by preProcess keep the solutions",
  "With makeEquality 2 or -2 preProcess adds slack columns that turn clique rows or all inequalities into equations. What is feasible for the new problem is feasible for the one given, and every feasible point of the one given has values for the slack columns (integer where they are marked so) that make it feasible for the new one.",
  "all problems, all values of makeEquality except 4, all points","all problems and points",
  ["src/CglPreProcess/CglPreProcess.cpp: preProcessNonDefault"])
p("With makeEquality -2 all rows become equations",
  "With makeEquality -2 every row of the problem that preProcess goes on with is an equation, unless it has no bounds at all.",
  "all problems, all rows","all problems",
  ["src/CglPreProcess/CglPreProcess.cpp: preProcessNonDefault"])
p("The start of preProcess never goes wrong",
  "Scaling rows, rounding bounds, looking for clique rows and adding slack columns never fails an assertion, overflows or converts a number to int that does not fit.",
  "all problems, all values of makeEquality except 4","all problems",
  ["src/CglPreProcess/CglPreProcess.cpp: preProcessNonDefault, scaleRowIntegral"])
p("Moving costs in preProcess keeps the order of solutions",
  "preProcess moves costs from continuous columns to an integer column of the same equation. The objective it goes on with differs from the one given by the same number at all feasible points, so that solutions compare as before and the best ones are the same, also together with the slack columns added before.",
  "all problems, objectives and pairs of feasible points","all problems and points",
  ["src/CglPreProcess/CglPreProcess.cpp: preProcessNonDefault"])
p("Moving costs in preProcess keeps the value of the objective",
  "When preProcess moves costs, the offset of the objective is adjusted so that the value of the objective at every feasible point stays what it was.",
  "all problems, objectives and feasible points","all problems and points",
  ["src/CglPreProcess/CglPreProcess.cpp: preProcessNonDefault"])
p("Costs are moved only to integer columns without cost, and only costs of one sign",
  "An equation changes costs only if it has an integer column without cost, which then gets a cost, and if all its other columns that are not fixed have costs of one sign: they all go down in size by the same amount, none changes its sign, and one becomes zero.",
  "all problems, all rows, all objectives","all problems",
  ["src/CglPreProcess/CglPreProcess.cpp: preProcessNonDefault"])
p("Rows exchanged for clique cuts in preProcess leave the same solutions",
  "When preProcess drops rows because clique cuts make them superfluous and adds the cuts it keeps, the new problem has the same feasible points as the old one, provided that the cuts hold at all feasible points of the old one.",
  "all problems, all lists of valid clique cuts, all points","all problems and points",
  ["src/CglPreProcess/CglPreProcess.cpp: modified","src/CglDuplicateRow/CglDuplicateRow.cpp: outDupsEtc, generateCuts8"])
p("The search for useful clique cuts in preProcess ends",
  "For every problem and every list of clique cuts the loops that decide which of the cuts are worth adding come to an end.",
  "all problems, all lists of clique cuts","termination for all inputs",
  ["src/CglPreProcess/CglPreProcess.cpp: modified","src/CglDuplicateRow/CglDuplicateRow.cpp: outDupsEtc, generateCuts8"])
p("Exchanging rows for clique cuts does not make the problem longer",
  "Unless the clique generator was set to keep all cuts, the problem has at most as many rows after rows were exchanged for clique cuts as before.",
  "all problems, all lists of cuts","all problems",
  ["src/CglPreProcess/CglPreProcess.cpp: modified"])
p("A snapshot keeps all solutions",
  "After CglProbing::snapshot every point that satisfies the selected rows, the column bounds and integrality is within the bounds and rows of the snapshot, and the call returns 0; so it returns 1 only if there is no such point.",
  "all problems, all choices of rows, all points with numbers up to 1.0e20","all problems and points",
  ["src/CglProbing/CglProbing.cpp: snapshot, tighten"])
p("A snapshot marks only redundant rows",
  "If CglProbing::snapshot sets an entry of the array of rows from 1 to 0, every point within the column bounds of the snapshot satisfies this row, up to ten times the primal tolerance plus 1.0e-4 for every unit of a coefficient of an integer column. Column bounds are never loosened, and entries never change from 0 to 1.",
  "all problems, all choices of rows, all points within the bounds","all problems and points",
  ["src/CglProbing/CglProbing.cpp: snapshot, tighten"])
p("A snapshot is a whole copy of the problem",
  "After every call of CglProbing::snapshot, also a repeated one, the snapshot has the rows of the problem and, if asked for, the objective, and every row has bounds.",
  "all problems, all histories of calls","all histories",
  ["src/CglProbing/CglProbing.cpp: snapshot, deleteSnapshot, refreshSolver, tighten"])
p("A CglProbing object stays within its arrays over its whole life",
  "For every history of calls of generateCuts, generateCutsAndModify, snapshot and deleteSnapshot, of copies and assignments, on problems of any sizes, no array of a CglProbing object is read or written outside its bounds, no assertion fails, and the object can be destroyed.",
  "all histories of calls, all sizes of problems","all histories",
  ["src/CglProbing/CglProbing.cpp: CglProbing, ~CglProbing, operator=, clone, generateCuts, generateCutsAndModify, snapshot, deleteSnapshot, tighten"])
p("The list of probed columns can be read after any history",
  "After every history of calls and copies numberThisTime() entries of lookedAt() can be read.",
  "all histories of calls, all sizes of problems","all histories",
  ["src/CglProbing/CglProbing.cpp: CglProbing, operator=, generateCuts, generateCutsAndModify","src/CglProbing/CglProbing.hpp: numberThisTime, lookedAt"])
p("Fixing dominated columns in preprocessing does not lose the optimum",
  "With option 512 preprocessing fixes columns at 0 that are dominated by other columns.  For every problem, for each feasible point before there is a feasible point after with an objective that is at least as good.",
  "all problems, objectives, sets of prohibited columns, feasible points","all problems",
  ["src/CglPreProcess/CglPreProcess.cpp: CglPreProcess::preProcessNonDefault (dominated columns)"])
p("Fixing dominated columns only restricts the problem, and only columns that are allowed",
  "For every problem the columns that are fixed as dominated have the lower bound 0, are not prohibited and are in no row with two finite bounds; nothing else changes; and each point that is feasible afterwards was feasible before.",
  "all problems, objectives, sets of prohibited columns","all problems",
  ["src/CglPreProcess/CglPreProcess.cpp: CglPreProcess::preProcessNonDefault (dominated columns)"])
p("Making equations of rows with a singleton column does not lose the optimum",
  "Before each presolve preprocessing makes equations of rows with two columns, one of them integer and the other one in no other row, or makes the latter integer.  For every problem and either sense of the objective, for each feasible point before there is a feasible point after with an objective that is at least as good.",
  "all problems, objectives, senses, feasible points","all problems",
  ["src/CglPreProcess/CglPreProcess.cpp: CglPreProcess::preProcessNonDefault (Look at Vubs)"])
p("Making equations of rows with a singleton column only restricts the problem",
  "For every problem in which no row has its lower bound above its upper bound, each point that is feasible after this step was feasible before; bounds of columns and coefficients stay, integer columns stay integer, and a column that becomes integer is in exactly one row and has a cost that makes it grow.",
  "all problems, objectives, senses, points","all problems",
  ["src/CglPreProcess/CglPreProcess.cpp: CglPreProcess::preProcessNonDefault (Look at Vubs)"])
p("Making integer singleton columns continuous does not change the feasible points",
  "With makeEquality -2 preprocessing makes integer columns continuous that are in one equation only and have no cost.  For every problem the feasible points before and after are the same, nothing but integrality of such columns changes, and another pass is made exactly if something changed.",
  "all problems, objectives, points","all problems",
  ["src/CglPreProcess/CglPreProcess.cpp: CglPreProcess::preProcessNonDefault (nMadeContinuous)"])
p("Sets of type 1 that preprocessing reports hold in every feasible point",
  "With makeEquality 2 or 3 preprocessing reports special ordered sets.  In every feasible point of the model that is returned exactly one column of each set is 1 and the others are 0; sets do not overlap unless allToGub is given; with makeEquality 2 at most one integer column is outside, and with the default options all equations of at least five such columns are sets or no set is reported; with makeEquality 3 and the default options every equation of at least five such columns has a column in a set.",
  "all problems, objectives, options, points","all rows and their order",
  ["src/CglPreProcess/CglPreProcess.cpp: CglPreProcess::preProcessNonDefault (typeSOS_, startSOS_, whichSOS_)"])
p("Rows that preprocessing turns into cuts are neither lost nor kept twice",
  "Rows that the user has given the type 1 leave the model and are stored as cuts.  A point is feasible before exactly if it is feasible for the model after and satisfies all stored cuts, and exactly the rows of other types stay, in their order.",
  "all problems, types of rows, points","all problems",
  ["src/CglPreProcess/CglPreProcess.cpp: CglPreProcess::preProcessNonDefault (rowType_, cuts_)"])
p("Cleaning right hand sides at the end of preprocessing loses no feasible point",
  "At the end preprocessing makes right hand sides of integer rows that are nearly integer integer.  No feasible point is lost, coefficients, bounds of columns and integrality stay, and every point that is feasible after the change satisfies the rows before up to 1e-13.",
  "all problems, points","all problems",
  ["src/CglPreProcess/CglPreProcess.cpp: CglPreProcess::preProcessNonDefault (clean rhs)"])
p("Relaxing fixed continuous columns during preprocessing loses no point and respects the bounds of the user",
  "If the relaxation cannot be solved, preprocessing widens the bounds of continuous columns that are fixed up to the feasibility tolerance.  No feasible point is lost, no point outside the bounds of the user becomes feasible, and bounds of integer columns and of columns that are not fixed stay.",
  "all problems, bounds within those of the user, tolerances, points","all problems",
  ["src/CglPreProcess/CglPreProcess.cpp: CglPreProcess::preProcessNonDefault (relax bounds)"])
p("Preprocessing objects may be copied, assigned, cleaned and destroyed in any order",
  "For every history of constructing, copying, assigning, cleaning, preprocessing with, giving application data to and destroying CglPreProcess objects no freed or unset pointer is used, nothing is freed twice, no NULL pointer is followed, and the solver of the user is not freed.",
  "all histories of calls on any number of objects","a test follows one history",
  ["src/CglPreProcess/CglPreProcess.cpp: CglPreProcess constructors, operator=, gutsOfDestructor, clean, setApplicationData, preProcessNonDefault"])
p("A clique generator answers alike whatever calls came before",
  "For every CglClique object and every sequence of earlier generateCuts calls, on any problems and solvers, a call returns the same cuts as a call on an object with the same settings that was not used before.",
  "all settings, all sequences of calls, problems, solvers and points","a test follows one history",
  ["src/CglClique/CglClique.cpp: CglClique::generateCuts","src/CglClique/CglClique.hpp: setMinViolation, getMinViolation"])
p("Cuts from a fake solver hold for both problems, and violated rows are returned",
  "For every CglFakeClique object with a solver, every problem and every point, each new cut of generateCuts holds at every point that is feasible for the problem given and for the problem of the object with the bounds of the problem given. No earlier cut is lost, and every row of the problem given that the point violates by more than 1e-3 is among the cuts.",
  "all settings, problems, points and cuts that were there before","a test sees one pair of problems",
  ["src/CglClique/CglClique.cpp: CglFakeClique::generateCuts"])
p("Fake clique generators can be copied and given solvers in any order",
  "For every CglFakeClique object, made with or without a solver, every sequence of copies, clones and assignSolver calls follows no NULL pointer.",
  "all sequences of calls","a test follows one sequence",
  ["src/CglClique/CglClique.cpp: CglFakeClique::CglFakeClique, CglFakeClique::assignSolver","src/CglProbing/CglProbing.cpp: CglProbing::refreshSolver"])
p("Gomory and two-step MIR generators can hold an original problem over any history",
  "For every CglGomory or CglTwomir object and every sequence of passInOriginalSolver, refreshSolver, setGomoryType or setTwomirType, swapOriginalSolver, copies, assignments and generateCuts calls, no assertion of generateCuts about the original problem fails, and the problem held is the last one the user gave.",
  "all sequences of calls and all sizes of problems","a test follows one sequence",
  ["src/CglGomory/CglGomory.cpp: CglGomory::generateCuts, CglGomory::passInOriginalSolver, CglGomory::refreshSolver","src/CglTwomir/CglTwomir.cpp: CglTwomir::generateCuts, CglTwomir::passInOriginalSolver, CglTwomir::refreshSolver","src/CglCommon/CglCutGenerator.hpp: swapOriginalSolver"])
p("Cuts from an original problem are kept only if they are of use, and the original problem stays as it was",
  "For every CglGomory or CglTwomir object that makes cuts from an original problem, every problem given and every point: no earlier cut is lost, of the new cuts exactly those stay that the point violates by more than 1e-7, and the original problem has the same objective after the call as before.",
  "all problems, prices, points, cuts found and cuts that were there before","a test sees one problem, and rarely one where the solver gives up",
  ["src/CglGomory/CglGomory.cpp: CglGomory::generateCuts","src/CglTwomir/CglTwomir.cpp: CglTwomir::generateCuts"])
open("/verif/properties.jsonl","w").write("".join(json.dumps(x)+"\n" for x in P))
print(len(P))
