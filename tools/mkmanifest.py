#!/usr/bin/env python3
"""Writes /verif/MANIFEST.json. claim(property, status, [theorems], note)"""
import json
claims=[]
def claim(p,status,theorems,note=""):
    claims.append({"property":p,"status":status,"theorems":theorems,"note":note})
SR="Cgl.SimpleRounding."
claim("C01","proved",[SR+"generateCuts_valid",SR+"generateCuts_backward_valid",SR+"generateCuts_tiny_invalid"],
 "exact arithmetic; clean-data theorem, backward-error theorem for arbitrary coefficients, and a witness that the tolerance hypothesis is needed")
claim("C02","proved",[SR+"generateCuts_shape",SR+"generateCuts_no_ub",SR+"generateCuts_overflow_ub",SR+"generateCuts_zero_coefficient_ub"],
 "shape for all data above the zero tolerance; UB witnesses outside integer data")
ST="Cgl.Stored."; TI="Cgl.TreeInfo."
claim("C03","proved",[ST+"generateCuts_exact",ST+"generateCuts_contradictory"],"positive required violation; cuts with lb > ub covered by the second theorem")
claim("C04","proved",[ST+"history_holds_added",ST+"history_holds_added_init",ST+"saveStuff_roundtrip"],"any history over any number of objects, copies and (self-)assignments included")
claim("C05","proved",[ST+"load_encode",ST+"load_only_layout"],"byte level, round trip in both directions; a short read is UB in the code and none in the model")
claim("C06","proved",[ST+"generateCuts_probing_valid"],"exact arithmetic; tables ordered or packed; bounds not looser than when recording")
claim("C07","proved",[TI+"cliqueEntry_is_pair"],"32-bit words")
claim("C08","partial",[TI+"exposed_only_recorded",TI+"exposed_iff_recorded_partial",TI+"convert_loses"],"nothing is invented (full), nothing is lost except for one sentinel value (partial); the property as stated is false of the code, with a concrete witness")
claim("C09","proved",[TI+"packDown_keeps_01"],"")
claim("C10","proved",[TI+"fixColumns_sound",TI+"fixColumnsOne_sound"],"")
claim("C11","proved",[TI+"generateCuts_valid",TI+"infeasibleCut_unsat"],"")
OH="Cgl.OddHole."
claim("C16","partial",[OH+"generateCuts_valid_partial",OH+"generateCuts_fixed_invalid"],"proved when every column fixed by its bounds is at a natural number and, if nonzero, has no coefficient below one; false of the code otherwise, with a witness")
claim("C17","partial",[OH+"generateCuts_cover_valid_partial",OH+"generateCuts_cover_invalid"],"proved when every column fixed by its bounds is fixed at a natural number; false of the code for a column fixed at a negative value, with a witness")
claim("C18","partial",[OH+"generateCuts_limits_partial",OH+"generateCuts_limits_exact_partial",OH+"setters_in_range",OH+"setters_exact",OH+"limits_ignored"],"default limits are respected and setters keep their ranges; the configured limits are ignored by the code (witness)")
claim("C35","partial",[OH+"generateCuts_total_partial",OH+"generateCuts_overflow"],"termination and memory safety proved for at least as many rows as columns; otherwise the code can write past an array (witness)")
claim("C36","partial",[OH+"copies_same_partial",OH+"assign_disables"],"assignment from an object without a row list disables the generator (witness)")
RC="Cgl.ResCap."
claim("C20","proved",[RC+"generateCuts_valid",RC+"tolerance_invalid",RC+"setDoPreproc_spec"],"for clean data; a witness shows why data inside the zero tolerance has to be excluded")
claim("C37","proved",[RC+"history_valid",RC+"history_valid_always",RC+"stale_invalid"],"a witness shows that the relation between the problems is needed")
CQ="Cgl.Clique."
claim("C13","proved",[CQ+"generateCuts_valid",CQ+"generateCuts_negative_invalid"],"default mode under the stated condition on lower bounds (a witness shows it is needed), set packing mode under the user's promise")
claim("C14","proved",[CQ+"generateCuts_form",CQ+"generateCuts_total"],"also: given cuts are kept, nothing is inserted twice, the search always ends")
claim("C15","partial",[CQ+"enumerate_first_fit_partial",CQ+"enumerate_clique_partial",CQ+"generateCuts_extends_row_partial",CQ+"generateCuts_misses",CQ+"not_complete"],"false of the code (witness at the API); the enumeration is characterised exactly: it looks at one maximal clique only")
AD="Cgl.AllDiff."
claim("C19","partial",[AD+"generateCuts_valid_partial",AD+"generateCuts_mixup_invalid",AD+"unlooked_invalid",AD+"generateCuts_large_invalid"],"proved when the code's confusion of column numbers is harmless and the ranges are small enough for all sets to be looked at; false of the code otherwise, with witnesses")
claim("C38","partial",[AD+"generateCuts_tight_partial"],"proved when the code's confusion of column numbers is harmless")
claim("C39","partial",[AD+"generateCuts_total_partial",AD+"generateCuts_default_faults"],"termination and memory safety for nonempty sets, ordered bounds, small ranges and harmless column numbering; an object without sets dereferences a null pointer")
KC="Cgl.Knapsack."
claim("C21","partial",[KC+"derive_implied_partial",KC+"generateCuts_invalid_tiny"],"proved for rows whose coefficients exceed 1e-7 in absolute value; a witness shows that smaller ones are ignored whatever the bounds of their columns")
claim("C22","partial",[KC+"generateCuts_valid_partial",KC+"generateCuts_invalid_tiny"],"whole generator (derivation, variable bound substitution, all five cover searches, three liftings); proved at LP-feasible points for data on a grid coarser than the tolerances; false for tiny coefficients (witness)")
claim("C40","partial",[KC+"generateCuts_total_partial",KC+"coverRow_total",KC+"generateCuts_ub_tiny"],"proved for data on a grid coarser than the tolerances; with coefficients around 1e-6 the last element of an empty cover is read (witness)")
claim("C41","partial",[KC+"exactSolve_optimal_partial",KC+"exactSolve_fit",KC+"exactSolve_not_optimal"],"proved for integral profits (the lifting problems); false for the fractional profits of the cover search, with a witness")
MI="Cgl.MIR."; MW=MI+"Witness."
claim("C23","partial",[MI+"generateCuts_valid_partial",MI+"generateCuts_valid_default_partial",MI+"generateCuts2_valid_partial",MI+"generateCuts2_valid_default_partial",MW+"first_invalid",MW+"both_invalid",MW+"fractional_upper_invalid",MW+"clp_invalid"],"both generators, whole algorithm; proved for data outside the zero tolerance at every stage of the run (implied by clean rows for the default of one row); false of the code without that, with witnesses for each condition; not modelled: insertIfNotDuplicateAndClean's rescaling of the cut in the second generator")
claim("C42","partial",[MI+"history_valid_partial",MW+"stale_invalid"],"first generator, one row at a time; a witness shows that the relation between the problems is needed")
claim("C43","partial",[MI+"generateCuts_returns",MI+"generateCuts2_returns_partial",MI+"generateCuts2_returns_default",MW+"second_reads_outside",MW+"copy_reads_unwritten"],"full for the first generator; the second reads outside the bound arrays for a tiny slack coefficient and reads unwritten row types in a copy (witnesses)")
claim("C44","proved",[MI+"generateCuts_cutsOff",MI+"generateCuts2_cutsOff"],"square root abstract: any function that is positive on positive numbers")
PA="Cgl.Param."
cl=["Base","GMI","RedSplit","RedSplit2","Gomory","Twomir","Probing"]
claim("C32","proved",[PA+c+"."+t for c in cl for t in ("ranges","rejected")]+[PA+"Strat.lists_legal"],"CglParam, CglGMIParam, CglRedSplitParam, CglRedSplit2Param, CglGomory, CglTwomir, CglProbing; any number of objects, copies and assignments; the setters of CglOddHole are under C18, of the MIR generators and CglResidualCapacity under C20 and C43; NaN arguments are not modelled")
claim("C45","partial",[PA+c+".readback" for c in ("Base","GMI","Gomory","Twomir","Probing")]+[PA+"RedSplit.readback_partial",PA+"RedSplit2.readback_partial",PA+"RedSplit2.readback_others_partial",PA+"Strat.lists_readback",PA+"RedSplit.maxdyn_not_read_back",PA+"RedSplit2.max_supp_rel_changes_minviol",PA+"RedSplit2.max_supp_rel_not_read_back"],"full for five classes and the strategy lists; false of CglRedSplitParam::getMAXDYN (returns MAXDYN_LUB) and CglRedSplit2Param::setMAX_SUPP_REL (writes MINVIOL), witnesses given, everything else proved")
GM="Cgl.GMI."
GO="Cgl.Gomory."
claim("C24","partial",[GM+"generateCuts_valid_partial",GM+"row_valid",GM+"dropped_invalid",GM+"integral_turned_round",GM+"elim_invalid",GM+"free_invalid",GM+"fractional_bound_invalid",GO+"generateCuts_valid_partial",GO+"fullRow_valid",GO+"near_invalid",GO+"rounding_invalid",GO+"fixed_invalid",GO+"dropped_invalid",GO+"bound_invalid",GO+"thin_reads_outside"],"CglGMI, whole generateCuts with all seven cleaning procedures, for any basis-inverse row, any sqrt and any rational approximation; proved when no tolerance comes into play; false of the code otherwise, with a witness for each condition; CglGomory, whole generateCuts with the rational cleaning (USE_CGL_RATIONAL 0), tidying and secondary cuts, in the same way; not modelled: the alternative with an original solver (gomoryType_)")
claim("C25","partial",[GM+"cleanCut_relaxes_partial",GM+"cleanCut_integral_relaxes_partial",GM+"removeSmall_relaxes_partial",GM+"cleanCut_defined",GM+"dropped_invalid",GM+"clean_turned_round",GM+"integral_turned_round",GM+"rhs_zero_divides"],"all seven procedures; false of the code for small coefficients on unbounded columns and for the integral procedures, where a negative computed gcd turns the cut round (witnesses)")
claim("C46","proved",[GM+"generateCuts_support",GM+"generateCuts_dynamism",GM+"generateCuts_violation",GM+"generateCuts_returns"],"the dynamism limit needs EPS_COEFF at least 1e-20 (default 1e-11)")
claim("C47","proved",[GM+"scaleIntegral_gives_integers",GM+"computeGcd_natAbs",GM+"computeGcd_pos",GM+"computeGcd_none"],"CoinRational is outside /repo: any function; 64-bit overflow is a separate outcome of the model")
claim("C48","proved",[GO+"generateCuts_limit",GO+"generateCuts_violated",GO+"generateCuts_shape"],"both generalised by generateCuts_shape, which covers sorted candidates")
TI="Cgl.TreeInfo."
claim("C12","partial",[TI+"cleanup_keeps_partial",TI+"cleanup_loses",TI+"cleanup_ignores_direction",TI+"cleanup_prefers_first",TI+"cleanup_reads_outside"],"false of the code: cleanup_loses gives a problem made of cliques only for which the returned model admits an infeasible 0-1 point ({1,3} is taken for a subset of {1,2,4}); two more witnesses for entry directions and equality types, and one where the search reads past its array. Proved: with cliques of equal length and at most 10000 extra ones the clean-up ends, invents nothing and keeps a clique with the same columns for each.")
claim("C49","proved",[TI+"analyze_keeps_points",TI+"extra_cliques_fault"],"for problems whose nearly equal column bounds are equal (CleanRows); a positive number of extra cliques is undefined behaviour (extra_cliques_fault)")
FC="Cgl.FlowCover."; FW=FC+"Witness."
claim("C28","partial",[FC+"generateCuts_valid_partial",FC+"generateCuts_valid_upto_partial",FW+"free_row_invalid",FW+"tiny_rhs_invalid",FW+"tiny_lower_invalid",FW+"near_cancel_invalid"],"whole generator (row classification, variable bounds, cover search, both liftings, back substitution, merging); exact for data on a grid coarser than 1e-6, up to 1e-6 per column for any data; two-column rows, lower bounds and variable bounds must be outside the tolerances; false of the code without that, with witnesses: in particular free rows are taken for variable equality bounds")
claim("C50","proved",[FC+"generateCuts_violated",FC+"generateCuts_shape"],"for well-formed problems (column indices in range)")
claim("C51","proved",[FC+"generateCuts_limit",FC+"history_limit",FC+"zero_limit"],"")
claim("C52","proved",[FC+"search_ends"],"")
claim("C53","partial",[PA+c+"."+t for c in ("Base","GMI","RedSplit","RedSplit2","Gomory","Twomir") for t in ("copy_eq","assign_eq")]+["Cgl.LandP."+t for t in ("params_copy","params_assign_partial","params_assign_bug","assign_differs")],"numeric members; the strategy lists of CglRedSplit2Param are under C45; false of CglLandP::Parameters: assignment copies failedPivotLimit into degeneratePivotLimit (assign_differs)")
TM="Cgl.Twomir."; TW=TM+"Witness."
claim("C27","partial",[TM+"generateCuts_valid_partial",TM+"two_step_core",TM+"buildMir_holds",TM+"build2step_holds",TW+"negative_bound_invalid",TW+"near_equality_invalid"],"whole generator (transformation, slack substitution, nicefication, one-step and two-step rounding with both signs and scalings, filtering, back transformation) for any tableau rows; proved when the tolerances do not come into play, for points whose integer columns are exactly integral; false of the code otherwise: small coefficients are padded with the bounds of the untransformed column (negative_bound_invalid)")
claim("C54","proved",[TM+"generateCuts_shape"],"")
claim("C55","partial",[TM+"generateCuts_returns_partial",TW+"large_coefficient_undefined"],"for coefficients whose scaled value fits an int; otherwise int(100*x) overflows (witness)")
RS="Cgl.RedSplit."
claim("C26","partial",[RS+"generateCuts_valid_partial",RS+"combo_split",RS+"near_integer_invalid",RS+"dropped_invalid",RS+"eliminated_invalid",RS+"fractional_bound_invalid"]+["Cgl.RedSplit2."+t for t in "generateCuts_valid_partial generateCuts_valid_bounded_partial generateMultipliers_valid_partial wit_exact near_integer_invalid far_invalid fractional_bound_invalid lowered_infinit_invalid".split()],"both generators; CglRedSplit, whole generator for any tableau rows and any sqrt and cbrt; proved when no tolerance comes into play; false of the code with default parameters otherwise, with a witness for each condition; CglRedSplit2: whole generator for any row and column strategies and any solutions of its linear systems, proved when no tolerance comes into play and for points within 1e20")
claim("C56","proved",[RS+"reduction_ends",RS+"reduceLoop_ends",RS+"reduceLoop_inv",RS+"reads_past_end"],"exact arithmetic; overflow of the int multipliers is a separate outcome of the model; reads_past_end shows a read of basis_index[nrow] when rows are subsampled")
claim("C57","partial",[RS+"generateCuts_shape",RS+"generateCuts_cutsOff_partial",RS+"not_cut_off"],"shape and limits proved for all data; the violation when no tolerance comes into play, with a witness of an accepted cut that the LP solution satisfies")
CF="Cgl.Conflict."
claim("C34","partial",[CF+"bk_valid",CF+"ow_valid",CF+"strengthen_keeps_partial",CF+"near_tie_cut_off"],"clique cuts and odd-wheel cuts for every problem, graph, LP solution and generator state, given the contracts of the CoinUtils searches (Conflict/Spec.lean); the rows of the strengthening when the coefficients of clique rows are equal or 1e-6 apart, false otherwise (near_tie_cut_off)")
claim("C58","partial",[CF+"strengthen_same_partial",CF+"strengthen_adds_nothing_partial",CF+"row_lost",CF+"second_call"],"one call on a new object, clique rows that say no more than at most one; false for rows that exclude single literals (row_lost) and for a second call on the same object (second_call)")
claim("C59","proved",[CF+"bk_cutsOff",CF+"reached_weight",CF+"bk_case"],"LP solution within the bounds of the conflicting columns; the weights of the search are exact (the code stores them as double products)")
claim("C60","partial",[CF+"bk_returns",CF+"ow_returns",CF+"strengthen_returns_partial",CF+"strengthenRows_returns_partial",CF+"other_row",CF+"no_elements",CF+"long_name"],"the two generators for all histories; the strengthening on a new object with at least one element, names of at most 247 characters and listed rows that are clique rows, with a witness of a fault for each condition")
claim("C61","partial",[CF+"bk_copy",CF+"ow_history",CF+"ow_full_partial",CF+"bk_history",CF+"ow_copy",CF+"negative_center"],"copies of CglBKClique and histories of CglOddWheel; false for histories of CglBKClique (bk_history), copies of CglOddWheel (ow_copy) and cycles with complemented columns (negative_center)")
ZH="Cgl.ZeroHalf."
claim("C29","partial",[ZH+"generate_valid_partial",ZH+"generate_valid_global_partial",ZH+"tri_case",ZH+"tri_global",ZH+"near_integer",ZH+"deep_bound",ZH+"stale_global",ZH+"stale_rows"],"loading, weakening, rounding and the cut list for every sequence of cycles the graph search can return, after any history since refreshSolver; false of the code for coefficients within 1e-15 of an integer, bounds beyond the range of int, the global flag set after local calls, and a refresh with a problem without rows (witnesses)")
claim("C62","proved",[ZH+"generate_cutsOff",ZH+"tri_case"],"")
claim("C63","proved",[ZH+"generate_neat",ZH+"tri_case"],"problem with rows and column indices in range; calls with integer lower bounds below INT_MAX")
claim("C64","partial",[ZH+"generate_fault",ZH+"generate_returns_partial",ZH+"generate_returns_global_partial",ZH+"refresh_returns_partial",ZH+"tri_refreshes",ZH+"explicit_zero",ZH+"more_columns",ZH+"no_cast",ZH+"too_large"],"no exit, division by zero or failed assertion for any data; overflow and casts excluded when the numbers add up to less than INT_MAX; false of the code for explicit zeros, a different number of columns, bounds beyond int and large coefficients (witnesses). The graph search is not part of the model")
claim("C65","partial",[ZH+"generate_history_partial",ZH+"refresh_forgets",ZH+"copy_refresh",ZH+"assign_refresh_partial",ZH+"copy_silent",ZH+"copy_case",ZH+"assign_aborts",ZH+"stale_global"],"histories with the global flag off at the call; a copy answers as the original only after refreshSolver and adds no cuts before (copy_silent); assignment to a loaded generator aborts (assign_aborts)")
DR="Cgl.DupRow."
claim("C30","partial",[DR+t for t in "generate4_valid_partial generate4_integer_partial outDuplicates4_keeps_partial outDuplicates4_exact_partial generate8_valid_partial outDuplicates8_exact_partial four_tame four_works mixed_tame eight_tame eight_works equality_lost no_subset_goes no_subset_fixes half_is_not_one near_row_lost huge_upper snapped slip_row_lost".split()],"both modes that do anything (4: pairs of short rows; 8: clique rows); generateCuts12 is never called. Mode 4: bounds valid for problems without the tolerance and loop-variable cases (Tame4), row removals for pure 0-1 problems with integral data; mode 8: for problems that are Tame8. False of the code otherwise, with witnesses")
claim("C66","proved",[DR+t for t in "generate_extends generate_signal generate_nothing default_generates_nothing outDuplicates_only_removes outDuplicates_nothing".split()],"")
claim("C67","partial",[DR+t for t in "history_copy history_loaded history_generate4_partial refresh_loads history_case second_call".split()],"copies and reported bounds in all histories with one matrix; false of the code for outDuplicates: a second call in mode 4 applies the flags of the first to the wrong rows and deletes rows that are needed (second_call)")
claim("C68","partial",[DR+t for t in "refresh_returns_partial mode4_returns_partial mode8_returns_partial returns_case past_the_end singletons_fail slip_faults low_column_aborts refresh_cast lower_cast never_refreshed other_modes".split()],"proved under conditions on the data; a witness of a fault for each condition: failed assertion for two singleton rows, read past arrays (loop over the wrong variable, subset search at the last clique), abort() for columns below -1e20, casts of large bounds, objects never refreshed")
PB="Cgl.Probing."
COMMON="CglProbing modes 1 and 2 without snapshot; points feasible, within the objective limit, numbers below 1e20, integer columns below 12345678900. Unconditional for problems with integer columns only and rows not strengthened (the default setting); otherwise for calls in which no step rests on a tolerance (ExactRun)"
claim("C31","partial",[PB+t for t in "probing_tight_valid probing_tight_valid_partial probing_cuts_valid probing_cuts_valid_partial probing_infeasible probing_infeasible_partial probing_dualBound fix_meets cost_meets infeasible_meets strengthen_meets snapped_bound cost_moved far_column wrong_offset maximise_infeasible".split()],COMMON+". False of the code otherwise, with witnesses: continuous bounds snapped, columns moved for their cost, artificial bounds of integer columns, sign of the offset, maximising without a limit")
claim("C69","partial",[PB+t for t in "probing_cuts_valid probing_cuts_valid_partial disaggregate_meets strengthen_meets dropped_coefficient snapped_bound".split()],COMMON)
claim("C70","partial",[PB+t for t in "probing_implications probing_implications_partial disaggregate_meets".split()],COMMON)
claim("C71","partial",[PB+t for t in "probing_total fix_meets disaggregate_meets unset_activities fractional_bound maximise_fails".split()],"proved when integer columns have integral bounds, the sizes are below 5e19 and there is a limit if the objective is maximised (Data, Tame); a witness of a fault for each condition. Assertions inside probe() and limits of the work arrays are not part of the model")
claim("C72","proved",[PB+t for t in "probing_extends probing_cut_limit probing_columns_only over_limit strengthen_only".split()],"above the limit no row cut at all is inserted (over_limit); setRowCuts(2) finds no strengthened rows (strengthen_only)")
LP="Cgl.LandP."
claim("C33","partial",[LP+t for t in "landp_valid landp_valid_plain valid_case pivot_case plain_case ranged_later_invalid ranged_later_reachable entering_invalid fractional_bound_invalid extra_column".split()],"whole generator: ranged rows turned into slack columns, any sequence of pivots, intersection cuts and strengthened cuts, modularized rows, extra cuts, validator; points of moderate size (sum of magnitudes at most 1e12), data not within a tolerance of something else. False of the code for ranged rows in any call but an object's first, extra cuts made when a variable enters the basis, integer columns with fractional bounds; extra cuts can mention columns that do not exist (witnesses). The choice of pivots is arbitrary in the model")
claim("C73","partial",[LP+t for t in "landp_tests empty_cut valid_case".split()],"every new cut except the empty cut, which is added when neither attempt for a row gives a cut (empty_cut)")
claim("C74","partial",[LP+t for t in "landp_limits landp_state landp_switched_off switched_off_case".split()],"all but the last clause; that one is false: after a first call on a problem with ranged rows the object never generates a cut again (landp_switched_off)")
claim("C75","partial",[LP+t for t in "landp_returns_partial returns_case extra_assertion allMigs_fault dynamic_throws initial_costs_write".split()],"proved for the settings without extra cuts, other selection rule than initialReducedCosts, implemented normalization and a solver that keeps its contract; the other settings fail (witnesses)")
LQ="Cgl.LiftProject."
claim("C76","partial",[LQ+t for t in "liftAndProject_valid_partial valid_case continuous_invalid".split()],"whole generator with the layout of its arrays, any LP solver that is right when it claims optimality; rows with lower bounds, no gaps in the matrix, and no fractional value outside binary columns. False without the last condition (continuous_invalid): the column type is looked up with a left-over index")
claim("C77","proved",[LQ+t for t in "liftAndProject_adds beta_pm_one set_beta valid_case reachable_case".split()],"")
claim("C78","partial",[LQ+t for t in "liftAndProject_violation_partial valid_case not_violated".split()],"second half proved; the first is false of the code: the test for violation is not compiled, and a cut that the LP solution satisfies can be added (not_violated)")
claim("C79","partial",[LQ+t for t in "liftAndProject_returns_partial valid_case documented_fails documented_case gap_uninitialised no_rows_fails".split()],"proved for fewer rows than columns, at least one row and no gaps; false of the code otherwise: every problem in the documented form with at least half of its columns binary makes the call read outside an array (documented_fails); gaps and no rows fail as well")
R2="Cgl.RedSplit2."
claim("C80","partial",[R2+t for t in "generateCuts_number generateCuts_shape generateCuts_violation generateCuts_cutsOff_partial wit_cuts wit_noDrop far_not_cut_off".split()],"all but the violation proved in full; the violation if no small coefficient is dropped, and false of the code otherwise: a cut that is not violated at all is added")
claim("C81","proved",[R2+t for t in "generateMultipliers_spec generateMultipliers_cuts wit_multipliers two_all".split()],"for any function in place of the LU decomposition")
claim("C82","partial",[R2+t for t in "generateCuts_returns_partial generateMultipliers_returns_partial wit_basis wit_survives tilt_useless tilt_fails skipped_rows_uninitialised zero_rows_outside huge_rhs_asserts support_overflow lambda_overflow tilt_outside".split()],"proved with a proper basis, right-hand sides below 1e100, rows shorter than maxNonzeroesTab, positive numbers of rows and limits whose products are ints; each condition is needed; tiltLandPcut never returns a tilted cut and fails whenever there is something to do")
claim("C83","proved",[R2+t for t in "workCols_partition workCols_ordered workCols_halves".split()],"")
claim("C84","proved",[R2+t for t in "generateMultipliers_best two_all two_best".split()],"")
PC="Cgl.PreClique."
claim("C85","partial",[PC+t for t in "cliqueIt_keeps cliqueIt_equiv_of_nodup cliqueIt_equiv_partial k4_sharesOne k4_shape twice_shape shared_pair_adds_points".split()],"no point is ever lost; none is added if no two clique rows share two columns (more generally, if no neighbourhood lists a column twice). False of the code otherwise: the search counts entries instead of columns, gives up a branch too early, and a row is deleted that no clique replaces (shared_pair_adds_points)")
claim("C86","partial",[PC+t for t in "cliqueIt_rows cliqueIt_all_cliques_partial bk_sound bk_unique bk_complete bk_depth k4_shape shared_pair_misses_clique shared_maximal".split()],"everything but \"none missing\" for every problem; that clause if no two clique rows share two columns, and false otherwise (shared_pair_misses_clique)")
claim("C87","partial",[PC+t for t in "cliqueIt_returns cliqueIt_null needed_overflow k4_all_needed".split()],"returns if the product of cliquesNeeded and the number of rows is an int and there are at most 21474836 rows; otherwise the conversion or a product overflows (needed_overflow)")
PT="Cgl.PreTighten."
claim("C88","partial",[PT+t for t in "tighten_keeps_feasible tighten_negative_infeasible demo_result bad_ret tighten_loses_point".split()],"row bounds infinite or at most 1e19, no explicit zeros, points of moderate size. In full for integer columns and for the return value; a continuous column may end up 1e-8 outside its new bounds, and then the point is lost (tighten_loses_point)")
claim("C89","partial",[PT+t for t in "tighten_same_points_partial demo_result tighten_adds_point tighten_adds_point_fractional".split()],"proved for integer columns with integral data and a tolerance that is small in proportion to the coefficients; false of the code with a larger tolerance (tighten_adds_point) and with fractional row bounds (tighten_adds_point_fractional)")
claim("C90","partial",[PT+t for t in "tighten_shape demo_result tighten_loosens silent_result".split()],"bounds are loosened by at most 1e-5, which does happen (tighten_loosens); the last clause is false of the code: bounds found by the first phase are not counted (silent_result)")
UC="Cgl.UniqueCuts."
claim("C91","proved",[UC+t for t in "insertions_accounted account_sound account_complete account_count unique_accounted probing_accounted demo_result multiplier_zero".split()],"for every function in place of OsiRowCut hashing and comparison; positive hash multiplier (with 0 the first insertion reads outside the table, multiplier_zero)")
claim("C92","partial",[UC+t for t in "collector_partial erase_result careful_result noCollision_result duplicates_held unique_duplicates probing_duplicates collision_result erase_last_fails erase_collision_result erase_outside_result stale_result".split()],"proved for histories without collisions in the hash table that never erase the last cut and never fall back to a number erased before. False of the code otherwise, for every hash function: a colliding cut overwrites the entry of the other instead of being chained to it, so from every state with room for three cuts a cut can be held twice (duplicates_held); the last cut can never be erased (erase_last_fails); a cut erased earlier, offered again, may use a null pointer (stale_result)")
claim("C93","partial",[UC+t for t in "addCuts_delivers copy_full_partial copy_fails full_result reuse_fails".split()],"addCuts proved; a copy is right only if the array is full, otherwise pointers that were never set are used (copy_fails); after addCuts, offering any cut that was held uses a null pointer (reuse_fails)")
PI="Cgl.PreInteger."
claim("C94","partial",[PI+t for t in "analyze_harmless harmless_optimum makeInteger_harmless_partial sample_clean sample_analyze sample_make sample_pairs makeInteger_fails linked_analyze analyze_inexact_fails".split()],"analyze in full, if numbers within 1e-12 of an integer are integers (otherwise false: analyze_inexact_fails); makeInteger if nonnegative continuous columns linked by an equation are in no other row. False of makeInteger otherwise: for the second column of a pair it looks at the rows of the first (makeInteger_fails: the optimum of a clean problem changes from 1 to 2)")
claim("C95","partial",[PI+t for t in "analyze_total analyze_infeasible analyze_count analyze_complete makeInteger_total makeInteger_objective makeInteger_complete sample_analyze sample_make narrow_clean narrow_infeasible makeInteger_zeros_fails".split()],"everything for matrices without explicit zeros; with them makeInteger writes outside an array (makeInteger_zeros_fails). The number returned by analyze includes columns whose rounded bounds are equal, which are not declared integer (analyze_count)")
PF="Cgl.PreFix."
claim("C96","partial",[PF+t for t in "reducedCostFix_keeps_partial reducedCostFix_adds_nothing reducedCostFix_counts reducedCostFix_complete sample_optimal sample_fixes reducedCostFix_fails".split()],"the first clause if the bounds of integer columns are integers, and false otherwise (reducedCostFix_fails: every solution is lost); the other clauses in full")
claim("C97","partial",[PF+t for t in "someFixed_restricts someFixed_number someFixed_order someFixed_discards_partial someFixed_returns_partial four_fixes four_discards someFixed_fails someFixed_outside sorted_sorts".split()],"columns are only ever fixed at their lower bounds: a column to be discarded that is at its upper bound stays free (someFixed_fails); returns if some column is not a candidate, otherwise the upper bounds are read outside the array (someFixed_outside)")
claim("C98","partial",[PF+t for t in "update_follows passInRowTypes_follows passInProhibited_joins originalIndices_partial originalIndices_sorted originalIndices_none sample_update update_lost update_rows_fails update_new_row prohibited_replaced passes_original passes_fit originalIndices_fails originalIndices_null".split()],"for presolves that keep the order of columns and rows and do not remove prohibited columns; otherwise row types get mixed up (update_rows_fails), the original columns are the right ones in the wrong order (originalIndices_sorted, originalIndices_fails); a pass without a presolve before one with a presolve is a null pointer (originalIndices_null)")
PQ="Cgl.ProbCliques."
claim("C99","partial",[PQ+t for t in "createCliques_points createCliques_infeasible createCliques_fixes createCliques_sound_partial ex1_moderate ex1_wf ex3_moderate createCliques_fails createCliques_loses".split()],"for columns with equal bounds where the gap is below 1e-8 (otherwise points are lost: createCliques_loses) and numbers of moderate size. The truth of the cliques for rows with one finite bound, and for rows whose columns are not fixed by other rows; false of the code otherwise (createCliques_fails): after a column has been fixed, a row with two bounds is taken for a clique of the other kind")
claim("C100","partial",[PQ+t for t in "createCliques_complete_upper createCliques_complete_lower createCliques_shape createCliques_lists createCliques_returns ex1_fits createCliques_casts".split()],"complete for rows whose columns are not fixed by other rows; returns if the row bounds fit into an int on the side where they matter, otherwise the conversion is undefined (createCliques_casts)")
claim("C101","partial",[PQ+t for t in "setupRows_ok RowOk.atMost cliqueModel_points cliqueModel_same_partial tightenThese_spec cliqueModel_null cliqueModel_fake setupRows_alloc".split()],"if there are cliques (cliqueModel without cliques reads a null pointer; setupRowCliqueInformation after an infeasible problem allocates a negative size); cliqueModel of type 2 takes packed entries for columns (cliqueModel_fake); the same feasible points under the restriction of C99")
ZS="Cgl.ZHSearch."
claim("C102","partial",[ZS+t for t in "search_cycles offers_ok offers_complete graph_lightest weakOf_has forward_best tri_tidy tri_oddCycle search_overflow long_overflow".split()],"for rows with at most 46341 entries; with more the count of pairs overflows (search_overflow, long_overflow). Weights are counted in units of 1/10000 rounded down, as in the code")
claim("C103","proved",[ZS+t for t in "search_storage graphOf_eq graphDense_eq graphSparse_eq".split()],"")
claim("C104","partial",[ZS+t for t in "shortestPath_partial shortestPath_misses search_misses tri_oddCycle tri_search sortLib_lawful".split()],"distances are those of ways, and right for nodes whose shortest way is one arc; false of the code beyond that, for every implementation of the heap functions: the search stops when a node that was not reached is in front, because keys are lowered inside the heap (shortestPath_misses); three rows that give a cut violated by one half are missed (search_misses)")
claim("C105","partial",[ZS+t for t in "search_cycles popHeap_precondition search_overflow long_overflow".split()],"no overflow for rows with at most 46341 entries, and overflow for longer rows of odd entries (search_overflow). The clause on std::pop_heap is false of the code for every implementation, already for one column (popHeap_precondition); search_cycles does not depend on what the heap functions do, only on the size of the vector")
PP="Cgl.PostProc."
claim("C106","partial",[PP+t for t in "postProcess_feasible run3 linked3".split()],"for integer columns that postsolve leaves within 1e-3 of an integer (as the code asks for before it fixes them), without semi-continuous columns, for solvers that are honest about optimality and a postsolve that keeps integer columns rounding into their bounds; bounds tightened only by presolve (Linked). Feasibility holds for the bounds the user gave, not only for the tightened ones")
claim("C107","partial",[PP+t for t in "postProcess_no_worse run3".split()],"without semi-continuous columns; for honest solvers")
claim("C108","partial",[PP+t for t in "leftover_rows leftover_turn leftover_bounds leftover_beyond leftover_assertion".split()],"bounds in full if they are integers; false of the code otherwise (leftover_beyond: the bounds are not looked at, a column with upper bound 1/2 is fixed at 1). If the preprocessing has made a column integer, an assertion can fail (leftover_assertion)")
claim("C109","partial",[PP+t for t in "unsolved_iff unsolved_lower unsolved_silent".split()],"false of the code: the integer columns are fixed at their lower bounds and the user's model is solved; the result can be proven optimal, without a message, and is then a feasible point of the relaxation but not an optimum (unsolved_silent). What is proved is when this happens and what the solution is")
claim("C110","partial",[PP+t for t in "postProcess_returns hints_restored message_infeasible twice_null simple_unsolved_outside cutoff_lost".split()],"comes back if the passes are there and fit together, no column was made integer and there are no semi-continuous columns; false of the code for a second call after deleteStuff (twice_null) and for the simple mode with an unsolved reduced model (simple_unsolved_outside). The objective limit of the reduced model is always lost (cutoff_lost); hints and messages in full")
claim("C111","partial",[PP+t for t in "sc_fixed_or_low original_numbers sc_zero_lost original_numbers_order".split()],"the last clause is false of the code: a column that presolve has removed at 0 gets its low value as lower bound (sc_zero_lost: the user's model becomes infeasible); the numbers are right for presolves that keep the order of columns, and wrong otherwise (original_numbers_order)")
MI="Cgl.MakeInts."
claim("C112","partial",[MI+t for t in "makeIntegers2_harmless_partial makeIntegers2_optimum_partial makeIntegers2_fails sample_answer small_answer".split()],"for clean numbers and if no continuous column that is passed over (no cost; with mode above 1 only those in exactly one row) shares a row with another continuous column; false of the code otherwise, in every mode (makeIntegers2_fails: min x, x + z >= 1, z <= 1/2 goes from 1/2 to 1)")
claim("C113","proved",[MI+t for t in "makeIntegers2_returns makeIntegers2_frame sample_answer".split()],"for all problems, without hypotheses")
claim("C114","proved",[MI+t for t in "makeIntegers2_all_or_nothing small_answer".split()],"for all problems, without hypotheses")
TR="Cgl.Triple."
claim("C115","proved",[TR+t for t in "triple_keeps sample_answer none_answer".split()],"for problems with nonzero coefficients up to 1e20, infinity at least 1e250 and points up to 1e200")
claim("C116","partial",[TR+t for t in "triple_same_partial triple_fails separated_unit sample_exact sample_answer".split()],"if rows that agree in two columns agree in the third, and numbers within 1e-7 are equal; false of the code otherwise (triple_fails: x0 + x1 + x2 <= 1 is made free because of x0 + x1 - x2 <= 1)")
claim("C117","proved",[TR+t for t in "triple_returns triple_frame sample_answer".split()],"for problems with nonzero coefficients up to 1e20 and infinity at least 1e250")
RB="Cgl.Rebuild."
claim("C118","proved",[RB+t for t in "useAnswers_same steps_same rebuild_same single_same prob_rebuilt prob_applies".split()],"for problems with infinity between 1e20 and the largest double, nonzero coefficients that are multiples of 1/120 if they pass for such, finite row bounds below 1e20")
claim("C119","proved",[RB+t for t in "implications_valid implications_right convert_right implications_return calls_give calls_hold".split()],"")
claim("C120","partial",[RB+t for t in "packTypes_partial packed_counter finish_types_partial types_stale types_assert".split()],"the types of kept rows are moved rightly and added rows get -1 if no row was dropped; false of the code once a row was dropped (a local counter hides the member): an added equation gets a stale type (types_stale), or the next change fails an assertion (types_assert)")
claim("C121","partial",[RB+t for t in "useAnswers_returns_partial unset_read int_overflow types_assert prob_applies".split()],"if the problem has a solution, 120 times a coefficient fits into an int and there are no types of rows; false of the code otherwise (unset_read, int_overflow, types_assert)")
SU="Cgl.Setup."
claim("C122","proved",[SU+t for t in "scaled_same scaleRow_ok scaled_sat prob_setup prob_meets".split()],"for problems with infinity at least 1e30, row bounds infinite or at most 1e15, and row numbers that CoinRational does not recognise or recognises exactly, with numerators below 1e12 (Tidy); CoinRational is a parameter")
claim("C123","proved",[SU+t for t in "setup_model_same setup_infeasible clean_box cliques_ok prob_setup noPoint_none".split()],"hypotheses as in C122; columns that pass for fixed are fixed exactly")
claim("C124","partial",[SU+t for t in "setup_start_same_partial addSlacks_extends prob_setup prob_setup_all skew_copy skew_lost crossed_feasible packing_skipped".split()],"hypotheses as in C122, and for makeEquality 2 right hand sides that are integers if they pass for such; false of the code otherwise: the local row copy may be scaled while the row is not (skew_lost), and a row with crossed bounds becomes feasible (crossed_feasible)")
claim("C125","proved",[SU+t for t in "setup_equations prob_setup_all".split()],"")
claim("C126","partial",[SU+t for t in "setup_returns_partial prob_meets huge_zero huge_assert zeroCoef_assert primes_overflow".split()],"for known numbers with numerators below 1e12, denominators whose product fits into 64 bits, no stored zeros; false of the code otherwise (huge_assert, zeroCoef_assert, primes_overflow)")
MO="Cgl.MoveObj."
claim("C127","proved",[MO+t for t in "moveCosts_constant moveCosts_order start_objective_partial start_meets zeroed_moved zeroed_value".split()],"no stored zeros, finite right hand sides of equations; start_objective_partial joins it with the slack columns of Setup (hypotheses of C124)")
claim("C128","partial",[MO+t for t in "moveCosts_value_partial moveCosts_value_zero zeroed_value negated_right wrong_plus wrong_minus value_not_kept".split()],"for equations with right hand side 0 or costs with the signs of their coefficients; false of the code otherwise: the offset gets the wrong sign (wrong_plus, wrong_minus)")
claim("C129","proved",[MO+t for t in "moveRow_moved zeroed_moved zeroed_small not_moved".split()],"for costs below COIN_DBL_MAX in size, which is used as a mark")
CR="Cgl.CutRows."
claim("C130","partial",[CR+t for t in "treat_points_partial exchange_sound three_meets three_useless not_points".split()],"under the conditions of C30 on mode 8 of CglDuplicateRow for the problem with the cuts (Tame8); false of the code without them: a clique that sticks out of a longer one is dropped (not_points)")
claim("C131","partial",[CR+t for t in "treat_stops_partial three_meets never_ends not_stops".split()],"if no clique cut has the same columns as another clique; false of the code otherwise: a cut that is a copy of a row makes a loop run forever (never_ends)")
claim("C132","proved",[CR+t for t in "treat_rows three_meets three_useless".split()],"")
SN="Cgl.Snapshot."
claim("C133","proved",[SN+t for t in "snapshot_keeps snapshot_code two_meets two_unwanted none_code".split()],"matrix without explicit zeros, integral bounds of integer columns, no cliques in the generator")
claim("C134","proved",[SN+t for t in "snapshot_redundant snapshot_bounds snapshot_array two_meets two_unwanted not_redundant".split()],"without the allowance for integer columns it is false of the code: a row violated by 50 is marked (not_redundant)")
claim("C135","partial",[SN+t for t in "snapshot_whole_partial snapshot_objective_partial two_meets not_objective again_lost again_unmarked".split()],"for the first call and without the objective; false of the code otherwise: the bounds of the row for the objective are never written (not_objective), and a second call loses all rows (again_lost)")
PL="Cgl.ProbingLife."
claim("C136","partial",[PL+t for t in "life_partial shrinking_partial snapshot_once plain_meets shrinking_meets once_meets not_more not_shrunk not_copied not_safe snapshot_destroy snapshot_copy snapshot_twice snapshot_again".split()],"for histories without snapshots with one number of columns, or of generateCuts and copies with numbers of columns that never grow, and for one call after a snapshot; false of the code otherwise (not_safe, not_copied, snapshot_destroy, snapshot_copy, snapshot_twice, snapshot_again)")
claim("C137","partial",[PL+t for t in "list_partial plain_meets not_list".split()],"for histories that begin with generateCuts, on problems with one number of columns; false of the code otherwise (not_list)")
DC="Cgl.DomCols."
claim("C138","partial",[DC+t for t in "dominated_partial cover_meets not_gain not_negative not_max".split()],"for minimisation, if no column may be negative and each column with a negative cost is in a row with a continuous column; false of the code otherwise (not_gain, not_negative, not_max)")
claim("C139","partial",[DC+t for t in "fix_only fix_feasible cover_feasible not_crossed".split()],"what is fixed is proved for all problems; feasible points if no upper bound is negative, false of the code otherwise (not_crossed)")
VU="Cgl.Vub."
claim("C140","partial",[VU+t for t in "vub_partial sample_meets not_bound not_unit".split()],"if in rows with two columns integer columns have finite integer bounds and continuous columns with finite upper bounds have coefficients 1 or -1 and integer upper bounds; false of the code otherwise (not_bound, not_unit)")
claim("C141","proved",[VU+t for t in "vub_feasible vub_only sample_meets".split()],"")
MC="Cgl.MadeCont."
claim("C142","partial",[MC+t for t in "cont_keeps cont_only cont_partial sample_meets not_whole".split()],"no point is lost, and what changes, for all problems; no point is added if equations in integer columns have integer coefficients and right hand sides; false of the code otherwise (not_whole)")
FI="Cgl.Finish."
claim("C143","proved",[FI+t for t in "sos_valid sos_disjoint sos_complete sos_all sets_meet cover_meets overlap_none not_disjoint".split()],"in every feasible point one column of a set is 1, for all problems and options; sets overlap only with allToGub (not_disjoint)")
claim("C144","proved",[FI+t for t in "cuts_points cuts_rows cuts_meet".split()],"for all problems, types and points")
claim("C145","partial",[FI+t for t in "clean_near clean_keeps off_meets kept_meets not_kept".split()],"rows hold up to 1e-13 in both directions for all problems; no point is lost if rows in integer columns have integer coefficients; false of the code otherwise (not_kept)")
RX="Cgl.Relax."
claim("C146","proved",[RX+t for t in "relax_bounds relax_points fixed_meets not_inside".split()],"for all problems whose bounds are within those of the user; a point can be lost otherwise (not_inside)")
PL="Cgl.ProcLife."
claim("C147","partial",[PL+t for t in "life_partial app_partial careful_meets careful_odd not_copy not_assign not_clean not_infeasible not_app not_odd not_user".split()],"for all histories in which only complete objects without application data are copied, a cleaned object is preprocessed before anything else, and an object preprocessed with 99 passes is only destroyed, assigned to, given data or preprocessed so again; false of the code otherwise, with seven kinds of histories")
CL="Cgl.Clique."
claim("C148","partial",[CL+t for t in "alike_set alike_partial alike_same settings_stay alike_meets not_alike".split()],"if the user has set the violation, or all solvers have the same primal tolerance, or no earlier call returned early; false of the code otherwise (not_alike)")
claim("C149","partial",[CL+t for t in "fake_valid_partial fake_rows fake_meets not_point".split()],"rows and cliques; the cuts of the probing object are not modelled; with Clp the reduced costs take the place of the point (not_point)")
claim("C150","partial",[CL+t for t in "fake_life_partial fake_none_partial fake_late fake_away".split()],"for objects made with a solver and never given NULL, or made without and never given one; false of the code otherwise (fake_late, fake_away)")
OR="Cgl.Original."
claim("C151","partial",[OR+t for t in "original_partial original_meets not_type not_two not_swap not_fewer".split()],"for careful calls; false of the code otherwise: type 0 with a problem, type 2 without one, problems swapped in, problems with other columns")
US="Cgl.Useless."
claim("C152","partial",[US+t for t in "call_partial call_cuts price_eq call_meets not_restored".split()],"if Clp solves the changed problem; otherwise earlier cuts are kept (call_cuts) but the objective is not put back (not_restored)")
json.dump({"claims":claims},open("/verif/MANIFEST.json","w"),indent=1)
