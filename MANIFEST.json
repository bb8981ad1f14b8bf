{
 "claims": [
  {
   "property": "C01",
   "status": "proved",
   "theorems": [
    "Cgl.SimpleRounding.generateCuts_valid",
    "Cgl.SimpleRounding.generateCuts_backward_valid",
    "Cgl.SimpleRounding.generateCuts_tiny_invalid"
   ],
   "note": "exact arithmetic; clean-data theorem, backward-error theorem for arbitrary coefficients, and a witness that the tolerance hypothesis is needed"
  },
  {
   "property": "C02",
   "status": "proved",
   "theorems": [
    "Cgl.SimpleRounding.generateCuts_shape",
    "Cgl.SimpleRounding.generateCuts_no_ub",
    "Cgl.SimpleRounding.generateCuts_overflow_ub",
    "Cgl.SimpleRounding.generateCuts_zero_coefficient_ub"
   ],
   "note": "shape for all data above the zero tolerance; UB witnesses outside integer data"
  },
  {
   "property": "C03",
   "status": "proved",
   "theorems": [
    "Cgl.Stored.generateCuts_exact",
    "Cgl.Stored.generateCuts_contradictory"
   ],
   "note": "positive required violation; cuts with lb > ub covered by the second theorem"
  },
  {
   "property": "C04",
   "status": "proved",
   "theorems": [
    "Cgl.Stored.history_holds_added",
    "Cgl.Stored.history_holds_added_init",
    "Cgl.Stored.saveStuff_roundtrip"
   ],
   "note": "any history over any number of objects, copies and (self-)assignments included"
  },
  {
   "property": "C05",
   "status": "proved",
   "theorems": [
    "Cgl.Stored.load_encode",
    "Cgl.Stored.load_only_layout"
   ],
   "note": "byte level, round trip in both directions; a short read is UB in the code and none in the model"
  },
  {
   "property": "C06",
   "status": "proved",
   "theorems": [
    "Cgl.Stored.generateCuts_probing_valid"
   ],
   "note": "exact arithmetic; tables ordered or packed; bounds not looser than when recording"
  },
  {
   "property": "C07",
   "status": "proved",
   "theorems": [
    "Cgl.TreeInfo.cliqueEntry_is_pair"
   ],
   "note": "32-bit words"
  },
  {
   "property": "C08",
   "status": "partial",
   "theorems": [
    "Cgl.TreeInfo.exposed_only_recorded",
    "Cgl.TreeInfo.exposed_iff_recorded_partial",
    "Cgl.TreeInfo.convert_loses"
   ],
   "note": "nothing is invented (full), nothing is lost except for one sentinel value (partial); the property as stated is false of the code, with a concrete witness"
  },
  {
   "property": "C09",
   "status": "proved",
   "theorems": [
    "Cgl.TreeInfo.packDown_keeps_01"
   ],
   "note": ""
  },
  {
   "property": "C10",
   "status": "proved",
   "theorems": [
    "Cgl.TreeInfo.fixColumns_sound",
    "Cgl.TreeInfo.fixColumnsOne_sound"
   ],
   "note": ""
  },
  {
   "property": "C11",
   "status": "proved",
   "theorems": [
    "Cgl.TreeInfo.generateCuts_valid",
    "Cgl.TreeInfo.infeasibleCut_unsat"
   ],
   "note": ""
  },
  {
   "property": "C16",
   "status": "partial",
   "theorems": [
    "Cgl.OddHole.generateCuts_valid_partial",
    "Cgl.OddHole.generateCuts_fixed_invalid"
   ],
   "note": "proved when every column fixed by its bounds is at a natural number and, if nonzero, has no coefficient below one; false of the code otherwise, with a witness"
  },
  {
   "property": "C17",
   "status": "partial",
   "theorems": [
    "Cgl.OddHole.generateCuts_cover_valid_partial",
    "Cgl.OddHole.generateCuts_cover_invalid"
   ],
   "note": "proved when every column fixed by its bounds is fixed at a natural number; false of the code for a column fixed at a negative value, with a witness"
  },
  {
   "property": "C18",
   "status": "partial",
   "theorems": [
    "Cgl.OddHole.generateCuts_limits_partial",
    "Cgl.OddHole.generateCuts_limits_exact_partial",
    "Cgl.OddHole.setters_in_range",
    "Cgl.OddHole.setters_exact",
    "Cgl.OddHole.limits_ignored"
   ],
   "note": "default limits are respected and setters keep their ranges; the configured limits are ignored by the code (witness)"
  },
  {
   "property": "C35",
   "status": "partial",
   "theorems": [
    "Cgl.OddHole.generateCuts_total_partial",
    "Cgl.OddHole.generateCuts_overflow"
   ],
   "note": "termination and memory safety proved for at least as many rows as columns; otherwise the code can write past an array (witness)"
  },
  {
   "property": "C36",
   "status": "partial",
   "theorems": [
    "Cgl.OddHole.copies_same_partial",
    "Cgl.OddHole.assign_disables"
   ],
   "note": "assignment from an object without a row list disables the generator (witness)"
  },
  {
   "property": "C20",
   "status": "proved",
   "theorems": [
    "Cgl.ResCap.generateCuts_valid",
    "Cgl.ResCap.tolerance_invalid",
    "Cgl.ResCap.setDoPreproc_spec"
   ],
   "note": "for clean data; a witness shows why data inside the zero tolerance has to be excluded"
  },
  {
   "property": "C37",
   "status": "proved",
   "theorems": [
    "Cgl.ResCap.history_valid",
    "Cgl.ResCap.history_valid_always",
    "Cgl.ResCap.stale_invalid"
   ],
   "note": "a witness shows that the relation between the problems is needed"
  },
  {
   "property": "C13",
   "status": "proved",
   "theorems": [
    "Cgl.Clique.generateCuts_valid",
    "Cgl.Clique.generateCuts_negative_invalid"
   ],
   "note": "default mode under the stated condition on lower bounds (a witness shows it is needed), set packing mode under the user's promise"
  },
  {
   "property": "C14",
   "status": "proved",
   "theorems": [
    "Cgl.Clique.generateCuts_form",
    "Cgl.Clique.generateCuts_total"
   ],
   "note": "also: given cuts are kept, nothing is inserted twice, the search always ends"
  },
  {
   "property": "C15",
   "status": "partial",
   "theorems": [
    "Cgl.Clique.enumerate_first_fit_partial",
    "Cgl.Clique.enumerate_clique_partial",
    "Cgl.Clique.generateCuts_extends_row_partial",
    "Cgl.Clique.generateCuts_misses",
    "Cgl.Clique.not_complete"
   ],
   "note": "false of the code (witness at the API); the enumeration is characterised exactly: it looks at one maximal clique only"
  },
  {
   "property": "C19",
   "status": "partial",
   "theorems": [
    "Cgl.AllDiff.generateCuts_valid_partial",
    "Cgl.AllDiff.generateCuts_mixup_invalid",
    "Cgl.AllDiff.unlooked_invalid",
    "Cgl.AllDiff.generateCuts_large_invalid"
   ],
   "note": "proved when the code's confusion of column numbers is harmless and the ranges are small enough for all sets to be looked at; false of the code otherwise, with witnesses"
  },
  {
   "property": "C38",
   "status": "partial",
   "theorems": [
    "Cgl.AllDiff.generateCuts_tight_partial"
   ],
   "note": "proved when the code's confusion of column numbers is harmless"
  },
  {
   "property": "C39",
   "status": "partial",
   "theorems": [
    "Cgl.AllDiff.generateCuts_total_partial",
    "Cgl.AllDiff.generateCuts_default_faults"
   ],
   "note": "termination and memory safety for nonempty sets, ordered bounds, small ranges and harmless column numbering; an object without sets dereferences a null pointer"
  },
  {
   "property": "C21",
   "status": "partial",
   "theorems": [
    "Cgl.Knapsack.derive_implied_partial",
    "Cgl.Knapsack.generateCuts_invalid_tiny"
   ],
   "note": "proved for rows whose coefficients exceed 1e-7 in absolute value; a witness shows that smaller ones are ignored whatever the bounds of their columns"
  },
  {
   "property": "C22",
   "status": "partial",
   "theorems": [
    "Cgl.Knapsack.generateCuts_valid_partial",
    "Cgl.Knapsack.generateCuts_invalid_tiny"
   ],
   "note": "whole generator (derivation, variable bound substitution, all five cover searches, three liftings); proved at LP-feasible points for data on a grid coarser than the tolerances; false for tiny coefficients (witness)"
  },
  {
   "property": "C40",
   "status": "partial",
   "theorems": [
    "Cgl.Knapsack.generateCuts_total_partial",
    "Cgl.Knapsack.coverRow_total",
    "Cgl.Knapsack.generateCuts_ub_tiny"
   ],
   "note": "proved for data on a grid coarser than the tolerances; with coefficients around 1e-6 the last element of an empty cover is read (witness)"
  },
  {
   "property": "C41",
   "status": "partial",
   "theorems": [
    "Cgl.Knapsack.exactSolve_optimal_partial",
    "Cgl.Knapsack.exactSolve_fit",
    "Cgl.Knapsack.exactSolve_not_optimal"
   ],
   "note": "proved for integral profits (the lifting problems); false for the fractional profits of the cover search, with a witness"
  },
  {
   "property": "C23",
   "status": "partial",
   "theorems": [
    "Cgl.MIR.generateCuts_valid_partial",
    "Cgl.MIR.generateCuts_valid_default_partial",
    "Cgl.MIR.generateCuts2_valid_partial",
    "Cgl.MIR.generateCuts2_valid_default_partial",
    "Cgl.MIR.Witness.first_invalid",
    "Cgl.MIR.Witness.both_invalid",
    "Cgl.MIR.Witness.fractional_upper_invalid",
    "Cgl.MIR.Witness.clp_invalid"
   ],
   "note": "both generators, whole algorithm; proved for data outside the zero tolerance at every stage of the run (implied by clean rows for the default of one row); false of the code without that, with witnesses for each condition; not modelled: insertIfNotDuplicateAndClean's rescaling of the cut in the second generator"
  },
  {
   "property": "C42",
   "status": "partial",
   "theorems": [
    "Cgl.MIR.history_valid_partial",
    "Cgl.MIR.Witness.stale_invalid"
   ],
   "note": "first generator, one row at a time; a witness shows that the relation between the problems is needed"
  },
  {
   "property": "C43",
   "status": "partial",
   "theorems": [
    "Cgl.MIR.generateCuts_returns",
    "Cgl.MIR.generateCuts2_returns_partial",
    "Cgl.MIR.generateCuts2_returns_default",
    "Cgl.MIR.Witness.second_reads_outside",
    "Cgl.MIR.Witness.copy_reads_unwritten"
   ],
   "note": "full for the first generator; the second reads outside the bound arrays for a tiny slack coefficient and reads unwritten row types in a copy (witnesses)"
  },
  {
   "property": "C44",
   "status": "proved",
   "theorems": [
    "Cgl.MIR.generateCuts_cutsOff",
    "Cgl.MIR.generateCuts2_cutsOff"
   ],
   "note": "square root abstract: any function that is positive on positive numbers"
  },
  {
   "property": "C32",
   "status": "proved",
   "theorems": [
    "Cgl.Param.Base.ranges",
    "Cgl.Param.Base.rejected",
    "Cgl.Param.GMI.ranges",
    "Cgl.Param.GMI.rejected",
    "Cgl.Param.RedSplit.ranges",
    "Cgl.Param.RedSplit.rejected",
    "Cgl.Param.RedSplit2.ranges",
    "Cgl.Param.RedSplit2.rejected",
    "Cgl.Param.Gomory.ranges",
    "Cgl.Param.Gomory.rejected",
    "Cgl.Param.Twomir.ranges",
    "Cgl.Param.Twomir.rejected",
    "Cgl.Param.Probing.ranges",
    "Cgl.Param.Probing.rejected",
    "Cgl.Param.Strat.lists_legal"
   ],
   "note": "CglParam, CglGMIParam, CglRedSplitParam, CglRedSplit2Param, CglGomory, CglTwomir, CglProbing; any number of objects, copies and assignments; the setters of CglOddHole are under C18, of the MIR generators and CglResidualCapacity under C20 and C43; NaN arguments are not modelled"
  },
  {
   "property": "C45",
   "status": "partial",
   "theorems": [
    "Cgl.Param.Base.readback",
    "Cgl.Param.GMI.readback",
    "Cgl.Param.Gomory.readback",
    "Cgl.Param.Twomir.readback",
    "Cgl.Param.Probing.readback",
    "Cgl.Param.RedSplit.readback_partial",
    "Cgl.Param.RedSplit2.readback_partial",
    "Cgl.Param.RedSplit2.readback_others_partial",
    "Cgl.Param.Strat.lists_readback",
    "Cgl.Param.RedSplit.maxdyn_not_read_back",
    "Cgl.Param.RedSplit2.max_supp_rel_changes_minviol",
    "Cgl.Param.RedSplit2.max_supp_rel_not_read_back"
   ],
   "note": "full for five classes and the strategy lists; false of CglRedSplitParam::getMAXDYN (returns MAXDYN_LUB) and CglRedSplit2Param::setMAX_SUPP_REL (writes MINVIOL), witnesses given, everything else proved"
  },
  {
   "property": "C24",
   "status": "partial",
   "theorems": [
    "Cgl.GMI.generateCuts_valid_partial",
    "Cgl.GMI.row_valid",
    "Cgl.GMI.dropped_invalid",
    "Cgl.GMI.integral_turned_round",
    "Cgl.GMI.elim_invalid",
    "Cgl.GMI.free_invalid",
    "Cgl.GMI.fractional_bound_invalid",
    "Cgl.Gomory.generateCuts_valid_partial",
    "Cgl.Gomory.fullRow_valid",
    "Cgl.Gomory.near_invalid",
    "Cgl.Gomory.rounding_invalid",
    "Cgl.Gomory.fixed_invalid",
    "Cgl.Gomory.dropped_invalid",
    "Cgl.Gomory.bound_invalid",
    "Cgl.Gomory.thin_reads_outside"
   ],
   "note": "CglGMI, whole generateCuts with all seven cleaning procedures, for any basis-inverse row, any sqrt and any rational approximation; proved when no tolerance comes into play; false of the code otherwise, with a witness for each condition; CglGomory, whole generateCuts with the rational cleaning (USE_CGL_RATIONAL 0), tidying and secondary cuts, in the same way; not modelled: the alternative with an original solver (gomoryType_)"
  },
  {
   "property": "C25",
   "status": "partial",
   "theorems": [
    "Cgl.GMI.cleanCut_relaxes_partial",
    "Cgl.GMI.cleanCut_integral_relaxes_partial",
    "Cgl.GMI.removeSmall_relaxes_partial",
    "Cgl.GMI.cleanCut_defined",
    "Cgl.GMI.dropped_invalid",
    "Cgl.GMI.clean_turned_round",
    "Cgl.GMI.integral_turned_round",
    "Cgl.GMI.rhs_zero_divides"
   ],
   "note": "all seven procedures; false of the code for small coefficients on unbounded columns and for the integral procedures, where a negative computed gcd turns the cut round (witnesses)"
  },
  {
   "property": "C46",
   "status": "proved",
   "theorems": [
    "Cgl.GMI.generateCuts_support",
    "Cgl.GMI.generateCuts_dynamism",
    "Cgl.GMI.generateCuts_violation",
    "Cgl.GMI.generateCuts_returns"
   ],
   "note": "the dynamism limit needs EPS_COEFF at least 1e-20 (default 1e-11)"
  },
  {
   "property": "C47",
   "status": "proved",
   "theorems": [
    "Cgl.GMI.scaleIntegral_gives_integers",
    "Cgl.GMI.computeGcd_natAbs",
    "Cgl.GMI.computeGcd_pos",
    "Cgl.GMI.computeGcd_none"
   ],
   "note": "CoinRational is outside /repo: any function; 64-bit overflow is a separate outcome of the model"
  },
  {
   "property": "C48",
   "status": "proved",
   "theorems": [
    "Cgl.Gomory.generateCuts_limit",
    "Cgl.Gomory.generateCuts_violated",
    "Cgl.Gomory.generateCuts_shape"
   ],
   "note": "both generalised by generateCuts_shape, which covers sorted candidates"
  },
  {
   "property": "C12",
   "status": "partial",
   "theorems": [
    "Cgl.TreeInfo.cleanup_keeps_partial",
    "Cgl.TreeInfo.cleanup_loses",
    "Cgl.TreeInfo.cleanup_ignores_direction",
    "Cgl.TreeInfo.cleanup_prefers_first",
    "Cgl.TreeInfo.cleanup_reads_outside"
   ],
   "note": "false of the code: cleanup_loses gives a problem made of cliques only for which the returned model admits an infeasible 0-1 point ({1,3} is taken for a subset of {1,2,4}); two more witnesses for entry directions and equality types, and one where the search reads past its array. Proved: with cliques of equal length and at most 10000 extra ones the clean-up ends, invents nothing and keeps a clique with the same columns for each."
  },
  {
   "property": "C49",
   "status": "proved",
   "theorems": [
    "Cgl.TreeInfo.analyze_keeps_points",
    "Cgl.TreeInfo.extra_cliques_fault"
   ],
   "note": "for problems whose nearly equal column bounds are equal (CleanRows); a positive number of extra cliques is undefined behaviour (extra_cliques_fault)"
  },
  {
   "property": "C28",
   "status": "partial",
   "theorems": [
    "Cgl.FlowCover.generateCuts_valid_partial",
    "Cgl.FlowCover.generateCuts_valid_upto_partial",
    "Cgl.FlowCover.Witness.free_row_invalid",
    "Cgl.FlowCover.Witness.tiny_rhs_invalid",
    "Cgl.FlowCover.Witness.tiny_lower_invalid",
    "Cgl.FlowCover.Witness.near_cancel_invalid"
   ],
   "note": "whole generator (row classification, variable bounds, cover search, both liftings, back substitution, merging); exact for data on a grid coarser than 1e-6, up to 1e-6 per column for any data; two-column rows, lower bounds and variable bounds must be outside the tolerances; false of the code without that, with witnesses: in particular free rows are taken for variable equality bounds"
  },
  {
   "property": "C50",
   "status": "proved",
   "theorems": [
    "Cgl.FlowCover.generateCuts_violated",
    "Cgl.FlowCover.generateCuts_shape"
   ],
   "note": "for well-formed problems (column indices in range)"
  },
  {
   "property": "C51",
   "status": "proved",
   "theorems": [
    "Cgl.FlowCover.generateCuts_limit",
    "Cgl.FlowCover.history_limit",
    "Cgl.FlowCover.zero_limit"
   ],
   "note": ""
  },
  {
   "property": "C52",
   "status": "proved",
   "theorems": [
    "Cgl.FlowCover.search_ends"
   ],
   "note": ""
  },
  {
   "property": "C53",
   "status": "partial",
   "theorems": [
    "Cgl.Param.Base.copy_eq",
    "Cgl.Param.Base.assign_eq",
    "Cgl.Param.GMI.copy_eq",
    "Cgl.Param.GMI.assign_eq",
    "Cgl.Param.RedSplit.copy_eq",
    "Cgl.Param.RedSplit.assign_eq",
    "Cgl.Param.RedSplit2.copy_eq",
    "Cgl.Param.RedSplit2.assign_eq",
    "Cgl.Param.Gomory.copy_eq",
    "Cgl.Param.Gomory.assign_eq",
    "Cgl.Param.Twomir.copy_eq",
    "Cgl.Param.Twomir.assign_eq",
    "Cgl.LandP.params_copy",
    "Cgl.LandP.params_assign_partial",
    "Cgl.LandP.params_assign_bug",
    "Cgl.LandP.assign_differs"
   ],
   "note": "numeric members; the strategy lists of CglRedSplit2Param are under C45; false of CglLandP::Parameters: assignment copies failedPivotLimit into degeneratePivotLimit (assign_differs)"
  },
  {
   "property": "C27",
   "status": "partial",
   "theorems": [
    "Cgl.Twomir.generateCuts_valid_partial",
    "Cgl.Twomir.two_step_core",
    "Cgl.Twomir.buildMir_holds",
    "Cgl.Twomir.build2step_holds",
    "Cgl.Twomir.Witness.negative_bound_invalid",
    "Cgl.Twomir.Witness.near_equality_invalid"
   ],
   "note": "whole generator (transformation, slack substitution, nicefication, one-step and two-step rounding with both signs and scalings, filtering, back transformation) for any tableau rows; proved when the tolerances do not come into play, for points whose integer columns are exactly integral; false of the code otherwise: small coefficients are padded with the bounds of the untransformed column (negative_bound_invalid)"
  },
  {
   "property": "C54",
   "status": "proved",
   "theorems": [
    "Cgl.Twomir.generateCuts_shape"
   ],
   "note": ""
  },
  {
   "property": "C55",
   "status": "partial",
   "theorems": [
    "Cgl.Twomir.generateCuts_returns_partial",
    "Cgl.Twomir.Witness.large_coefficient_undefined"
   ],
   "note": "for coefficients whose scaled value fits an int; otherwise int(100*x) overflows (witness)"
  },
  {
   "property": "C26",
   "status": "partial",
   "theorems": [
    "Cgl.RedSplit.generateCuts_valid_partial",
    "Cgl.RedSplit.combo_split",
    "Cgl.RedSplit.near_integer_invalid",
    "Cgl.RedSplit.dropped_invalid",
    "Cgl.RedSplit.eliminated_invalid",
    "Cgl.RedSplit.fractional_bound_invalid",
    "Cgl.RedSplit2.generateCuts_valid_partial",
    "Cgl.RedSplit2.generateCuts_valid_bounded_partial",
    "Cgl.RedSplit2.generateMultipliers_valid_partial",
    "Cgl.RedSplit2.wit_exact",
    "Cgl.RedSplit2.near_integer_invalid",
    "Cgl.RedSplit2.far_invalid",
    "Cgl.RedSplit2.fractional_bound_invalid",
    "Cgl.RedSplit2.lowered_infinit_invalid"
   ],
   "note": "both generators; CglRedSplit, whole generator for any tableau rows and any sqrt and cbrt; proved when no tolerance comes into play; false of the code with default parameters otherwise, with a witness for each condition; CglRedSplit2: whole generator for any row and column strategies and any solutions of its linear systems, proved when no tolerance comes into play and for points within 1e20"
  },
  {
   "property": "C56",
   "status": "proved",
   "theorems": [
    "Cgl.RedSplit.reduction_ends",
    "Cgl.RedSplit.reduceLoop_ends",
    "Cgl.RedSplit.reduceLoop_inv",
    "Cgl.RedSplit.reads_past_end"
   ],
   "note": "exact arithmetic; overflow of the int multipliers is a separate outcome of the model; reads_past_end shows a read of basis_index[nrow] when rows are subsampled"
  },
  {
   "property": "C57",
   "status": "partial",
   "theorems": [
    "Cgl.RedSplit.generateCuts_shape",
    "Cgl.RedSplit.generateCuts_cutsOff_partial",
    "Cgl.RedSplit.not_cut_off"
   ],
   "note": "shape and limits proved for all data; the violation when no tolerance comes into play, with a witness of an accepted cut that the LP solution satisfies"
  },
  {
   "property": "C34",
   "status": "partial",
   "theorems": [
    "Cgl.Conflict.bk_valid",
    "Cgl.Conflict.ow_valid",
    "Cgl.Conflict.strengthen_keeps_partial",
    "Cgl.Conflict.near_tie_cut_off"
   ],
   "note": "clique cuts and odd-wheel cuts for every problem, graph, LP solution and generator state, given the contracts of the CoinUtils searches (Conflict/Spec.lean); the rows of the strengthening when the coefficients of clique rows are equal or 1e-6 apart, false otherwise (near_tie_cut_off)"
  },
  {
   "property": "C58",
   "status": "partial",
   "theorems": [
    "Cgl.Conflict.strengthen_same_partial",
    "Cgl.Conflict.strengthen_adds_nothing_partial",
    "Cgl.Conflict.row_lost",
    "Cgl.Conflict.second_call"
   ],
   "note": "one call on a new object, clique rows that say no more than at most one; false for rows that exclude single literals (row_lost) and for a second call on the same object (second_call)"
  },
  {
   "property": "C59",
   "status": "proved",
   "theorems": [
    "Cgl.Conflict.bk_cutsOff",
    "Cgl.Conflict.reached_weight",
    "Cgl.Conflict.bk_case"
   ],
   "note": "LP solution within the bounds of the conflicting columns; the weights of the search are exact (the code stores them as double products)"
  },
  {
   "property": "C60",
   "status": "partial",
   "theorems": [
    "Cgl.Conflict.bk_returns",
    "Cgl.Conflict.ow_returns",
    "Cgl.Conflict.strengthen_returns_partial",
    "Cgl.Conflict.strengthenRows_returns_partial",
    "Cgl.Conflict.other_row",
    "Cgl.Conflict.no_elements",
    "Cgl.Conflict.long_name"
   ],
   "note": "the two generators for all histories; the strengthening on a new object with at least one element, names of at most 247 characters and listed rows that are clique rows, with a witness of a fault for each condition"
  },
  {
   "property": "C61",
   "status": "partial",
   "theorems": [
    "Cgl.Conflict.bk_copy",
    "Cgl.Conflict.ow_history",
    "Cgl.Conflict.ow_full_partial",
    "Cgl.Conflict.bk_history",
    "Cgl.Conflict.ow_copy",
    "Cgl.Conflict.negative_center"
   ],
   "note": "copies of CglBKClique and histories of CglOddWheel; false for histories of CglBKClique (bk_history), copies of CglOddWheel (ow_copy) and cycles with complemented columns (negative_center)"
  },
  {
   "property": "C29",
   "status": "partial",
   "theorems": [
    "Cgl.ZeroHalf.generate_valid_partial",
    "Cgl.ZeroHalf.generate_valid_global_partial",
    "Cgl.ZeroHalf.tri_case",
    "Cgl.ZeroHalf.tri_global",
    "Cgl.ZeroHalf.near_integer",
    "Cgl.ZeroHalf.deep_bound",
    "Cgl.ZeroHalf.stale_global",
    "Cgl.ZeroHalf.stale_rows"
   ],
   "note": "loading, weakening, rounding and the cut list for every sequence of cycles the graph search can return, after any history since refreshSolver; false of the code for coefficients within 1e-15 of an integer, bounds beyond the range of int, the global flag set after local calls, and a refresh with a problem without rows (witnesses)"
  },
  {
   "property": "C62",
   "status": "proved",
   "theorems": [
    "Cgl.ZeroHalf.generate_cutsOff",
    "Cgl.ZeroHalf.tri_case"
   ],
   "note": ""
  },
  {
   "property": "C63",
   "status": "proved",
   "theorems": [
    "Cgl.ZeroHalf.generate_neat",
    "Cgl.ZeroHalf.tri_case"
   ],
   "note": "problem with rows and column indices in range; calls with integer lower bounds below INT_MAX"
  },
  {
   "property": "C64",
   "status": "partial",
   "theorems": [
    "Cgl.ZeroHalf.generate_fault",
    "Cgl.ZeroHalf.generate_returns_partial",
    "Cgl.ZeroHalf.generate_returns_global_partial",
    "Cgl.ZeroHalf.refresh_returns_partial",
    "Cgl.ZeroHalf.tri_refreshes",
    "Cgl.ZeroHalf.explicit_zero",
    "Cgl.ZeroHalf.more_columns",
    "Cgl.ZeroHalf.no_cast",
    "Cgl.ZeroHalf.too_large"
   ],
   "note": "no exit, division by zero or failed assertion for any data; overflow and casts excluded when the numbers add up to less than INT_MAX; false of the code for explicit zeros, a different number of columns, bounds beyond int and large coefficients (witnesses). The graph search is not part of the model"
  },
  {
   "property": "C65",
   "status": "partial",
   "theorems": [
    "Cgl.ZeroHalf.generate_history_partial",
    "Cgl.ZeroHalf.refresh_forgets",
    "Cgl.ZeroHalf.copy_refresh",
    "Cgl.ZeroHalf.assign_refresh_partial",
    "Cgl.ZeroHalf.copy_silent",
    "Cgl.ZeroHalf.copy_case",
    "Cgl.ZeroHalf.assign_aborts",
    "Cgl.ZeroHalf.stale_global"
   ],
   "note": "histories with the global flag off at the call; a copy answers as the original only after refreshSolver and adds no cuts before (copy_silent); assignment to a loaded generator aborts (assign_aborts)"
  },
  {
   "property": "C30",
   "status": "partial",
   "theorems": [
    "Cgl.DupRow.generate4_valid_partial",
    "Cgl.DupRow.generate4_integer_partial",
    "Cgl.DupRow.outDuplicates4_keeps_partial",
    "Cgl.DupRow.outDuplicates4_exact_partial",
    "Cgl.DupRow.generate8_valid_partial",
    "Cgl.DupRow.outDuplicates8_exact_partial",
    "Cgl.DupRow.four_tame",
    "Cgl.DupRow.four_works",
    "Cgl.DupRow.mixed_tame",
    "Cgl.DupRow.eight_tame",
    "Cgl.DupRow.eight_works",
    "Cgl.DupRow.equality_lost",
    "Cgl.DupRow.no_subset_goes",
    "Cgl.DupRow.no_subset_fixes",
    "Cgl.DupRow.half_is_not_one",
    "Cgl.DupRow.near_row_lost",
    "Cgl.DupRow.huge_upper",
    "Cgl.DupRow.snapped",
    "Cgl.DupRow.slip_row_lost"
   ],
   "note": "both modes that do anything (4: pairs of short rows; 8: clique rows); generateCuts12 is never called. Mode 4: bounds valid for problems without the tolerance and loop-variable cases (Tame4), row removals for pure 0-1 problems with integral data; mode 8: for problems that are Tame8. False of the code otherwise, with witnesses"
  },
  {
   "property": "C66",
   "status": "proved",
   "theorems": [
    "Cgl.DupRow.generate_extends",
    "Cgl.DupRow.generate_signal",
    "Cgl.DupRow.generate_nothing",
    "Cgl.DupRow.default_generates_nothing",
    "Cgl.DupRow.outDuplicates_only_removes",
    "Cgl.DupRow.outDuplicates_nothing"
   ],
   "note": ""
  },
  {
   "property": "C67",
   "status": "partial",
   "theorems": [
    "Cgl.DupRow.history_copy",
    "Cgl.DupRow.history_loaded",
    "Cgl.DupRow.history_generate4_partial",
    "Cgl.DupRow.refresh_loads",
    "Cgl.DupRow.history_case",
    "Cgl.DupRow.second_call"
   ],
   "note": "copies and reported bounds in all histories with one matrix; false of the code for outDuplicates: a second call in mode 4 applies the flags of the first to the wrong rows and deletes rows that are needed (second_call)"
  },
  {
   "property": "C68",
   "status": "partial",
   "theorems": [
    "Cgl.DupRow.refresh_returns_partial",
    "Cgl.DupRow.mode4_returns_partial",
    "Cgl.DupRow.mode8_returns_partial",
    "Cgl.DupRow.returns_case",
    "Cgl.DupRow.past_the_end",
    "Cgl.DupRow.singletons_fail",
    "Cgl.DupRow.slip_faults",
    "Cgl.DupRow.low_column_aborts",
    "Cgl.DupRow.refresh_cast",
    "Cgl.DupRow.lower_cast",
    "Cgl.DupRow.never_refreshed",
    "Cgl.DupRow.other_modes"
   ],
   "note": "proved under conditions on the data; a witness of a fault for each condition: failed assertion for two singleton rows, read past arrays (loop over the wrong variable, subset search at the last clique), abort() for columns below -1e20, casts of large bounds, objects never refreshed"
  },
  {
   "property": "C31",
   "status": "partial",
   "theorems": [
    "Cgl.Probing.probing_tight_valid",
    "Cgl.Probing.probing_tight_valid_partial",
    "Cgl.Probing.probing_cuts_valid",
    "Cgl.Probing.probing_cuts_valid_partial",
    "Cgl.Probing.probing_infeasible",
    "Cgl.Probing.probing_infeasible_partial",
    "Cgl.Probing.probing_dualBound",
    "Cgl.Probing.fix_meets",
    "Cgl.Probing.cost_meets",
    "Cgl.Probing.infeasible_meets",
    "Cgl.Probing.strengthen_meets",
    "Cgl.Probing.snapped_bound",
    "Cgl.Probing.cost_moved",
    "Cgl.Probing.far_column",
    "Cgl.Probing.wrong_offset",
    "Cgl.Probing.maximise_infeasible"
   ],
   "note": "CglProbing modes 1 and 2 without snapshot; points feasible, within the objective limit, numbers below 1e20, integer columns below 12345678900. Unconditional for problems with integer columns only and rows not strengthened (the default setting); otherwise for calls in which no step rests on a tolerance (ExactRun). False of the code otherwise, with witnesses: continuous bounds snapped, columns moved for their cost, artificial bounds of integer columns, sign of the offset, maximising without a limit"
  },
  {
   "property": "C69",
   "status": "partial",
   "theorems": [
    "Cgl.Probing.probing_cuts_valid",
    "Cgl.Probing.probing_cuts_valid_partial",
    "Cgl.Probing.disaggregate_meets",
    "Cgl.Probing.strengthen_meets",
    "Cgl.Probing.dropped_coefficient",
    "Cgl.Probing.snapped_bound"
   ],
   "note": "CglProbing modes 1 and 2 without snapshot; points feasible, within the objective limit, numbers below 1e20, integer columns below 12345678900. Unconditional for problems with integer columns only and rows not strengthened (the default setting); otherwise for calls in which no step rests on a tolerance (ExactRun)"
  },
  {
   "property": "C70",
   "status": "partial",
   "theorems": [
    "Cgl.Probing.probing_implications",
    "Cgl.Probing.probing_implications_partial",
    "Cgl.Probing.disaggregate_meets"
   ],
   "note": "CglProbing modes 1 and 2 without snapshot; points feasible, within the objective limit, numbers below 1e20, integer columns below 12345678900. Unconditional for problems with integer columns only and rows not strengthened (the default setting); otherwise for calls in which no step rests on a tolerance (ExactRun)"
  },
  {
   "property": "C71",
   "status": "partial",
   "theorems": [
    "Cgl.Probing.probing_total",
    "Cgl.Probing.fix_meets",
    "Cgl.Probing.disaggregate_meets",
    "Cgl.Probing.unset_activities",
    "Cgl.Probing.fractional_bound",
    "Cgl.Probing.maximise_fails"
   ],
   "note": "proved when integer columns have integral bounds, the sizes are below 5e19 and there is a limit if the objective is maximised (Data, Tame); a witness of a fault for each condition. Assertions inside probe() and limits of the work arrays are not part of the model"
  },
  {
   "property": "C72",
   "status": "proved",
   "theorems": [
    "Cgl.Probing.probing_extends",
    "Cgl.Probing.probing_cut_limit",
    "Cgl.Probing.probing_columns_only",
    "Cgl.Probing.over_limit",
    "Cgl.Probing.strengthen_only"
   ],
   "note": "above the limit no row cut at all is inserted (over_limit); setRowCuts(2) finds no strengthened rows (strengthen_only)"
  },
  {
   "property": "C33",
   "status": "partial",
   "theorems": [
    "Cgl.LandP.landp_valid",
    "Cgl.LandP.landp_valid_plain",
    "Cgl.LandP.valid_case",
    "Cgl.LandP.pivot_case",
    "Cgl.LandP.plain_case",
    "Cgl.LandP.ranged_later_invalid",
    "Cgl.LandP.ranged_later_reachable",
    "Cgl.LandP.entering_invalid",
    "Cgl.LandP.fractional_bound_invalid",
    "Cgl.LandP.extra_column"
   ],
   "note": "whole generator: ranged rows turned into slack columns, any sequence of pivots, intersection cuts and strengthened cuts, modularized rows, extra cuts, validator; points of moderate size (sum of magnitudes at most 1e12), data not within a tolerance of something else. False of the code for ranged rows in any call but an object's first, extra cuts made when a variable enters the basis, integer columns with fractional bounds; extra cuts can mention columns that do not exist (witnesses). The choice of pivots is arbitrary in the model"
  },
  {
   "property": "C73",
   "status": "partial",
   "theorems": [
    "Cgl.LandP.landp_tests",
    "Cgl.LandP.empty_cut",
    "Cgl.LandP.valid_case"
   ],
   "note": "every new cut except the empty cut, which is added when neither attempt for a row gives a cut (empty_cut)"
  },
  {
   "property": "C74",
   "status": "partial",
   "theorems": [
    "Cgl.LandP.landp_limits",
    "Cgl.LandP.landp_state",
    "Cgl.LandP.landp_switched_off",
    "Cgl.LandP.switched_off_case"
   ],
   "note": "all but the last clause; that one is false: after a first call on a problem with ranged rows the object never generates a cut again (landp_switched_off)"
  },
  {
   "property": "C75",
   "status": "partial",
   "theorems": [
    "Cgl.LandP.landp_returns_partial",
    "Cgl.LandP.returns_case",
    "Cgl.LandP.extra_assertion",
    "Cgl.LandP.allMigs_fault",
    "Cgl.LandP.dynamic_throws",
    "Cgl.LandP.initial_costs_write"
   ],
   "note": "proved for the settings without extra cuts, other selection rule than initialReducedCosts, implemented normalization and a solver that keeps its contract; the other settings fail (witnesses)"
  },
  {
   "property": "C76",
   "status": "partial",
   "theorems": [
    "Cgl.LiftProject.liftAndProject_valid_partial",
    "Cgl.LiftProject.valid_case",
    "Cgl.LiftProject.continuous_invalid"
   ],
   "note": "whole generator with the layout of its arrays, any LP solver that is right when it claims optimality; rows with lower bounds, no gaps in the matrix, and no fractional value outside binary columns. False without the last condition (continuous_invalid): the column type is looked up with a left-over index"
  },
  {
   "property": "C77",
   "status": "proved",
   "theorems": [
    "Cgl.LiftProject.liftAndProject_adds",
    "Cgl.LiftProject.beta_pm_one",
    "Cgl.LiftProject.set_beta",
    "Cgl.LiftProject.valid_case",
    "Cgl.LiftProject.reachable_case"
   ],
   "note": ""
  },
  {
   "property": "C78",
   "status": "partial",
   "theorems": [
    "Cgl.LiftProject.liftAndProject_violation_partial",
    "Cgl.LiftProject.valid_case",
    "Cgl.LiftProject.not_violated"
   ],
   "note": "second half proved; the first is false of the code: the test for violation is not compiled, and a cut that the LP solution satisfies can be added (not_violated)"
  },
  {
   "property": "C79",
   "status": "partial",
   "theorems": [
    "Cgl.LiftProject.liftAndProject_returns_partial",
    "Cgl.LiftProject.valid_case",
    "Cgl.LiftProject.documented_fails",
    "Cgl.LiftProject.documented_case",
    "Cgl.LiftProject.gap_uninitialised",
    "Cgl.LiftProject.no_rows_fails"
   ],
   "note": "proved for fewer rows than columns, at least one row and no gaps; false of the code otherwise: every problem in the documented form with at least half of its columns binary makes the call read outside an array (documented_fails); gaps and no rows fail as well"
  },
  {
   "property": "C80",
   "status": "partial",
   "theorems": [
    "Cgl.RedSplit2.generateCuts_number",
    "Cgl.RedSplit2.generateCuts_shape",
    "Cgl.RedSplit2.generateCuts_violation",
    "Cgl.RedSplit2.generateCuts_cutsOff_partial",
    "Cgl.RedSplit2.wit_cuts",
    "Cgl.RedSplit2.wit_noDrop",
    "Cgl.RedSplit2.far_not_cut_off"
   ],
   "note": "all but the violation proved in full; the violation if no small coefficient is dropped, and false of the code otherwise: a cut that is not violated at all is added"
  },
  {
   "property": "C81",
   "status": "proved",
   "theorems": [
    "Cgl.RedSplit2.generateMultipliers_spec",
    "Cgl.RedSplit2.generateMultipliers_cuts",
    "Cgl.RedSplit2.wit_multipliers",
    "Cgl.RedSplit2.two_all"
   ],
   "note": "for any function in place of the LU decomposition"
  },
  {
   "property": "C82",
   "status": "partial",
   "theorems": [
    "Cgl.RedSplit2.generateCuts_returns_partial",
    "Cgl.RedSplit2.generateMultipliers_returns_partial",
    "Cgl.RedSplit2.wit_basis",
    "Cgl.RedSplit2.wit_survives",
    "Cgl.RedSplit2.tilt_useless",
    "Cgl.RedSplit2.tilt_fails",
    "Cgl.RedSplit2.skipped_rows_uninitialised",
    "Cgl.RedSplit2.zero_rows_outside",
    "Cgl.RedSplit2.huge_rhs_asserts",
    "Cgl.RedSplit2.support_overflow",
    "Cgl.RedSplit2.lambda_overflow",
    "Cgl.RedSplit2.tilt_outside"
   ],
   "note": "proved with a proper basis, right-hand sides below 1e100, rows shorter than maxNonzeroesTab, positive numbers of rows and limits whose products are ints; each condition is needed; tiltLandPcut never returns a tilted cut and fails whenever there is something to do"
  },
  {
   "property": "C83",
   "status": "proved",
   "theorems": [
    "Cgl.RedSplit2.workCols_partition",
    "Cgl.RedSplit2.workCols_ordered",
    "Cgl.RedSplit2.workCols_halves"
   ],
   "note": ""
  },
  {
   "property": "C84",
   "status": "proved",
   "theorems": [
    "Cgl.RedSplit2.generateMultipliers_best",
    "Cgl.RedSplit2.two_all",
    "Cgl.RedSplit2.two_best"
   ],
   "note": ""
  },
  {
   "property": "C85",
   "status": "partial",
   "theorems": [
    "Cgl.PreClique.cliqueIt_keeps",
    "Cgl.PreClique.cliqueIt_equiv_of_nodup",
    "Cgl.PreClique.cliqueIt_equiv_partial",
    "Cgl.PreClique.k4_sharesOne",
    "Cgl.PreClique.k4_shape",
    "Cgl.PreClique.twice_shape",
    "Cgl.PreClique.shared_pair_adds_points"
   ],
   "note": "no point is ever lost; none is added if no two clique rows share two columns (more generally, if no neighbourhood lists a column twice). False of the code otherwise: the search counts entries instead of columns, gives up a branch too early, and a row is deleted that no clique replaces (shared_pair_adds_points)"
  },
  {
   "property": "C86",
   "status": "partial",
   "theorems": [
    "Cgl.PreClique.cliqueIt_rows",
    "Cgl.PreClique.cliqueIt_all_cliques_partial",
    "Cgl.PreClique.bk_sound",
    "Cgl.PreClique.bk_unique",
    "Cgl.PreClique.bk_complete",
    "Cgl.PreClique.bk_depth",
    "Cgl.PreClique.k4_shape",
    "Cgl.PreClique.shared_pair_misses_clique",
    "Cgl.PreClique.shared_maximal"
   ],
   "note": "everything but \"none missing\" for every problem; that clause if no two clique rows share two columns, and false otherwise (shared_pair_misses_clique)"
  },
  {
   "property": "C87",
   "status": "partial",
   "theorems": [
    "Cgl.PreClique.cliqueIt_returns",
    "Cgl.PreClique.cliqueIt_null",
    "Cgl.PreClique.needed_overflow",
    "Cgl.PreClique.k4_all_needed"
   ],
   "note": "returns if the product of cliquesNeeded and the number of rows is an int and there are at most 21474836 rows; otherwise the conversion or a product overflows (needed_overflow)"
  },
  {
   "property": "C88",
   "status": "partial",
   "theorems": [
    "Cgl.PreTighten.tighten_keeps_feasible",
    "Cgl.PreTighten.tighten_negative_infeasible",
    "Cgl.PreTighten.demo_result",
    "Cgl.PreTighten.bad_ret",
    "Cgl.PreTighten.tighten_loses_point"
   ],
   "note": "row bounds infinite or at most 1e19, no explicit zeros, points of moderate size. In full for integer columns and for the return value; a continuous column may end up 1e-8 outside its new bounds, and then the point is lost (tighten_loses_point)"
  },
  {
   "property": "C89",
   "status": "partial",
   "theorems": [
    "Cgl.PreTighten.tighten_same_points_partial",
    "Cgl.PreTighten.demo_result",
    "Cgl.PreTighten.tighten_adds_point",
    "Cgl.PreTighten.tighten_adds_point_fractional"
   ],
   "note": "proved for integer columns with integral data and a tolerance that is small in proportion to the coefficients; false of the code with a larger tolerance (tighten_adds_point) and with fractional row bounds (tighten_adds_point_fractional)"
  },
  {
   "property": "C90",
   "status": "partial",
   "theorems": [
    "Cgl.PreTighten.tighten_shape",
    "Cgl.PreTighten.demo_result",
    "Cgl.PreTighten.tighten_loosens",
    "Cgl.PreTighten.silent_result"
   ],
   "note": "bounds are loosened by at most 1e-5, which does happen (tighten_loosens); the last clause is false of the code: bounds found by the first phase are not counted (silent_result)"
  },
  {
   "property": "C91",
   "status": "proved",
   "theorems": [
    "Cgl.UniqueCuts.insertions_accounted",
    "Cgl.UniqueCuts.account_sound",
    "Cgl.UniqueCuts.account_complete",
    "Cgl.UniqueCuts.account_count",
    "Cgl.UniqueCuts.unique_accounted",
    "Cgl.UniqueCuts.probing_accounted",
    "Cgl.UniqueCuts.demo_result",
    "Cgl.UniqueCuts.multiplier_zero"
   ],
   "note": "for every function in place of OsiRowCut hashing and comparison; positive hash multiplier (with 0 the first insertion reads outside the table, multiplier_zero)"
  },
  {
   "property": "C92",
   "status": "partial",
   "theorems": [
    "Cgl.UniqueCuts.collector_partial",
    "Cgl.UniqueCuts.erase_result",
    "Cgl.UniqueCuts.careful_result",
    "Cgl.UniqueCuts.noCollision_result",
    "Cgl.UniqueCuts.duplicates_held",
    "Cgl.UniqueCuts.unique_duplicates",
    "Cgl.UniqueCuts.probing_duplicates",
    "Cgl.UniqueCuts.collision_result",
    "Cgl.UniqueCuts.erase_last_fails",
    "Cgl.UniqueCuts.erase_collision_result",
    "Cgl.UniqueCuts.erase_outside_result",
    "Cgl.UniqueCuts.stale_result"
   ],
   "note": "proved for histories without collisions in the hash table that never erase the last cut and never fall back to a number erased before. False of the code otherwise, for every hash function: a colliding cut overwrites the entry of the other instead of being chained to it, so from every state with room for three cuts a cut can be held twice (duplicates_held); the last cut can never be erased (erase_last_fails); a cut erased earlier, offered again, may use a null pointer (stale_result)"
  },
  {
   "property": "C93",
   "status": "partial",
   "theorems": [
    "Cgl.UniqueCuts.addCuts_delivers",
    "Cgl.UniqueCuts.copy_full_partial",
    "Cgl.UniqueCuts.copy_fails",
    "Cgl.UniqueCuts.full_result",
    "Cgl.UniqueCuts.reuse_fails"
   ],
   "note": "addCuts proved; a copy is right only if the array is full, otherwise pointers that were never set are used (copy_fails); after addCuts, offering any cut that was held uses a null pointer (reuse_fails)"
  },
  {
   "property": "C94",
   "status": "partial",
   "theorems": [
    "Cgl.PreInteger.analyze_harmless",
    "Cgl.PreInteger.harmless_optimum",
    "Cgl.PreInteger.makeInteger_harmless_partial",
    "Cgl.PreInteger.sample_clean",
    "Cgl.PreInteger.sample_analyze",
    "Cgl.PreInteger.sample_make",
    "Cgl.PreInteger.sample_pairs",
    "Cgl.PreInteger.makeInteger_fails",
    "Cgl.PreInteger.linked_analyze",
    "Cgl.PreInteger.analyze_inexact_fails"
   ],
   "note": "analyze in full, if numbers within 1e-12 of an integer are integers (otherwise false: analyze_inexact_fails); makeInteger if nonnegative continuous columns linked by an equation are in no other row. False of makeInteger otherwise: for the second column of a pair it looks at the rows of the first (makeInteger_fails: the optimum of a clean problem changes from 1 to 2)"
  },
  {
   "property": "C95",
   "status": "partial",
   "theorems": [
    "Cgl.PreInteger.analyze_total",
    "Cgl.PreInteger.analyze_infeasible",
    "Cgl.PreInteger.analyze_count",
    "Cgl.PreInteger.analyze_complete",
    "Cgl.PreInteger.makeInteger_total",
    "Cgl.PreInteger.makeInteger_objective",
    "Cgl.PreInteger.makeInteger_complete",
    "Cgl.PreInteger.sample_analyze",
    "Cgl.PreInteger.sample_make",
    "Cgl.PreInteger.narrow_clean",
    "Cgl.PreInteger.narrow_infeasible",
    "Cgl.PreInteger.makeInteger_zeros_fails"
   ],
   "note": "everything for matrices without explicit zeros; with them makeInteger writes outside an array (makeInteger_zeros_fails). The number returned by analyze includes columns whose rounded bounds are equal, which are not declared integer (analyze_count)"
  },
  {
   "property": "C96",
   "status": "partial",
   "theorems": [
    "Cgl.PreFix.reducedCostFix_keeps_partial",
    "Cgl.PreFix.reducedCostFix_adds_nothing",
    "Cgl.PreFix.reducedCostFix_counts",
    "Cgl.PreFix.reducedCostFix_complete",
    "Cgl.PreFix.sample_optimal",
    "Cgl.PreFix.sample_fixes",
    "Cgl.PreFix.reducedCostFix_fails"
   ],
   "note": "the first clause if the bounds of integer columns are integers, and false otherwise (reducedCostFix_fails: every solution is lost); the other clauses in full"
  },
  {
   "property": "C97",
   "status": "partial",
   "theorems": [
    "Cgl.PreFix.someFixed_restricts",
    "Cgl.PreFix.someFixed_number",
    "Cgl.PreFix.someFixed_order",
    "Cgl.PreFix.someFixed_discards_partial",
    "Cgl.PreFix.someFixed_returns_partial",
    "Cgl.PreFix.four_fixes",
    "Cgl.PreFix.four_discards",
    "Cgl.PreFix.someFixed_fails",
    "Cgl.PreFix.someFixed_outside",
    "Cgl.PreFix.sorted_sorts"
   ],
   "note": "columns are only ever fixed at their lower bounds: a column to be discarded that is at its upper bound stays free (someFixed_fails); returns if some column is not a candidate, otherwise the upper bounds are read outside the array (someFixed_outside)"
  },
  {
   "property": "C98",
   "status": "partial",
   "theorems": [
    "Cgl.PreFix.update_follows",
    "Cgl.PreFix.passInRowTypes_follows",
    "Cgl.PreFix.passInProhibited_joins",
    "Cgl.PreFix.originalIndices_partial",
    "Cgl.PreFix.originalIndices_sorted",
    "Cgl.PreFix.originalIndices_none",
    "Cgl.PreFix.sample_update",
    "Cgl.PreFix.update_lost",
    "Cgl.PreFix.update_rows_fails",
    "Cgl.PreFix.update_new_row",
    "Cgl.PreFix.prohibited_replaced",
    "Cgl.PreFix.passes_original",
    "Cgl.PreFix.passes_fit",
    "Cgl.PreFix.originalIndices_fails",
    "Cgl.PreFix.originalIndices_null"
   ],
   "note": "for presolves that keep the order of columns and rows and do not remove prohibited columns; otherwise row types get mixed up (update_rows_fails), the original columns are the right ones in the wrong order (originalIndices_sorted, originalIndices_fails); a pass without a presolve before one with a presolve is a null pointer (originalIndices_null)"
  },
  {
   "property": "C99",
   "status": "partial",
   "theorems": [
    "Cgl.ProbCliques.createCliques_points",
    "Cgl.ProbCliques.createCliques_infeasible",
    "Cgl.ProbCliques.createCliques_fixes",
    "Cgl.ProbCliques.createCliques_sound_partial",
    "Cgl.ProbCliques.ex1_moderate",
    "Cgl.ProbCliques.ex1_wf",
    "Cgl.ProbCliques.ex3_moderate",
    "Cgl.ProbCliques.createCliques_fails",
    "Cgl.ProbCliques.createCliques_loses"
   ],
   "note": "for columns with equal bounds where the gap is below 1e-8 (otherwise points are lost: createCliques_loses) and numbers of moderate size. The truth of the cliques for rows with one finite bound, and for rows whose columns are not fixed by other rows; false of the code otherwise (createCliques_fails): after a column has been fixed, a row with two bounds is taken for a clique of the other kind"
  },
  {
   "property": "C100",
   "status": "partial",
   "theorems": [
    "Cgl.ProbCliques.createCliques_complete_upper",
    "Cgl.ProbCliques.createCliques_complete_lower",
    "Cgl.ProbCliques.createCliques_shape",
    "Cgl.ProbCliques.createCliques_lists",
    "Cgl.ProbCliques.createCliques_returns",
    "Cgl.ProbCliques.ex1_fits",
    "Cgl.ProbCliques.createCliques_casts"
   ],
   "note": "complete for rows whose columns are not fixed by other rows; returns if the row bounds fit into an int on the side where they matter, otherwise the conversion is undefined (createCliques_casts)"
  },
  {
   "property": "C101",
   "status": "partial",
   "theorems": [
    "Cgl.ProbCliques.setupRows_ok",
    "Cgl.ProbCliques.RowOk.atMost",
    "Cgl.ProbCliques.cliqueModel_points",
    "Cgl.ProbCliques.cliqueModel_same_partial",
    "Cgl.ProbCliques.tightenThese_spec",
    "Cgl.ProbCliques.cliqueModel_null",
    "Cgl.ProbCliques.cliqueModel_fake",
    "Cgl.ProbCliques.setupRows_alloc"
   ],
   "note": "if there are cliques (cliqueModel without cliques reads a null pointer; setupRowCliqueInformation after an infeasible problem allocates a negative size); cliqueModel of type 2 takes packed entries for columns (cliqueModel_fake); the same feasible points under the restriction of C99"
  },
  {
   "property": "C102",
   "status": "partial",
   "theorems": [
    "Cgl.ZHSearch.search_cycles",
    "Cgl.ZHSearch.offers_ok",
    "Cgl.ZHSearch.offers_complete",
    "Cgl.ZHSearch.graph_lightest",
    "Cgl.ZHSearch.weakOf_has",
    "Cgl.ZHSearch.forward_best",
    "Cgl.ZHSearch.tri_tidy",
    "Cgl.ZHSearch.tri_oddCycle",
    "Cgl.ZHSearch.search_overflow",
    "Cgl.ZHSearch.long_overflow"
   ],
   "note": "for rows with at most 46341 entries; with more the count of pairs overflows (search_overflow, long_overflow). Weights are counted in units of 1/10000 rounded down, as in the code"
  },
  {
   "property": "C103",
   "status": "proved",
   "theorems": [
    "Cgl.ZHSearch.search_storage",
    "Cgl.ZHSearch.graphOf_eq",
    "Cgl.ZHSearch.graphDense_eq",
    "Cgl.ZHSearch.graphSparse_eq"
   ],
   "note": ""
  },
  {
   "property": "C104",
   "status": "partial",
   "theorems": [
    "Cgl.ZHSearch.shortestPath_partial",
    "Cgl.ZHSearch.shortestPath_misses",
    "Cgl.ZHSearch.search_misses",
    "Cgl.ZHSearch.tri_oddCycle",
    "Cgl.ZHSearch.tri_search",
    "Cgl.ZHSearch.sortLib_lawful"
   ],
   "note": "distances are those of ways, and right for nodes whose shortest way is one arc; false of the code beyond that, for every implementation of the heap functions: the search stops when a node that was not reached is in front, because keys are lowered inside the heap (shortestPath_misses); three rows that give a cut violated by one half are missed (search_misses)"
  },
  {
   "property": "C105",
   "status": "partial",
   "theorems": [
    "Cgl.ZHSearch.search_cycles",
    "Cgl.ZHSearch.popHeap_precondition",
    "Cgl.ZHSearch.search_overflow",
    "Cgl.ZHSearch.long_overflow"
   ],
   "note": "no overflow for rows with at most 46341 entries, and overflow for longer rows of odd entries (search_overflow). The clause on std::pop_heap is false of the code for every implementation, already for one column (popHeap_precondition); search_cycles does not depend on what the heap functions do, only on the size of the vector"
  },
  {
   "property": "C106",
   "status": "partial",
   "theorems": [
    "Cgl.PostProc.postProcess_feasible",
    "Cgl.PostProc.run3",
    "Cgl.PostProc.linked3"
   ],
   "note": "for integer columns that postsolve leaves within 1e-3 of an integer (as the code asks for before it fixes them), without semi-continuous columns, for solvers that are honest about optimality and a postsolve that keeps integer columns rounding into their bounds; bounds tightened only by presolve (Linked). Feasibility holds for the bounds the user gave, not only for the tightened ones"
  },
  {
   "property": "C107",
   "status": "partial",
   "theorems": [
    "Cgl.PostProc.postProcess_no_worse",
    "Cgl.PostProc.run3"
   ],
   "note": "without semi-continuous columns; for honest solvers"
  },
  {
   "property": "C108",
   "status": "partial",
   "theorems": [
    "Cgl.PostProc.leftover_rows",
    "Cgl.PostProc.leftover_turn",
    "Cgl.PostProc.leftover_bounds",
    "Cgl.PostProc.leftover_beyond",
    "Cgl.PostProc.leftover_assertion"
   ],
   "note": "bounds in full if they are integers; false of the code otherwise (leftover_beyond: the bounds are not looked at, a column with upper bound 1/2 is fixed at 1). If the preprocessing has made a column integer, an assertion can fail (leftover_assertion)"
  },
  {
   "property": "C109",
   "status": "partial",
   "theorems": [
    "Cgl.PostProc.unsolved_iff",
    "Cgl.PostProc.unsolved_lower",
    "Cgl.PostProc.unsolved_silent"
   ],
   "note": "false of the code: the integer columns are fixed at their lower bounds and the user's model is solved; the result can be proven optimal, without a message, and is then a feasible point of the relaxation but not an optimum (unsolved_silent). What is proved is when this happens and what the solution is"
  },
  {
   "property": "C110",
   "status": "partial",
   "theorems": [
    "Cgl.PostProc.postProcess_returns",
    "Cgl.PostProc.hints_restored",
    "Cgl.PostProc.message_infeasible",
    "Cgl.PostProc.twice_null",
    "Cgl.PostProc.simple_unsolved_outside",
    "Cgl.PostProc.cutoff_lost"
   ],
   "note": "comes back if the passes are there and fit together, no column was made integer and there are no semi-continuous columns; false of the code for a second call after deleteStuff (twice_null) and for the simple mode with an unsolved reduced model (simple_unsolved_outside). The objective limit of the reduced model is always lost (cutoff_lost); hints and messages in full"
  },
  {
   "property": "C111",
   "status": "partial",
   "theorems": [
    "Cgl.PostProc.sc_fixed_or_low",
    "Cgl.PostProc.original_numbers",
    "Cgl.PostProc.sc_zero_lost",
    "Cgl.PostProc.original_numbers_order"
   ],
   "note": "the last clause is false of the code: a column that presolve has removed at 0 gets its low value as lower bound (sc_zero_lost: the user's model becomes infeasible); the numbers are right for presolves that keep the order of columns, and wrong otherwise (original_numbers_order)"
  },
  {
   "property": "C112",
   "status": "partial",
   "theorems": [
    "Cgl.MakeInts.makeIntegers2_harmless_partial",
    "Cgl.MakeInts.makeIntegers2_optimum_partial",
    "Cgl.MakeInts.makeIntegers2_fails",
    "Cgl.MakeInts.sample_answer",
    "Cgl.MakeInts.small_answer"
   ],
   "note": "for clean numbers and if no continuous column that is passed over (no cost; with mode above 1 only those in exactly one row) shares a row with another continuous column; false of the code otherwise, in every mode (makeIntegers2_fails: min x, x + z >= 1, z <= 1/2 goes from 1/2 to 1)"
  },
  {
   "property": "C113",
   "status": "proved",
   "theorems": [
    "Cgl.MakeInts.makeIntegers2_returns",
    "Cgl.MakeInts.makeIntegers2_frame",
    "Cgl.MakeInts.sample_answer"
   ],
   "note": "for all problems, without hypotheses"
  },
  {
   "property": "C114",
   "status": "proved",
   "theorems": [
    "Cgl.MakeInts.makeIntegers2_all_or_nothing",
    "Cgl.MakeInts.small_answer"
   ],
   "note": "for all problems, without hypotheses"
  },
  {
   "property": "C115",
   "status": "proved",
   "theorems": [
    "Cgl.Triple.triple_keeps",
    "Cgl.Triple.sample_answer",
    "Cgl.Triple.none_answer"
   ],
   "note": "for problems with nonzero coefficients up to 1e20, infinity at least 1e250 and points up to 1e200"
  },
  {
   "property": "C116",
   "status": "partial",
   "theorems": [
    "Cgl.Triple.triple_same_partial",
    "Cgl.Triple.triple_fails",
    "Cgl.Triple.separated_unit",
    "Cgl.Triple.sample_exact",
    "Cgl.Triple.sample_answer"
   ],
   "note": "if rows that agree in two columns agree in the third, and numbers within 1e-7 are equal; false of the code otherwise (triple_fails: x0 + x1 + x2 <= 1 is made free because of x0 + x1 - x2 <= 1)"
  },
  {
   "property": "C117",
   "status": "proved",
   "theorems": [
    "Cgl.Triple.triple_returns",
    "Cgl.Triple.triple_frame",
    "Cgl.Triple.sample_answer"
   ],
   "note": "for problems with nonzero coefficients up to 1e20 and infinity at least 1e250"
  },
  {
   "property": "C118",
   "status": "proved",
   "theorems": [
    "Cgl.Rebuild.useAnswers_same",
    "Cgl.Rebuild.steps_same",
    "Cgl.Rebuild.rebuild_same",
    "Cgl.Rebuild.single_same",
    "Cgl.Rebuild.prob_rebuilt",
    "Cgl.Rebuild.prob_applies"
   ],
   "note": "for problems with infinity between 1e20 and the largest double, nonzero coefficients that are multiples of 1/120 if they pass for such, finite row bounds below 1e20"
  },
  {
   "property": "C119",
   "status": "proved",
   "theorems": [
    "Cgl.Rebuild.implications_valid",
    "Cgl.Rebuild.implications_right",
    "Cgl.Rebuild.convert_right",
    "Cgl.Rebuild.implications_return",
    "Cgl.Rebuild.calls_give",
    "Cgl.Rebuild.calls_hold"
   ],
   "note": ""
  },
  {
   "property": "C120",
   "status": "partial",
   "theorems": [
    "Cgl.Rebuild.packTypes_partial",
    "Cgl.Rebuild.packed_counter",
    "Cgl.Rebuild.finish_types_partial",
    "Cgl.Rebuild.types_stale",
    "Cgl.Rebuild.types_assert"
   ],
   "note": "the types of kept rows are moved rightly and added rows get -1 if no row was dropped; false of the code once a row was dropped (a local counter hides the member): an added equation gets a stale type (types_stale), or the next change fails an assertion (types_assert)"
  },
  {
   "property": "C121",
   "status": "partial",
   "theorems": [
    "Cgl.Rebuild.useAnswers_returns_partial",
    "Cgl.Rebuild.unset_read",
    "Cgl.Rebuild.int_overflow",
    "Cgl.Rebuild.types_assert",
    "Cgl.Rebuild.prob_applies"
   ],
   "note": "if the problem has a solution, 120 times a coefficient fits into an int and there are no types of rows; false of the code otherwise (unset_read, int_overflow, types_assert)"
  },
  {
   "property": "C122",
   "status": "proved",
   "theorems": [
    "Cgl.Setup.scaled_same",
    "Cgl.Setup.scaleRow_ok",
    "Cgl.Setup.scaled_sat",
    "Cgl.Setup.prob_setup",
    "Cgl.Setup.prob_meets"
   ],
   "note": "for problems with infinity at least 1e30, row bounds infinite or at most 1e15, and row numbers that CoinRational does not recognise or recognises exactly, with numerators below 1e12 (Tidy); CoinRational is a parameter"
  },
  {
   "property": "C123",
   "status": "proved",
   "theorems": [
    "Cgl.Setup.setup_model_same",
    "Cgl.Setup.setup_infeasible",
    "Cgl.Setup.clean_box",
    "Cgl.Setup.cliques_ok",
    "Cgl.Setup.prob_setup",
    "Cgl.Setup.noPoint_none"
   ],
   "note": "hypotheses as in C122; columns that pass for fixed are fixed exactly"
  },
  {
   "property": "C124",
   "status": "partial",
   "theorems": [
    "Cgl.Setup.setup_start_same_partial",
    "Cgl.Setup.addSlacks_extends",
    "Cgl.Setup.prob_setup",
    "Cgl.Setup.prob_setup_all",
    "Cgl.Setup.skew_copy",
    "Cgl.Setup.skew_lost",
    "Cgl.Setup.crossed_feasible",
    "Cgl.Setup.packing_skipped"
   ],
   "note": "hypotheses as in C122, and for makeEquality 2 right hand sides that are integers if they pass for such; false of the code otherwise: the local row copy may be scaled while the row is not (skew_lost), and a row with crossed bounds becomes feasible (crossed_feasible)"
  },
  {
   "property": "C125",
   "status": "proved",
   "theorems": [
    "Cgl.Setup.setup_equations",
    "Cgl.Setup.prob_setup_all"
   ],
   "note": ""
  },
  {
   "property": "C126",
   "status": "partial",
   "theorems": [
    "Cgl.Setup.setup_returns_partial",
    "Cgl.Setup.prob_meets",
    "Cgl.Setup.huge_zero",
    "Cgl.Setup.huge_assert",
    "Cgl.Setup.zeroCoef_assert",
    "Cgl.Setup.primes_overflow"
   ],
   "note": "for known numbers with numerators below 1e12, denominators whose product fits into 64 bits, no stored zeros; false of the code otherwise (huge_assert, zeroCoef_assert, primes_overflow)"
  },
  {
   "property": "C127",
   "status": "proved",
   "theorems": [
    "Cgl.MoveObj.moveCosts_constant",
    "Cgl.MoveObj.moveCosts_order",
    "Cgl.MoveObj.start_objective_partial",
    "Cgl.MoveObj.start_meets",
    "Cgl.MoveObj.zeroed_moved",
    "Cgl.MoveObj.zeroed_value"
   ],
   "note": "no stored zeros, finite right hand sides of equations; start_objective_partial joins it with the slack columns of Setup (hypotheses of C124)"
  },
  {
   "property": "C128",
   "status": "partial",
   "theorems": [
    "Cgl.MoveObj.moveCosts_value_partial",
    "Cgl.MoveObj.moveCosts_value_zero",
    "Cgl.MoveObj.zeroed_value",
    "Cgl.MoveObj.negated_right",
    "Cgl.MoveObj.wrong_plus",
    "Cgl.MoveObj.wrong_minus",
    "Cgl.MoveObj.value_not_kept"
   ],
   "note": "for equations with right hand side 0 or costs with the signs of their coefficients; false of the code otherwise: the offset gets the wrong sign (wrong_plus, wrong_minus)"
  },
  {
   "property": "C129",
   "status": "proved",
   "theorems": [
    "Cgl.MoveObj.moveRow_moved",
    "Cgl.MoveObj.zeroed_moved",
    "Cgl.MoveObj.zeroed_small",
    "Cgl.MoveObj.not_moved"
   ],
   "note": "for costs below COIN_DBL_MAX in size, which is used as a mark"
  },
  {
   "property": "C130",
   "status": "partial",
   "theorems": [
    "Cgl.CutRows.treat_points_partial",
    "Cgl.CutRows.exchange_sound",
    "Cgl.CutRows.three_meets",
    "Cgl.CutRows.three_useless",
    "Cgl.CutRows.not_points"
   ],
   "note": "under the conditions of C30 on mode 8 of CglDuplicateRow for the problem with the cuts (Tame8); false of the code without them: a clique that sticks out of a longer one is dropped (not_points)"
  },
  {
   "property": "C131",
   "status": "partial",
   "theorems": [
    "Cgl.CutRows.treat_stops_partial",
    "Cgl.CutRows.three_meets",
    "Cgl.CutRows.never_ends",
    "Cgl.CutRows.not_stops"
   ],
   "note": "if no clique cut has the same columns as another clique; false of the code otherwise: a cut that is a copy of a row makes a loop run forever (never_ends)"
  },
  {
   "property": "C132",
   "status": "proved",
   "theorems": [
    "Cgl.CutRows.treat_rows",
    "Cgl.CutRows.three_meets",
    "Cgl.CutRows.three_useless"
   ],
   "note": ""
  },
  {
   "property": "C133",
   "status": "proved",
   "theorems": [
    "Cgl.Snapshot.snapshot_keeps",
    "Cgl.Snapshot.snapshot_code",
    "Cgl.Snapshot.two_meets",
    "Cgl.Snapshot.two_unwanted",
    "Cgl.Snapshot.none_code"
   ],
   "note": "matrix without explicit zeros, integral bounds of integer columns, no cliques in the generator"
  },
  {
   "property": "C134",
   "status": "proved",
   "theorems": [
    "Cgl.Snapshot.snapshot_redundant",
    "Cgl.Snapshot.snapshot_bounds",
    "Cgl.Snapshot.snapshot_array",
    "Cgl.Snapshot.two_meets",
    "Cgl.Snapshot.two_unwanted",
    "Cgl.Snapshot.not_redundant"
   ],
   "note": "without the allowance for integer columns it is false of the code: a row violated by 50 is marked (not_redundant)"
  },
  {
   "property": "C135",
   "status": "partial",
   "theorems": [
    "Cgl.Snapshot.snapshot_whole_partial",
    "Cgl.Snapshot.snapshot_objective_partial",
    "Cgl.Snapshot.two_meets",
    "Cgl.Snapshot.not_objective",
    "Cgl.Snapshot.again_lost",
    "Cgl.Snapshot.again_unmarked"
   ],
   "note": "for the first call and without the objective; false of the code otherwise: the bounds of the row for the objective are never written (not_objective), and a second call loses all rows (again_lost)"
  },
  {
   "property": "C136",
   "status": "partial",
   "theorems": [
    "Cgl.ProbingLife.life_partial",
    "Cgl.ProbingLife.shrinking_partial",
    "Cgl.ProbingLife.snapshot_once",
    "Cgl.ProbingLife.plain_meets",
    "Cgl.ProbingLife.shrinking_meets",
    "Cgl.ProbingLife.once_meets",
    "Cgl.ProbingLife.not_more",
    "Cgl.ProbingLife.not_shrunk",
    "Cgl.ProbingLife.not_copied",
    "Cgl.ProbingLife.not_safe",
    "Cgl.ProbingLife.snapshot_destroy",
    "Cgl.ProbingLife.snapshot_copy",
    "Cgl.ProbingLife.snapshot_twice",
    "Cgl.ProbingLife.snapshot_again"
   ],
   "note": "for histories without snapshots with one number of columns, or of generateCuts and copies with numbers of columns that never grow, and for one call after a snapshot; false of the code otherwise (not_safe, not_copied, snapshot_destroy, snapshot_copy, snapshot_twice, snapshot_again)"
  },
  {
   "property": "C137",
   "status": "partial",
   "theorems": [
    "Cgl.ProbingLife.list_partial",
    "Cgl.ProbingLife.plain_meets",
    "Cgl.ProbingLife.not_list"
   ],
   "note": "for histories that begin with generateCuts, on problems with one number of columns; false of the code otherwise (not_list)"
  },
  {
   "property": "C138",
   "status": "partial",
   "theorems": [
    "Cgl.DomCols.dominated_partial",
    "Cgl.DomCols.cover_meets",
    "Cgl.DomCols.not_gain",
    "Cgl.DomCols.not_negative",
    "Cgl.DomCols.not_max"
   ],
   "note": "for minimisation, if no column may be negative and each column with a negative cost is in a row with a continuous column; false of the code otherwise (not_gain, not_negative, not_max)"
  },
  {
   "property": "C139",
   "status": "partial",
   "theorems": [
    "Cgl.DomCols.fix_only",
    "Cgl.DomCols.fix_feasible",
    "Cgl.DomCols.cover_feasible",
    "Cgl.DomCols.not_crossed"
   ],
   "note": "what is fixed is proved for all problems; feasible points if no upper bound is negative, false of the code otherwise (not_crossed)"
  },
  {
   "property": "C140",
   "status": "partial",
   "theorems": [
    "Cgl.Vub.vub_partial",
    "Cgl.Vub.sample_meets",
    "Cgl.Vub.not_bound",
    "Cgl.Vub.not_unit"
   ],
   "note": "if in rows with two columns integer columns have finite integer bounds and continuous columns with finite upper bounds have coefficients 1 or -1 and integer upper bounds; false of the code otherwise (not_bound, not_unit)"
  },
  {
   "property": "C141",
   "status": "proved",
   "theorems": [
    "Cgl.Vub.vub_feasible",
    "Cgl.Vub.vub_only",
    "Cgl.Vub.sample_meets"
   ],
   "note": ""
  },
  {
   "property": "C142",
   "status": "partial",
   "theorems": [
    "Cgl.MadeCont.cont_keeps",
    "Cgl.MadeCont.cont_only",
    "Cgl.MadeCont.cont_partial",
    "Cgl.MadeCont.sample_meets",
    "Cgl.MadeCont.not_whole"
   ],
   "note": "no point is lost, and what changes, for all problems; no point is added if equations in integer columns have integer coefficients and right hand sides; false of the code otherwise (not_whole)"
  },
  {
   "property": "C143",
   "status": "proved",
   "theorems": [
    "Cgl.Finish.sos_valid",
    "Cgl.Finish.sos_disjoint",
    "Cgl.Finish.sos_complete",
    "Cgl.Finish.sos_all",
    "Cgl.Finish.sets_meet",
    "Cgl.Finish.cover_meets",
    "Cgl.Finish.overlap_none",
    "Cgl.Finish.not_disjoint"
   ],
   "note": "in every feasible point one column of a set is 1, for all problems and options; sets overlap only with allToGub (not_disjoint)"
  },
  {
   "property": "C144",
   "status": "proved",
   "theorems": [
    "Cgl.Finish.cuts_points",
    "Cgl.Finish.cuts_rows",
    "Cgl.Finish.cuts_meet"
   ],
   "note": "for all problems, types and points"
  },
  {
   "property": "C145",
   "status": "partial",
   "theorems": [
    "Cgl.Finish.clean_near",
    "Cgl.Finish.clean_keeps",
    "Cgl.Finish.off_meets",
    "Cgl.Finish.kept_meets",
    "Cgl.Finish.not_kept"
   ],
   "note": "rows hold up to 1e-13 in both directions for all problems; no point is lost if rows in integer columns have integer coefficients; false of the code otherwise (not_kept)"
  },
  {
   "property": "C146",
   "status": "proved",
   "theorems": [
    "Cgl.Relax.relax_bounds",
    "Cgl.Relax.relax_points",
    "Cgl.Relax.fixed_meets",
    "Cgl.Relax.not_inside"
   ],
   "note": "for all problems whose bounds are within those of the user; a point can be lost otherwise (not_inside)"
  },
  {
   "property": "C147",
   "status": "partial",
   "theorems": [
    "Cgl.ProcLife.life_partial",
    "Cgl.ProcLife.app_partial",
    "Cgl.ProcLife.careful_meets",
    "Cgl.ProcLife.careful_odd",
    "Cgl.ProcLife.not_copy",
    "Cgl.ProcLife.not_assign",
    "Cgl.ProcLife.not_clean",
    "Cgl.ProcLife.not_infeasible",
    "Cgl.ProcLife.not_app",
    "Cgl.ProcLife.not_odd",
    "Cgl.ProcLife.not_user"
   ],
   "note": "for all histories in which only complete objects without application data are copied, a cleaned object is preprocessed before anything else, and an object preprocessed with 99 passes is only destroyed, assigned to, given data or preprocessed so again; false of the code otherwise, with seven kinds of histories"
  },
  {
   "property": "C148",
   "status": "partial",
   "theorems": [
    "Cgl.Clique.alike_set",
    "Cgl.Clique.alike_partial",
    "Cgl.Clique.alike_same",
    "Cgl.Clique.settings_stay",
    "Cgl.Clique.alike_meets",
    "Cgl.Clique.not_alike"
   ],
   "note": "if the user has set the violation, or all solvers have the same primal tolerance, or no earlier call returned early; false of the code otherwise (not_alike)"
  },
  {
   "property": "C149",
   "status": "partial",
   "theorems": [
    "Cgl.Clique.fake_valid_partial",
    "Cgl.Clique.fake_rows",
    "Cgl.Clique.fake_meets",
    "Cgl.Clique.not_point"
   ],
   "note": "rows and cliques; the cuts of the probing object are not modelled; with Clp the reduced costs take the place of the point (not_point)"
  },
  {
   "property": "C150",
   "status": "partial",
   "theorems": [
    "Cgl.Clique.fake_life_partial",
    "Cgl.Clique.fake_none_partial",
    "Cgl.Clique.fake_late",
    "Cgl.Clique.fake_away"
   ],
   "note": "for objects made with a solver and never given NULL, or made without and never given one; false of the code otherwise (fake_late, fake_away)"
  },
  {
   "property": "C151",
   "status": "partial",
   "theorems": [
    "Cgl.Original.original_partial",
    "Cgl.Original.original_meets",
    "Cgl.Original.not_type",
    "Cgl.Original.not_two",
    "Cgl.Original.not_swap",
    "Cgl.Original.not_fewer"
   ],
   "note": "for careful calls; false of the code otherwise: type 0 with a problem, type 2 without one, problems swapped in, problems with other columns"
  },
  {
   "property": "C152",
   "status": "partial",
   "theorems": [
    "Cgl.Useless.call_partial",
    "Cgl.Useless.call_cuts",
    "Cgl.Useless.price_eq",
    "Cgl.Useless.call_meets",
    "Cgl.Useless.not_restored"
   ],
   "note": "if Clp solves the changed problem; otherwise earlier cuts are kept (call_cuts) but the objective is not put back (not_restored)"
  }
 ]
}