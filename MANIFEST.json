{
 "claims": [
  {
   "property": "C01",
   "status": "proved",
   "theorems": [
    "Optima.Steps.conservativeStep_inBox",
    "Optima.Steps.conservativeStep_alpha_greatest",
    "Optima.Steps.conservativeStep_value",
    "Optima.Steps.conservativeStep_limiting"
   ],
   "note": ""
  },
  {
   "property": "C02",
   "status": "proved",
   "theorems": [
    "Optima.Steps.aggressiveStep_projection"
   ],
   "note": ""
  },
  {
   "property": "C03",
   "status": "proved",
   "theorems": [
    "Optima.Steps.largestStep_spec",
    "Optima.Steps.stepUpToBounds_eq_largestStep",
    "Optima.Steps.largestStep0_spec_partial",
    "Optima.Steps.largestStep0_ignores_zero_entries",
    "Optima.Steps.lessThan_greaterThan_total",
    "Optima.Steps.lessThan_tolerance"
   ],
   "note": "the statement (the version with bounds) is proved; the version largestStep(p, dp) without bounds ignores zero entries of p: largestStep0_ignores_zero_entries"
  },
  {
   "property": "C04",
   "status": "proved",
   "theorems": [
    "Optima.Steps.fractionToTheBoundary_greatest",
    "Optima.Steps.fractionToTheLowerBoundary_greatest",
    "Optima.Steps.fractionToTheBoundaryC_greatest"
   ],
   "note": ""
  },
  {
   "property": "C05",
   "status": "partial",
   "theorems": [
    "Optima.Rational.farey_spec",
    "Optima.Rational.farey_exact",
    "Optima.Rational.farey_not_closest",
    "Optima.Rational.rational_small_partial",
    "Optima.Rational.rational_large_partial",
    "Optima.Rational.rational_zero_denominator",
    "Optima.Rational.ratio_exact_small_partial",
    "Optima.Rational.ratio_exact_large_partial",
    "Optima.Rational.ratio_not_exact_large",
    "Optima.Rational.rationalize_fixes"
   ],
   "note": "'closest fraction' and 'non-zero denominator' are false: negations proved with witnesses"
  },
  {
   "property": "C06",
   "status": "proved",
   "theorems": [
    "Optima.Brent.brent_safe",
    "Optima.Brent.brent_zero_budget",
    "Optima.Brent.brent_accurate",
    "Optima.Brent.brent_control",
    "Optima.Brent.brent_best_three",
    "Optima.Brent.parabola_exact",
    "Optima.Brent.quadratic_step",
    "Optima.Brent.brentM_safe",
    "Optima.Brent.brentM_pure"
   ],
   "note": ""
  },
  {
   "property": "C07",
   "status": "partial",
   "theorems": [
    "Optima.Golden.golden_safe_partial",
    "Optima.Golden.golden_terminates_partial",
    "Optima.Golden.golden_accurate_partial",
    "Optima.Golden.golden_never_ends"
   ],
   "note": "proved for tol >= 5e-13; for tol <= 1e-14 the truncated golden ratio makes the search run forever: negation proved"
  },
  {
   "property": "C08",
   "status": "proved",
   "theorems": [
    "Optima.Utils.inverseShermanMorrison_spec",
    "Optima.Utils.inverseShermanMorrison_sound",
    "Optima.Utils.inverseShermanMorrison_breakdown"
   ],
   "note": ""
  },
  {
   "property": "C09",
   "status": "proved",
   "theorems": [
    "Optima.Utils.bfgs_symmetric",
    "Optima.Utils.bfgs_first",
    "Optima.Utils.bfgs_secant",
    "Optima.Utils.bfgs_posdef"
   ],
   "note": ""
  },
  {
   "property": "C10",
   "status": "proved",
   "theorems": [
    "Optima.Utils.cleanVec_spec",
    "Optima.Utils.cleanMat_spec",
    "Optima.Utils.multiplyClean_spec"
   ],
   "note": ""
  },
  {
   "property": "C11",
   "status": "partial",
   "theorems": [
    "Optima.Utils.shiftAssign_expands_partial",
    "Optima.Utils.shiftAssign_size",
    "Optima.Utils.shiftAssign_zero_keeps_target",
    "Optima.Utils.rectangular_reported_zero",
    "Optima.Utils.matrixStructure_spec",
    "Optima.Utils.ensureMinimumDimension_spec"
   ],
   "note": "zero and rectangular sources: negations proved"
  },
  {
   "property": "C12",
   "status": "partial",
   "theorems": [
    "Optima.Idx.moveLeftIf_splits",
    "Optima.Idx.moveRightIf_splits",
    "Optima.Idx.moveIntersectionRight_splits",
    "Optima.Idx.moveIntersectionLeft_splits_partial",
    "Optima.Idx.moveIntersectionLeft_empty",
    "Optima.Idx.stable_keeps_order",
    "Optima.Idx.stable_not_order_of_p",
    "Optima.Idx.difference_spec",
    "Optima.Idx.isIntersectionEmpty_spec"
   ],
   "note": "moveIntersectionLeft with an empty selection: negation proved"
  },
  {
   "property": "C13",
   "status": "partial",
   "theorems": [
    "Optima.StablePart.partition_always",
    "Optima.StablePart.last_call_wins_partial",
    "Optima.StablePart.partition_assert",
    "Optima.StablePart.setStable_empty"
   ],
   "note": "setStable of an empty set: negation proved"
  },
  {
   "property": "C14",
   "status": "partial",
   "theorems": [
    "Optima.Stab.update_exact_partial",
    "Optima.Stab.update_assert",
    "Optima.Stab.update_no_basics",
    "Optima.Stab.update_no_basics_witness"
   ],
   "note": "empty basis: negation proved"
  },
  {
   "property": "C15",
   "status": "partial",
   "theorems": [
    "Optima.Ech.echelon_history_partial",
    "Optima.Ech.echelon_full_row_rank",
    "Optima.Ech.echelon_same_kernel",
    "Optima.Ech.bottom_rows_not_zero"
   ],
   "note": "the last rows of R*A*Q are not zero with dependent rows: negation proved"
  },
  {
   "property": "C16",
   "status": "proved",
   "theorems": [
    "Optima.Ech.swap_exchanges",
    "Optima.Ech.swap_assertion"
   ],
   "note": ""
  },
  {
   "property": "C17",
   "status": "partial",
   "theorems": [
    "Optima.Ech.priority_descending",
    "Optima.Ech.priority_max_weight_partial",
    "Optima.Ech.priority_max_weight_threshold_zero",
    "Optima.Ech.priority_not_optimal_below_threshold"
   ],
   "note": "needs no entries strictly between zero and the threshold; negation proved otherwise"
  },
  {
   "property": "C18",
   "status": "partial",
   "theorems": [
    "Optima.Ech.extended_history_partial",
    "Optima.Ech.extended_matrix",
    "Optima.Ech.extended_same_kernel",
    "Optima.Ech.extended_numEquations",
    "Optima.Ech.numEquations_stale",
    "Optima.Ech.extended_max_weight_partial"
   ],
   "note": "zero rows and numEquations after a return to an empty J: negations proved"
  },
  {
   "property": "C19",
   "status": "partial",
   "theorems": [
    "Optima.Ech.echelonW_spec",
    "Optima.Ech.echelonW_ok",
    "Optima.Ech.echelonW_assert_without_linear_constraints"
   ],
   "note": "debug assertion fails without linear constraints (negation proved); nx = 0 with nz > 0 is a size mismatch, nx = ny = 0 the use of an uninitialised rank"
  },
  {
   "property": "C20",
   "status": "proved",
   "theorems": [
    "Optima.canonicalize_error_iff",
    "Optima.canonicalize_spec",
    "Optima.canonical_echelon",
    "Optima.canonicalize_duplicates"
   ],
   "note": ""
  },
  {
   "property": "C21",
   "status": "partial",
   "theorems": [
    "Optima.LU.lu_solve",
    "Optima.LU.lu_solve_degenerate_partial",
    "Optima.LU.lu_discarded_bound",
    "Optima.LU.lu_discarded_unknown_not_zero",
    "Optima.LU.lu_rank_stale",
    "Optima.LU.lu_factorization",
    "Optima.LU.lu_reportedQ_wrong"
   ],
   "note": "discarded unknowns are not exactly zero, rank() is stale for n = 1 and Q() is transposed: negations proved with witnesses"
  },
  {
   "property": "C22",
   "status": "proved",
   "theorems": [
    "Optima.fullspace_solves",
    "Optima.fullspace_injective"
   ],
   "note": ""
  },
  {
   "property": "C23",
   "status": "proved",
   "theorems": [
    "Optima.nullspace_solves",
    "Optima.nullspace_complete",
    "Optima.nullspace_injective"
   ],
   "note": ""
  },
  {
   "property": "C24",
   "status": "partial",
   "theorems": [
    "Optima.rangespace_solves_iff",
    "Optima.rangespace_solves_partial",
    "Optima.rangespace_injective_partial",
    "Optima.explicit_zero_pivot_singular",
    "Optima.rangespace_wrong"
   ],
   "note": "false with explicit basic variables (block M33 has the wrong sign): rangespace_solves_iff says exactly when the result is right, rangespace_wrong is a witness"
  },
  {
   "property": "C25",
   "status": "partial",
   "theorems": [
    "Optima.linearSolver_solves_partial",
    "Optima.linearSolver_lu_partial",
    "Optima.linearSolver_rangespace_wrong",
    "Optima.solvesMaster_iff"
   ],
   "note": "full-space and null-space methods; the range-space method only without explicit basic variables (negation proved otherwise)"
  },
  {
   "property": "C26",
   "status": "proved",
   "theorems": [
    "Optima.dense_spec",
    "Optima.mul_eq_dense",
    "Optima.trMul_eq_dense"
   ],
   "note": ""
  },
  {
   "property": "C27",
   "status": "proved",
   "theorems": [
    "Optima.residual_master",
    "Optima.residual_canonical",
    "Optima.residual_canonical_exact"
   ],
   "note": ""
  },
  {
   "property": "C28",
   "status": "proved",
   "theorems": [
    "Optima.error_le_iff",
    "Optima.errors_reported",
    "Optima.small_error",
    "Optima.small_error_feasible",
    "Optima.rfUpdate_small_error",
    "Optima.rfUpdate_small_error_feasible",
    "Optima.error_ignores_dependent_rows",
    "Optima.error_ignores_basic_on_bound"
   ],
   "note": "the last two theorems show what a small error does not guarantee"
  },
  {
   "property": "C29",
   "status": "partial",
   "theorems": [
    "Optima.solve_inBounds_partial",
    "Optima.errorControl_ok",
    "Optima.nan_passes_bounds"
   ],
   "note": "proved for all numbers that are linearly ordered, with arbitrary arithmetic (rounding, infinities); false if the Newton step is not a number: negation proved"
  },
  {
   "property": "C30",
   "status": "partial",
   "theorems": [
    "Optima.solve_trace_partial",
    "Optima.solve_ignores_outside_partial",
    "Optima.transform_evaluates_outside",
    "Optima.solve_evaluates_outside"
   ],
   "note": "true without a transformation function (the only case reachable through Solver); false with one: negation proved with a witness"
  },
  {
   "property": "C31",
   "status": "proved",
   "theorems": [
    "Optima.solve_budget",
    "Optima.loop_terminates"
   ],
   "note": "for every type of numbers, including rounding, infinities and NaN"
  },
  {
   "property": "C32",
   "status": "proved",
   "theorems": [
    "Optima.success_converged",
    "Optima.solve_history_independent"
   ],
   "note": "for every type of numbers, including rounding, infinities and NaN"
  },
  {
   "property": "C33",
   "status": "proved",
   "theorems": [
    "Optima.transform_spec"
   ],
   "note": ""
  },
  {
   "property": "C34",
   "status": "partial",
   "theorems": [
    "Optima.lineSearch_spec",
    "Optima.lineSearch_assert",
    "Optima.descent_test_inverted",
    "Optima.newton_rejected",
    "Optima.lineSearchM_spec",
    "Optima.lineSearchM_pure",
    "Optima.lineSearch_no_worse_partial",
    "Optima.lineSearch_worse"
   ],
   "note": "the descent test is inverted (negations proved); the point is a convex combination in all cases, but the error at the end can exceed that of the full step, as the error of a point depends on the points evaluated before (negation proved); not larger where the basic variables are determined by the point"
  },
  {
   "property": "C35",
   "status": "partial",
   "theorems": [
    "Optima.errorStatus_values",
    "Optima.errorStatus_flags",
    "Optima.errorStatus_first",
    "Optima.errorStatus_nonfinite",
    "Optima.errorStatus_sanity_init",
    "Optima.errorStatus_sanity_fails",
    "Optima.rate_spec",
    "Optima.rate_current_partial",
    "Optima.rate_mixes_solves",
    "Optima.converged_iff_last",
    "Optima.converged_asks_iff"
   ],
   "note": "flags proved; the rate mixes errors of several solves (negation proved)"
  },
  {
   "property": "C36",
   "status": "partial",
   "theorems": [
    "Optima.plus_all_partial",
    "Optima.plus_drops_counters",
    "Optima.plus_not_sum",
    "Optima.result_error_wrong"
   ],
   "note": "+= drops nine counters and times, result.error is never set: negations proved"
  },
  {
   "property": "C37",
   "status": "partial",
   "theorems": [
    "Optima.slack_feasible_partial",
    "Optima.slack_objective",
    "Optima.slack_kkt_partial",
    "Optima.master_vals",
    "Optima.slack_feasible_stale"
   ],
   "note": "for a correctly assembled matrix of the master problem (always without stale memory, see C44)"
  },
  {
   "property": "C38",
   "status": "partial",
   "theorems": [
    "Optima.unpack_pack",
    "Optima.pack_unpack",
    "Optima.unpack_s",
    "Optima.realIndices_perm",
    "Optima.realIndices_order_partial",
    "Optima.realIndices_order_lost",
    "Optima.solver_indices"
   ],
   "note": "contents of the index sets proved; their order is not preserved by std::partition: negation proved with libstdc++'s algorithm"
  },
  {
   "property": "C39",
   "status": "partial",
   "theorems": [
    "Optima.success_flag",
    "Optima.failures_reported_partial",
    "Optima.he_failure_lost",
    "Optima.stale_flag_alarm"
   ],
   "note": "a failure of the equality constraint is lost and old flags of uncalled functions count: negations proved"
  },
  {
   "property": "C40",
   "status": "partial",
   "theorems": [
    "Optima.assign_data_partial",
    "Optima.assign_keeps_functions",
    "Optima.assign_user_partial",
    "Optima.assign_seen_partial",
    "Optima.copy_user",
    "Optima.assign_solves_another_problem",
    "Optima.assigned_success_partial"
   ],
   "note": "the data members are copied; the functions are not and no error is thrown for different dimensions: negation proved, end to end for the solver"
  },
  {
   "property": "C41",
   "status": "partial",
   "theorems": [
    "Optima.sensitivity_equations",
    "Optima.sensitivity_zeros",
    "Optima.sensitivity_derivative",
    "Optima.solver_sensitivity_partial",
    "Optima.solver_sensitivity_licq_partial",
    "Optima.held_sensitivity",
    "Optima.curved_sensitivity"
   ],
   "note": "the computed columns satisfy the differentiated equations without the curvature of h; derivatives exactly if that curvature vanishes; sc of held variables omits fxx*xc + fxp*pc: both negations proved end to end"
  },
  {
   "property": "C42",
   "status": "partial",
   "theorems": [
    "Optima.table_aligned_partial",
    "Optima.table_aligned_last_partial",
    "Optima.addEntries_spec",
    "Optima.headerTop_spec",
    "Optima.addState_spec",
    "Optima.masterNames_spec",
    "Optima.long_value_misaligns",
    "Optima.separator_misaligns"
   ],
   "note": "columns, names and errors proved; alignment holds if no value is longer than its column or equal to the separator: negations proved otherwise"
  },
  {
   "property": "C43",
   "status": "partial",
   "theorems": [
    "Optima.objective_sees_clean",
    "Optima.constraint_sees_clean",
    "Optima.functionEvals_indep",
    "Optima.evalHistory_indep",
    "Optima.empty_objective_rejected",
    "Optima.empty_constraint_rejected",
    "Optima.unset_objective_undetected",
    "Optima.unset_constraint_undetected"
   ],
   "note": "clean results proved; an uninitialised function is not detected: negation proved"
  },
  {
   "property": "C44",
   "status": "partial",
   "theorems": [
    "Optima.assembleAx_iff",
    "Optima.assembleAx_partial",
    "Optima.assembleAx_stale"
   ],
   "note": "false when there are both equality and inequality constraints (a block is never written): negation proved with a witness"
  },
  {
   "property": "C45",
   "status": "proved",
   "theorems": [
    "Optima.betaMin_spec",
    "Optima.backtrack_spec",
    "Optima.backtrack_minmax",
    "Optima.backtrack_accepts",
    "Optima.backtrack_inBounds"
   ],
   "note": ""
  },
  {
   "property": "C46",
   "status": "proved",
   "theorems": [
    "Optima.newton_solves",
    "Optima.affine_step_error",
    "Optima.affine_newton_kkt",
    "Optima.quadratic_solve",
    "Optima.rf_full_rank",
    "Optima.solver_quadratic"
   ],
   "note": "exact arithmetic; the full-space and null-space methods end to end, the range-space method under the conditions of C24"
  },
  {
   "property": "C47",
   "status": "partial",
   "theorems": [
    "Optima.names_checked_partial",
    "Optima.functions_checked",
    "Optima.sizes_checked",
    "Optima.names_checks_agree",
    "Optima.bc_checked",
    "Optima.names_checked_late",
    "Optima.sizes_undetected",
    "Optima.matrices_undetected",
    "Optima.state_checked_late",
    "Optima.parameters_checked_late",
    "Optima.bounds_not_an_error"
   ],
   "note": "names of x and slacks are checked first; other names, states and parameters only after user calls, some sizes not at all: negations proved"
  },
  {
   "property": "C48",
   "status": "proved",
   "theorems": [
    "Optima.rfUpdate_spec",
    "Optima.rfUpdate_release",
    "Optima.rfUpdate_assert_no_basics"
   ],
   "note": ""
  },
  {
   "property": "C49",
   "status": "proved",
   "theorems": [
    "Optima.solve_returns",
    "Optima.solver_returns"
   ],
   "note": "release builds, user code that does not throw"
  },
  {
   "property": "C50",
   "status": "proved",
   "theorems": [
    "Optima.solve_success_kkt",
    "Optima.solve_success_feasible",
    "Optima.solver_success_partial",
    "Optima.solver_success_residual_partial",
    "Optima.solver_success_feasible_partial"
   ],
   "note": "proved for MasterSolver::solve; the corollaries for Solver::solve in terms of the problem of the user (..._partial) assume that the matrix was assembled correctly, which is C44"
  },
  {
   "property": "C51",
   "status": "partial",
   "theorems": [
    "Optima.slack_index_basic",
    "Optima.slack_index_given",
    "Optima.given_indices_partial",
    "Optima.given_indices_users"
   ],
   "note": "false: negation proved, for every problem with a constraint on p only and end to end for every solve of a concrete problem; proved: the indices are distinct indices of variables or slacks with independent columns, and without inequality constraints of the user's variables"
  },
  {
   "property": "C52",
   "status": "partial",
   "theorems": [
    "Optima.resources_sees_slacks"
   ],
   "note": "false when there are inequality constraints: r sees the slacks; what each function is given is proved exactly"
  },
  {
   "property": "C53",
   "status": "partial",
   "theorems": [
    "Optima.failure_ignored",
    "Optima.exUser_solved"
   ],
   "note": "false: negation proved with a witness"
  },
  {
   "property": "C54",
   "status": "proved",
   "theorems": [
    "Optima.solution_fixed",
    "Optima.solver_fixed",
    "Optima.unstable_iff_held"
   ],
   "note": "exact arithmetic, full-space or null-space method, release build"
  },
  {
   "property": "C55",
   "status": "partial",
   "theorems": [
    "Optima.assignFixed_spec",
    "Optima.copy_changes_dimensions",
    "Optima.state_assign",
    "Optima.sens_assign",
    "Optima.sens_resize",
    "Optima.new_problem"
   ],
   "note": "false for assignment between two fixed matrices (the implicit copy assignment resizes): negation proved"
  },
  {
   "property": "C56",
   "status": "partial",
   "theorems": [
    "Optima.solve_prints_partial",
    "Optima.failed_solve_prints_old",
    "Optima.last_line_shows_old"
   ],
   "note": "the last line of a failed solve shows the previous iterate: negation proved"
  },
  {
   "property": "C57",
   "status": "partial",
   "theorems": [
    "Optima.Obj.solvers_own",
    "Optima.Obj.calls_own_problem_partial",
    "Optima.Obj.all_calls_own_problem_partial",
    "Optima.Obj.stale_reachable",
    "Optima.Obj.reentered_solve_calls_inner"
   ],
   "note": "true if no solver is entered again from its own user functions; false otherwise: negation proved"
  },
  {
   "property": "C58",
   "status": "partial",
   "theorems": [
    "Optima.Ech.echelonW_kernel",
    "Optima.quadratic_solve_kept",
    "Optima.success_feasible_dep_partial",
    "Optima.solver_ignores_dependent_rows",
    "Optima.exTwoRows_solved",
    "Optima.infeasible_reported_solved"
   ],
   "note": "true for consistent linear constraints of any rank; false for contradictory ones (only the pivot rows of the factorisation count): negation proved end to end"
  },
  {
   "property": "C59",
   "status": "partial",
   "theorems": [
    "Optima.convex_success_partial",
    "Optima.IsDegenerate.solve",
    "Optima.convex_wrong_success"
   ],
   "note": "true if no basic variable of the result sits on a bound with a multiplier of the wrong sign (and full row rank); false otherwise: negation proved end to end"
  },
  {
   "property": "C60",
   "status": "partial",
   "theorems": [
    "Optima.converged_iff",
    "Optima.nan_gradient_rejected_partial",
    "Optima.nan_error_fails",
    "Optima.nan_constraint_ignored",
    "Optima.nan_v_ignored",
    "Optima.NanConfig.errors_without_nan",
    "Optima.IsLog.solve"
   ],
   "note": "true for the optimality errors; false for the values of constraints and of v, which std::max drops when they are NaN: negation proved end to end"
  },
  {
   "property": "C61",
   "status": "partial",
   "theorems": [
    "Optima.local_convergence_partial",
    "Optima.Smooth.Regular.step",
    "Optima.Smooth.Regular.error",
    "Optima.curved_constraint_diverges",
    "Optima.parabola_minimum"
   ],
   "note": "true for affine h (objective and v arbitrary); false for non-linear h, whose curvature is missing in the Newton matrix: negation proved, the solver diverges from every point near the minimiser"
  },
  {
   "property": "C62",
   "status": "partial",
   "theorems": [
    "Optima.convex_diverges",
    "Optima.hyperbola_convex",
    "Optima.hyperbola_deriv",
    "Optima.quadratic_solve",
    "Optima.separable_solve_partial",
    "Optima.separable_convex_partial",
    "Optima.near_quadratic_partial",
    "Optima.near_quadratic_converges_partial"
   ],
   "note": "true from every start for quadratic objectives (C46), separable objectives with convex or concave derivatives, and objectives on linear constraints whose second derivatives vary little; close to the solution for all (C61); false in general, there is no line search: negation proved for every starting point with |x| >= 1"
  },
  {
   "property": "C63",
   "status": "partial",
   "theorems": [
    "Optima.backtrack_on_bound_partial",
    "Optima.backtrack_near_bound",
    "Optima.backtrack_misses_bound",
    "Optima.double_stuck"
   ],
   "note": "true in exact arithmetic; in double arithmetic the variable may stay a few units in the last place above its bound (distance bounded), for all further iterations: negation proved, up to a failed solve"
  },
  {
   "property": "C64",
   "status": "partial",
   "theorems": [
    "Optima.FNum.clean_zero_partial",
    "Optima.FNum.clean_zero_false",
    "Optima.FNum.clean_zero_iff",
    "Optima.FNum.clean_error",
    "Optima.FNum.dot_error"
   ],
   "note": "true exactly if there are at most four columns: clean_zero_iff, with a witness for every larger number; the error of the result is bounded for all sizes"
  },
  {
   "property": "C65",
   "status": "partial",
   "theorems": [
    "Optima.Steps.rounded_conservative",
    "Optima.Steps.rounded_fraction_partial",
    "Optima.Steps.rounded_fraction_negative"
   ],
   "note": "true for performConservativeStep, and for fractionToTheBoundary with tau <= 1 - 4*2^-53; false for tau = 1: negation proved"
  },
  {
   "property": "C66",
   "status": "partial",
   "theorems": [
    "Optima.active_solve_partial",
    "Optima.affine_newton_active",
    "Optima.bounds_only_success",
    "Optima.bounds_only_never",
    "Optima.half_line_never",
    "Optima.nearest_point_never",
    "Optima.exNearest_solution",
    "Optima.exNearest_strictly_convex"
   ],
   "note": "true from starting points on the bounds active at the solution (and, without active bounds, from all points: C46); false in general: negation proved, both for problems with bounds only and for a problem with one constraint started at a feasible interior point"
  },
  {
   "property": "C67",
   "status": "partial",
   "theorems": [
    "Optima.MV.add_sub_spec",
    "Optima.MV.scale_spec",
    "Optima.MV.divs_eq_partial",
    "Optima.MV.divs_ne_witness",
    "Optima.MV.divs_close",
    "Optima.MV.dot_spec",
    "Optima.MV.squaredNorm_eq_dot",
    "Optima.MV.squaredNorm_zero",
    "Optima.MV.dot_cauchy",
    "Optima.MV.norm_spec",
    "Optima.MV.data_roundtrip",
    "Optima.MV.data_length_witness",
    "Optima.MV.zeros_resize_spec",
    "Optima.MV.canonical_roundtrip",
    "Optima.MV.assignRef_spec_partial",
    "Optima.MV.assignRef_self",
    "Optima.MV.assignRef_isSome",
    "Optima.MV.assignRef_overlap_witness"
   ],
   "note": "true in exact arithmetic; in double arithmetic u / s and u /= s differ (negation, with a bound for the difference), data of a wrong length are not detected, and overlapping references are not copied correctly (negations)"
  },
  {
   "property": "C68",
   "status": "partial",
   "theorems": [
    "Optima.FNum.echelon_kept_partial",
    "Optima.FNum.clean_change",
    "Optima.FNum.clean_int",
    "Optima.FNum.clean_zero_entry",
    "Optima.FNum.clean_lost",
    "Optima.FNum.echelon_all_lost",
    "Optima.FNum.sigma_bounds",
    "Optima.echelon_lost",
    "Optima.echelon_distorted",
    "Optima.OneProblem.one_success",
    "Optima.double_wrong_success",
    "Optima.double_never",
    "Optima.double_wrong_solution"
   ],
   "note": "in double arithmetic the change of R*A is bounded by a multiple of max|A|^2 and integers are kept; for large entries of A the matrix R is distorted or becomes zero: negation proved, up to a solve that reports success at a point violating its only constraint"
  },
  {
   "property": "C69",
   "status": "partial",
   "theorems": [
    "Optima.methods_agree_partial",
    "Optima.solver_methods_agree_partial",
    "Optima.solve_withNewton",
    "Optima.regular_of_posdef",
    "Optima.rangespace_never",
    "Optima.line_solved"
   ],
   "note": "true in exact arithmetic for the full-space and null-space methods if the second-order systems are regular, and for the range-space method without variables of large second derivative; false for the range-space method in general: negation proved end to end, a problem solved in one iteration by the other methods is never solved"
  },
  {
   "property": "C70",
   "status": "partial",
   "theorems": [
    "Optima.master_history",
    "Optima.luInner_mem",
    "Optima.solver_history",
    "Optima.solver_history_partial",
    "Optima.solver_history_sensitivity_partial",
    "Optima.solver_history_false",
    "Optima.stale_solved"
   ],
   "note": "true for MasterSolver, and for Solver with linear constraints of one kind (all memory left by earlier solves, and the sensitivities); with linear equality and inequality constraints true only if the block of C44 holds the same entries: negation proved end to end, a solve right after another reports success at an infeasible point"
  },
  {
   "property": "C71",
   "status": "partial",
   "theorems": [
    "Optima.equivalent_formulations_partial",
    "Optima.equivalent_with_bounds_partial",
    "Optima.order_changes_solve",
    "Optima.scaling_changes_solution"
   ],
   "note": "true in exact arithmetic if the constraints are independent and the linearised conditions are regular at the points visited (full-space and null-space methods, also mixed), with bounds also if the weights determine the basic variables at the points visited and the initial multipliers have the same effect; false with bounds where variables weigh the same: negation proved, the order of two variables decides whether a solve with one iteration succeeds; false in double arithmetic: negation proved, a constraint multiplied by 1e8 gives another solution"
  },
  {
   "property": "C72",
   "status": "proved",
   "theorems": [
    "Optima.success_double",
    "Optima.success_double_small",
    "Optima.FloatView.error_double",
    "Optima.FloatView.error_double_small",
    "Optima.FloatView.feasibility_double",
    "Optima.Terms.sums_error",
    "Optima.OneProblem.success_double",
    "Optima.OneProblem.success_double_small",
    "Optima.OneProblem.defect_bound",
    "Optima.OneProblem.feasible_double"
   ],
   "note": "the defect of the canonical form enters the bound for the equality constraints; it is bounded for one constraint and, through C68, for any echelon form, and C68 shows that it is not small in general"
  },
  {
   "property": "C73",
   "status": "partial",
   "theorems": [
    "Optima.solver_returns_debug",
    "Optima.solver_asserts",
    "Optima.solve_returns_debug",
    "Optima.solve_asserts",
    "Optima.rfUpdate_assert_iff",
    "Optima.Ech.priority_swap_allowed"
   ],
   "note": "true with an exact rank decision for problems with a linear inequality constraint or a non-zero coefficient in a linear equality constraint; false without linear constraints (and where [Ax; hx] is zero): negation proved, no solve of such a problem returns in a debug build; assertions on sizes hold by the types of the model, assertions inside Eigen are not modelled"
  },
  {
   "property": "C74",
   "status": "partial",
   "theorems": [
    "Optima.solve_linear_partial",
    "Optima.backtrack_violation",
    "Optima.newton_violation",
    "Optima.regular_of_convex",
    "Optima.feasibility_lost",
    "Optima.cornerStart_minimum"
   ],
   "note": "true if no variable in the linear constraints has bounds (all solves with regular systems, no transformation function), with the exact change of the violation in one step for all bounds; false otherwise, variables on a bound are projected back while the others take the step: negation proved end to end from a start at the minimiser"
  },
  {
   "property": "C75",
   "status": "partial",
   "theorems": [
    "Optima.Opt.options_used_partial",
    "Optima.Opt.updateMasterOptions_spec",
    "Optima.Opt.lastSet_setOptions",
    "Optima.Opt.solve_keeps_options",
    "Optima.Opt.options_unread",
    "Optima.Opt.sensitivity_method_ignored",
    "Optima.Opt.reentrant_options"
   ],
   "note": "true for all options a solve reads and all programs that start no solve on a running solver; false for linesearch, errorstatus and steepestdescent, which nothing reads, for the method of the sensitivities, which is always null-space, and for nested solves on one solver: negations proved"
  },
  {
   "property": "C76",
   "status": "partial",
   "theorems": [
    "Optima.units_partial",
    "Optima.units_with_bounds_partial",
    "Optima.Smooth.Recast.newton",
    "Optima.Smooth.Recast.nonsingular",
    "Optima.units_decide_success",
    "Optima.units_change_iterates",
    "Optima.inUnits_recast"
   ],
   "note": "the iterates correspond in exact arithmetic without bounds if the constraints are independent and the linearised conditions are regular at the points visited (full-space and null-space methods), and with bounds, for units and origins of the single variables, if also the weights determine the same basic variables in both units; false with bounds otherwise: a problem whose variables all start on their bounds takes other iterates in other units; the test of convergence compares absolute errors with the tolerance, so where the iterations end and whether they succeed depends on the units: negations proved"
  },
  {
   "property": "C77",
   "status": "partial",
   "theorems": [
    "Optima.Brent.Num.brent_double",
    "Optima.Brent.Num.brent_double_accurate",
    "Optima.Brent.Num.minimizeBrentM_exact",
    "Optima.Brent.Num.trial_inside",
    "Optima.Brent.Num.brent_tiny_tolerance"
   ],
   "note": "containment, the best value and the number of calls hold for all tolerances that are not negative; accuracy for strictly unimodal functions needs a tolerance of at least two machine epsilons and is false below: negation proved, with the tolerance 1e-17 an increasing function is minimised at 0.38 on [0, 1]"
  },
  {
   "property": "C78",
   "status": "partial",
   "theorems": [
    "Optima.Golden.Num.golden_double",
    "Optima.Golden.Num.golden_double_accurate",
    "Optima.Golden.Num.minimizeM_exact",
    "Optima.Golden.Num.golden_double_never_ends"
   ],
   "note": "tolerances of at least 1e-12 for all functions (with state, throwing) and intervals; false below: negation proved, with the tolerance 1e-14 the search for the minimum of a distance function enters a cycle"
  },
  {
   "property": "C79",
   "status": "partial",
   "theorems": [
    "Optima.Rational.Num.farey_double",
    "Optima.Rational.Num.rational_double",
    "Optima.Rational.Num.ratio_double",
    "Optima.Rational.Num.rationalize_double",
    "Optima.Rational.Num.ratio_fixes_partial",
    "Optima.Rational.Num.ratio_double_changes",
    "Optima.Rational.Num.ratio_field"
   ],
   "note": "termination, legality, closeness and the repair of perturbed fractions proved with every operation rounded; rounded fractions are unchanged for all maximum denominators if |x| <= 1, and for those below 2^25 otherwise; false above one: negation proved for the maximum denominator 2^26 - 1"
  },
  {
   "property": "C80",
   "status": "partial",
   "theorems": [
    "Optima.inf_converged_iff",
    "Optima.inf_gradient_rejected",
    "Optima.inf_v_rejected",
    "Optima.inf_wbs",
    "Optima.inf_constraint_rejected_partial",
    "Optima.inf_constraint_ignored",
    "Optima.inf_gradient_ignored",
    "Optima.IsBarrier.solve",
    "Optima.inf_step_nan",
    "Optima.inf_step_clamped",
    "Optima.extWbs_num",
    "Optima.extEx_num",
    "Optima.extErrors_num"
   ],
   "note": "proved for v, for the gradient except at unstable and basic variables on a bound, for constraints if no row of R has a zero in the column of an infinite entry or combines opposite infinities, and for steps in the min-max mode; false otherwise: 0*inf = NaN in R*h makes the constraints drop out of the error, with a whole solve that succeeds at infinite constraints, and infinite steps become NaN in the default mode"
  },
  {
   "property": "C81",
   "status": "partial",
   "theorems": [
    "Optima.FLU.factor_error",
    "Optima.FLU.rank_double",
    "Optima.FLU.lower_le_one",
    "Optima.FLU.upper_bound",
    "Optima.FLU.lu_solve_double_rank",
    "Optima.FLU.lu_solve_double",
    "Optima.FLU.lu_solve_double_growth",
    "Optima.FLU.discarded_zero",
    "Optima.FLU.lu_total",
    "Optima.FLU.fullspace_double",
    "Optima.FLU.lu_discards_regular",
    "Optima.FLU.lu_kept_violated"
   ],
   "note": "proved whenever the discarded equations are the last ones of the factorised system (none in particular), and for the full-space step; false otherwise: negations proved, equations of regular systems are discarded if their right-hand sides are large, and equations that are kept are then violated"
  },
  {
   "property": "C82",
   "status": "proved",
   "theorems": [
    "Optima.FNull.nullspace_double",
    "Optima.FNull.eliminated_double",
    "Optima.FNull.null_total",
    "Optima.FNull.isSub_error"
   ],
   "note": "all canonical matrices, right-hand sides and orders of operations; what LU discards is in C81"
  },
  {
   "property": "C83",
   "status": "proved",
   "theorems": [
    "Optima.FEch.compute_double",
    "Optima.FEch.swap_double",
    "Optima.FEch.updates_double",
    "Optima.FEch.dependent_rows",
    "Optima.FEch.findCandidate_heaviest",
    "Optima.FEch.updates_total",
    "Optima.FEch.Ruin.echelon_ruined"
   ],
   "note": "all matrices, weights and orders of operations; the bad case is without fused multiply-add"
  },
  {
   "property": "C84",
   "status": "proved",
   "theorems": [
    "Optima.FEch.rows_A",
    "Optima.FEch.rows_J",
    "Optima.FEch.rows_dependent",
    "Optima.FEch.form_rows",
    "Optima.FEch.dependent_wrong",
    "Optima.FEch.numBasicVariables_one",
    "Optima.FEch.TwoProblem.newton_conditions",
    "Optima.FEch.Twice.same_constraint_twice"
   ],
   "note": "all matrices, weights and orders of operations; the errors of the two echelon forms it is made of are those of C83; the bad case is without fused multiply-add"
  },
  {
   "property": "C85",
   "status": "proved",
   "theorems": [
    "Optima.FStep.master_double",
    "Optima.FStep.rhs_double",
    "Optima.FStep.solve_double",
    "Optima.FStep.null_residuals",
    "Optima.FStep.full_residuals",
    "Optima.FStep.step_total",
    "Optima.FStep.linearised_double",
    "Optima.FStep.linear_after",
    "Optima.FStep.one_after"
   ],
   "note": "all matrices, right-hand sides and orders of operations; the residuals of the canonical solvers are those of C81 and C82 and hold under their conditions on the pivots LU keeps; the errors of the echelon form are those of C84"
  },
  {
   "property": "C86",
   "status": "partial",
   "theorems": [
    "Optima.skip_agrees_partial",
    "Optima.skip_returns",
    "Optima.ObjFn.pure_call",
    "Optima.ConFn.pure_call",
    "Optima.skip_clears",
    "Optima.skip_error",
    "Optima.rf_ignores_h",
    "Optima.rf_error_congr",
    "Optima.skip_differs",
    "Optima.Ech.wUpdate_zero"
   ],
   "note": "proved without non-linear constraints; false with them: the derivatives are cleared before the call, so the constraints drop out of the gradient, the echelon form and the error"
  },
  {
   "property": "C87",
   "status": "partial",
   "theorems": [
    "Optima.transformed_not_worse_than_previous_partial",
    "Optima.step_kept",
    "Optima.transformation_undoes_newton",
    "Optima.stays",
    "Optima.free_pointwise",
    "Optima.nan_transform_kept"
   ],
   "note": "the comparison is with the error at the previous iterate, not at the Newton iterate: proved is that every iterate is the Newton iterate or no worse than the previous one (no parameters, numbers only); the claim itself is false: negation proved end to end, a transformation back to the previous iterate is always kept and a problem solved in one iteration is never solved; errors that are NaN make any transformation kept"
  },
  {
   "property": "C88",
   "status": "proved",
   "theorems": [
    "Optima.stopping_one_sequence",
    "Optima.stopping_looser",
    "Optima.stopping_more",
    "Optima.stopping_exact",
    "Optima.solver_stopping_more",
    "Optima.solver_stopping_looser"
   ],
   "note": "all machines of C31 (user functions, transformation functions and user checks with state, also throwing ones), for MasterSolver and for Solver; numbers that compare like doubles, NaN included, for MasterSolver"
  },
  {
   "property": "C89",
   "status": "partial",
   "theorems": [
    "Optima.resume_partial",
    "Optima.resume_with_bounds_partial",
    "Optima.not_resume"
   ],
   "note": "false in general: the iterate a solve is given is never compared with the tolerance (the comparison follows a step), so a state that one solve accepts can be a start from which every solve fails (not_resume). Proved where the uninterrupted solve goes beyond the iterate of the interruption: without bounds (resume_partial) with independent constraints and regular linearised conditions at the iterates, exact arithmetic; with bounds (resume_with_bounds_partial) if also the weights determine the basic variables at the iterates"
  },
  {
   "property": "C90",
   "status": "partial",
   "theorems": [
    "Optima.multipliers_free_partial",
    "Optima.multipliers_partial",
    "Optima.multipliers_interior_partial",
    "Optima.multipliers_matter",
    "Optima.multipliers_matter_shortened"
   ],
   "note": "true in exact arithmetic without bounds (independent constraints, regular linearised conditions at the iterates), and with bounds if also the weights determine the basic variables at the iterates, the two initial multipliers hold the same variables on their bounds, and the first step is not shortened (min-max mode, or the step stays within the bounds); false otherwise: negations proved end to end for both exceptions, the initial multiplier decides whether a solve with one iteration succeeds"
  }
 ]
}