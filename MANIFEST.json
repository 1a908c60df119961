{
 "claims": [
  {
   "property": "C01",
   "status": "proved",
   "theorems": [
    "Verif.C01_expression_arithmetic",
    "Verif.C01_quadratic_value"
   ],
   "note": "Exact field instead of double."
  },
  {
   "property": "C02",
   "status": "proved",
   "theorems": [
    "Verif.C02_one_term_per_variable"
   ],
   "note": ""
  },
  {
   "property": "C03",
   "status": "partial",
   "theorems": [
    "Verif.C03_violated",
    "Verif.C03_violated_by_operators",
    "Verif.C03_isClean_misses_first",
    "Verif.C03_clean_partial"
   ],
   "note": "False of the code: exact cancellation leaves zero coefficients that isClean rejects (witness). The partial theorem proves what holds."
  },
  {
   "property": "C04",
   "status": "partial",
   "theorems": [
    "Verif.C04_self_add_diverges",
    "Verif.C04_self_add_partial"
   ],
   "note": "False of the code: e += e never terminates for an expression with a variable (proved for every expression)."
  },
  {
   "property": "C05",
   "status": "proved",
   "theorems": [
    "Verif.C05_addVar",
    "Verif.C05_columns_distinct",
    "Verif.C05_columns_consecutive"
   ],
   "note": ""
  },
  {
   "property": "C06",
   "status": "partial",
   "theorems": [
    "Verif.C06_addLinConstr",
    "Verif.C06_violated",
    "Verif.C06_rejected_call_partial"
   ],
   "note": "Holds for linear constraints; false for quadratic/SOC constraints (rejected call leaves auxiliary variables and counters)."
  },
  {
   "property": "C07",
   "status": "proved",
   "theorems": [
    "Verif.C07_standard_form",
    "Verif.C07_negative_weight_violated",
    "Verif.C07_continuous_bounds_not_enforced"
   ],
   "note": "Proved for all histories of valid calls, also with binaries (relaxed to [0,1]) and trust-region rows. Needs every linear constraint to mention a variable (see C09)."
  },
  {
   "property": "C08",
   "status": "proved",
   "theorems": [
    "Verif.C08_objective",
    "Verif.C08_minimiser"
   ],
   "note": ""
  },
  {
   "property": "C09",
   "status": "partial",
   "theorems": [
    "Verif.C09_violated",
    "Verif.C09_false_constraint_partial"
   ],
   "note": "False of the code: a linear constraint without terms is dropped."
  },
  {
   "property": "C10",
   "status": "partial",
   "theorems": [
    "Verif.C10_violated",
    "Verif.C10_replace_linear_partial"
   ],
   "note": "False of the code: after an objective with quadratic terms, a second setObjective makes buildProblem read out of bounds (proved for all histories)."
  },
  {
   "property": "C11",
   "status": "proved",
   "theorems": [
    "Verif.C11_trust_region",
    "Verif.C11_exact_at_current_point"
   ],
   "note": ""
  },
  {
   "property": "C12",
   "status": "proved",
   "theorems": [
    "Verif.C12_soft_penalty",
    "Verif.C08_objective"
   ],
   "note": ""
  },
  {
   "property": "C13",
   "status": "proved",
   "theorems": [
    "Verif.C13_optimize",
    "Verif.C13_counters",
    "Verif.C13_rejected_call_violated"
   ],
   "note": "For problems built by accepted calls; after a rejected trust-region call the code does an extra warm-start solve (witness). Solvers are oracles."
  },
  {
   "property": "C14",
   "status": "proved",
   "theorems": [
    "Verif.C14_bijection",
    "Verif.C14_clamped"
   ],
   "note": ""
  },
  {
   "property": "C15",
   "status": "proved",
   "theorems": [
    "Verif.Cone.C15_layout",
    "Verif.Cone.C15_extended_layout",
    "Verif.Cone.C15_extended_roundtrip"
   ],
   "note": ""
  },
  {
   "property": "C16",
   "status": "proved",
   "theorems": [
    "Verif.Cone.C16_product_division",
    "Verif.Cone.C16_product_returns_inner_product"
   ],
   "note": ""
  },
  {
   "property": "C17",
   "status": "proved",
   "theorems": [
    "Verif.Cone.C17_projection"
   ],
   "note": ""
  },
  {
   "property": "C18",
   "status": "partial",
   "theorems": [
    "Verif.Cone.C18_scaling",
    "Verif.Cone.C18_outside_violated",
    "Verif.Cone.C18_outside_partial"
   ],
   "note": "First half proved in full; the failure report is false of the code for points of the negative cone (witness)."
  },
  {
   "property": "C19",
   "status": "partial",
   "theorems": [
    "Verif.Cone.C19_violated",
    "Verif.Cone.C19_views_partial"
   ],
   "note": "False of the code: const s() and z() are exchanged (for every cone with a row)."
  },
  {
   "property": "C20",
   "status": "proved",
   "theorems": [
    "Verif.Equil.C20_unset",
    "Verif.Equil.C20_residuals",
    "Verif.Equil.C20_cones",
    "Verif.Equil.C20_solutions",
    "Verif.Equil.C20_updateEquilH"
   ],
   "note": ""
  },
  {
   "property": "C21",
   "status": "partial",
   "theorems": [
    "Verif.IP.C21_info_describes",
    "Verif.IP.C21_returned_inside",
    "Verif.IP.C21_optimal",
    "Verif.IP.C21_near_optimal",
    "Verif.IP.C21_info_violated"
   ],
   "note": "For at least one allowed iteration; false for SolverMaxIters=0 (witness: a never-set best iterate is restored). The gap the code tests is tau^2 times the gap of the reported vector, so the tolerance is divided by tau^2; a last step raised to the minimum step length is excepted."
  },
  {
   "property": "C22",
   "status": "proved",
   "theorems": [
    "Verif.IP.C22_terminates",
    "Verif.IP.C22_exit_code"
   ],
   "note": ""
  },
  {
   "property": "C23",
   "status": "proved",
   "theorems": [
    "Verif.Ldl.C23_factorization",
    "Verif.Ldl.C23_solve",
    "Verif.Ldl.C23_quasidefinite"
   ],
   "note": ""
  },
  {
   "property": "C24",
   "status": "partial",
   "theorems": [
    "Verif.BnB.C24_partition_partial",
    "Verif.BnB.C24_violated"
   ],
   "note": "Coverage for every oracle; exclusivity and absence of faults for relaxation solvers that respect variable bounds; exclusivity is false otherwise (witness)."
  },
  {
   "property": "C25",
   "status": "proved",
   "theorems": [
    "Verif.BnB.C25_bounds",
    "Verif.BnB.C25_optimal_within_gap"
   ],
   "note": "The relaxation solver is an arbitrary oracle; validity of node bounds is the hypothesis named in the property."
  },
  {
   "property": "C26",
   "status": "partial",
   "theorems": [
    "Verif.BnB.C26_incumbent_partial",
    "Verif.BnB.C26_violated"
   ],
   "note": "False of the code: the incumbent found at the root node is forgotten (witness)."
  },
  {
   "property": "C27",
   "status": "partial",
   "theorems": [
    "Verif.Lbfgs.C27_backtracking_partial",
    "Verif.Lbfgs.C27_violated"
   ],
   "note": "Everything except the step range, which the code violates in both directions (witness); the exact range is proved instead."
  },
  {
   "property": "C28",
   "status": "proved",
   "theorems": [
    "Verif.Lbfgs.C28_more_thuente"
   ],
   "note": ""
  },
  {
   "property": "C29",
   "status": "partial",
   "theorems": [
    "Verif.Lbfgs.C29_reported_value_partial",
    "Verif.Lbfgs.C29_violated"
   ],
   "note": "False of the code after a failed line search: the point is reset but not the value."
  },
  {
   "property": "C30",
   "status": "proved",
   "theorems": [
    "Verif.Lbfgs.C30_monotone",
    "Verif.Lbfgs.C30_terminates",
    "Verif.Lbfgs.C30_exit_codes"
   ],
   "note": ""
  },
  {
   "property": "C31",
   "status": "proved",
   "theorems": [
    "Verif.Lbfgs.C31_direction"
   ],
   "note": ""
  },
  {
   "property": "C32",
   "status": "partial",
   "theorems": [
    "Verif.Lbfgs.C32_validation_partial",
    "Verif.Lbfgs.C32_violated"
   ],
   "note": "False of the code for a memory length m <= 0, which is accepted."
  },
  {
   "property": "C33",
   "status": "proved",
   "theorems": [
    "Verif.Lbfgs.C33_penalty",
    "Verif.Lbfgs.C33_gradient"
   ],
   "note": ""
  },
  {
   "property": "C34",
   "status": "proved",
   "theorems": [
    "Verif.HQP.C34_one_answer_per_request",
    "Verif.HQP.C34_exclusive_access",
    "Verif.HQP.C34_no_lost_wakeup",
    "Verif.HQP.C34_calls_complete",
    "Verif.HQP.C34_shutdown"
   ],
   "note": "All schedules and call histories, with spurious wake-ups; sequentially consistent memory; completion counts steps between spurious wake-ups."
  },
  {
   "property": "C35",
   "status": "proved",
   "theorems": [
    "Verif.Rt.C35_affine",
    "Verif.Rt.C35_quadratic",
    "Verif.Rt.C35_quadratic_asymmetric_violated",
    "Verif.Rt.C35_addFromNorm",
    "Verif.Rt.C35_addFromWeightedNorm"
   ],
   "note": "The quadratic case needs a symmetric matrix (the objective matrices of the solver are); a witness shows it fails otherwise."
  },
  {
   "property": "C36",
   "status": "partial",
   "theorems": [
    "Verif.Rt.C36_block",
    "Verif.Rt.C36_block_exact",
    "Verif.Rt.C36_removed_row_bound",
    "Verif.Rt.C36_columns",
    "Verif.Rt.C36_threshold",
    "Verif.Rt.C36_matrix_only_violated",
    "Verif.Rt.C36_matrix_only_partial"
   ],
   "note": "Holds for the two versions that also take the constants (rows exactly at the threshold may go either way) and for reduceColumns; the matrix-only version starts counting at row 1 and writes out of range or drops row 0."
  },
  {
   "property": "C37",
   "status": "proved",
   "theorems": [
    "Verif.Lqr.C37_step",
    "Verif.Lqr.C37_fresh_derivatives",
    "Verif.Lqr.C37_dynamic_programming"
   ],
   "note": "Without control limits (with limits the value recursion of the code uses the unconstrained law)."
  },
  {
   "property": "C38",
   "status": "proved",
   "theorems": [
    "Verif.Lqr.C38_rollout"
   ],
   "note": ""
  },
  {
   "property": "C39",
   "status": "proved",
   "theorems": [
    "Verif.Lqr.C39_iteration",
    "Verif.Lqr.C39_run"
   ],
   "note": ""
  },
  {
   "property": "C40",
   "status": "proved",
   "theorems": [
    "Verif.Lqr.C40_terminates"
   ],
   "note": ""
  },
  {
   "property": "C41",
   "status": "partial",
   "theorems": [
    "Verif.Lqr.C41_violated",
    "Verif.Lqr.C41_half_step",
    "Verif.Lqr.C41_limits_partial"
   ],
   "note": "False of the code: the posed objective lacks the factor 1/2, so the result is half the unconstrained step; the calls go through the conic model of C05-C08."
  },
  {
   "property": "C42",
   "status": "proved",
   "theorems": [
    "Verif.Lqr.C42_symmetric",
    "Verif.Lqr.C42_exact"
   ],
   "note": ""
  },
  {
   "property": "C43",
   "status": "partial",
   "theorems": [
    "Verif.ContactPlan.C43_activation_partial",
    "Verif.ContactPlan.C43_activation_ids",
    "Verif.ContactPlan.C43_violated"
   ],
   "note": "Full property proved for plans without overlapping contacts; false of the code for overlapping contacts (activation ids skip values; witness)."
  },
  {
   "property": "C44",
   "status": "partial",
   "theorems": [
    "Verif.ContactPlan.C44_violated",
    "Verif.ContactPlan.C44_refill_partial"
   ],
   "note": "False of the code: stale activations are never cleared (proved for every sequence)."
  },
  {
   "property": "C45",
   "status": "proved",
   "theorems": [
    "Verif.Terrain.C45_halfspace",
    "Verif.Terrain.C45_exactly_polygon",
    "Verif.Terrain.C45_reference_point"
   ],
   "note": ""
  },
  {
   "property": "C46",
   "status": "partial",
   "theorems": [
    "Verif.Dyn.C46_soc_exact",
    "Verif.Dyn.C46_violated",
    "Verif.Dyn.C46_pyramid_partial"
   ],
   "note": "Second-order-cone option proved exact; false of the linear pyramid (admits sqrt(2) times the friction); the partial theorem gives the exact admitted set."
  },
  {
   "property": "C47",
   "status": "partial",
   "theorems": [
    "Verif.Dyn.C47_momentum_fixed_timing_partial",
    "Verif.Dyn.C47_time_optimisation_ignores_disturbance"
   ],
   "note": "Proved (iff) for fixed timing; false with optimised timing: the external push is dropped."
  },
  {
   "property": "C48",
   "status": "proved",
   "theorems": [
    "Verif.Dyn.C48_decomposition",
    "Verif.Dyn.C48_tight_angular_momentum"
   ],
   "note": ""
  },
  {
   "property": "C49",
   "status": "partial",
   "theorems": [
    "Verif.Dyn.C49_violated",
    "Verif.Dyn.C49_shifted_index",
    "Verif.Dyn.C49_store_partial"
   ],
   "note": "False of the code: CoM and momenta are written at index t+1, beyond the sequence."
  },
  {
   "property": "C50",
   "status": "partial",
   "theorems": [
    "Verif.Dyn.C50_violated",
    "Verif.Dyn.C50_reads_partial"
   ],
   "note": "False of the code: the final cost reads one state beyond the reference sequence."
  },
  {
   "property": "C51",
   "status": "partial",
   "theorems": [
    "Verif.Orient.C51_exp_unit",
    "Verif.Orient.C51_exp_log",
    "Verif.Orient.C51_log_exp",
    "Verif.Orient.C51_violated",
    "Verif.Orient.C51_integrate_required_partial",
    "Verif.Orient.C51_half_turn_violated"
   ],
   "note": "Integration reaches the goal outside the small-angle branch, except for exact half turns opposite to the goal, where it is false of the code (witness); inside the small-angle branch the maps are not inverse (proved)."
  },
  {
   "property": "C52",
   "status": "proved",
   "theorems": [
    "Verif.Orient.C52_quaternion_matrix",
    "Verif.Orient.C52_conversions_inverse"
   ],
   "note": ""
  },
  {
   "property": "C53",
   "status": "partial",
   "theorems": [
    "Verif.Traj.C53_conditions",
    "Verif.Traj.C53_nonsingular",
    "Verif.Traj.C53_trajectory",
    "Verif.Traj.C53_derivatives",
    "Verif.Traj.C53_clamped",
    "Verif.Traj.C53_time_zero_violated"
   ],
   "note": "Proved for exact linear solves with different start and end times; false at time 0 (velocity and acceleration are not numbers)."
  },
  {
   "property": "C54",
   "status": "partial",
   "theorems": [
    "Verif.Settings.C54_conic_solver_settings",
    "Verif.Settings.C54_lqr_settings",
    "Verif.Settings.C54_any_value",
    "Verif.Settings.C54_planner_settings_partial",
    "Verif.Settings.C54_planner_settings_violated",
    "Verif.Settings.C54_planner_settings_exact",
    "Verif.Settings.C54_planner_write"
   ],
   "note": "Proved for the conic and LQR settings; false for exactly six planner parameters, which the const getter returns and the non-const getter rejects."
  },
  {
   "property": "C55",
   "status": "partial",
   "theorems": [
    "Verif.MinJerk.C55_derivative_partial",
    "Verif.MinJerk.C55_derivative_violated",
    "Verif.MinJerk.C55_fit",
    "Verif.MinJerk.C55_poly_points",
    "Verif.MinJerk.C55_refit_violated",
    "Verif.MinJerk.C55_lookup",
    "Verif.MinJerk.C55_window"
   ],
   "note": "For exact linear solves. False for polynomials given by a single non-constant row (the derivative is reported as 0) and for fitting twice."
  },
  {
   "property": "C56",
   "status": "proved",
   "theorems": [
    "Verif.Cone.C56_expanded_scaling"
   ],
   "note": ""
  },
  {
   "property": "C57",
   "status": "proved",
   "theorems": [
    "Verif.Dyn.C57_linearised_dynamics"
   ],
   "note": ""
  },
  {
   "property": "C58",
   "status": "proved",
   "theorems": [
    "Verif.Dyn.C58_feedback_model_consistent"
   ],
   "note": "Under the stated modelling differences: no external push, zero centers of pressure and contact torques."
  },
  {
   "property": "C59",
   "status": "partial",
   "theorems": [
    "Verif.ContactPlan.C59_flight_phases_partial",
    "Verif.ContactPlan.C59_violated"
   ],
   "note": "Proved for contacts separated by at least one step and consistent initial activation; false otherwise (reads beyond the sequence)."
  },
  {
   "property": "C60",
   "status": "partial",
   "theorems": [
    "Verif.HQP.C60_violated",
    "Verif.HQP.C60_flag_writes_partial"
   ],
   "note": "False of the code: the worker reads the stop flag without the mutex."
  },
  {
   "property": "C61",
   "status": "partial",
   "theorems": [
    "Verif.HQP.C61_violated",
    "Verif.HQP.C61_index_partial"
   ],
   "note": "False of the code: more than 7 requests without a reset write outside the array."
  },
  {
   "property": "C62",
   "status": "proved",
   "theorems": [
    "Verif.Lbfgs.C62_interval_update"
   ],
   "note": ""
  },
  {
   "property": "C63",
   "status": "proved",
   "theorems": [
    "Verif.Lbfgs.C63_descent_invariant"
   ],
   "note": ""
  },
  {
   "property": "C64",
   "status": "proved",
   "theorems": [
    "Verif.Lqr.C64_convex_no_failure"
   ],
   "note": ""
  },
  {
   "property": "C65",
   "status": "partial",
   "theorems": [
    "Verif.Lqr.C65_violated",
    "Verif.Lqr.C65_gradient_exit_partial"
   ],
   "note": "False of the code when the regularisation exceeds its limit on the first iteration (witness)."
  },
  {
   "property": "C66",
   "status": "proved",
   "theorems": [
    "Verif.Lqr.C66_full_step_optimal"
   ],
   "note": ""
  },
  {
   "property": "C67",
   "status": "proved",
   "theorems": [
    "Verif.Orient.C67_jacobian_is_derivative",
    "Verif.Orient.C67_angular_velocity"
   ],
   "note": ""
  },
  {
   "property": "C68",
   "status": "proved",
   "theorems": [
    "Verif.Orient.C68_body_world"
   ],
   "note": ""
  },
  {
   "property": "C69",
   "status": "partial",
   "theorems": [
    "Verif.Orient.C69_constant_velocity_violated",
    "Verif.Orient.C69_constant_velocity_partial"
   ],
   "note": "False of the code unless the rotation is about the axis of the current orientation (witness): the logarithm of the increment is treated as a rate of the rotation vector."
  },
  {
   "property": "C70",
   "status": "partial",
   "theorems": [
    "Verif.Orient.C70_error_zero_iff",
    "Verif.Orient.C70_error_rotates_partial",
    "Verif.Orient.C70_error_representation"
   ],
   "note": "Rotating by the error is exact only outside the small-angle branch, as C51_violated shows."
  },
  {
   "property": "C71",
   "status": "partial",
   "theorems": [
    "Verif.Terrain.C71_normal_violated",
    "Verif.Terrain.C71_normal_partial",
    "Verif.Terrain.C71_rotation_iff",
    "Verif.Terrain.C71_rotation_violated"
   ],
   "note": "False of the code: the reported normal is always the opposite one; the rotation is a rotation matrix exactly when the first corner angle is a right angle."
  },
  {
   "property": "C72",
   "status": "proved",
   "theorems": [
    "Verif.Terrain.C72_add",
    "Verif.Terrain.C72_load"
   ],
   "note": ""
  },
  {
   "property": "C73",
   "status": "partial",
   "theorems": [
    "Verif.Settings.C73_conic_solver_settings",
    "Verif.Settings.C73_lqr_settings",
    "Verif.Settings.C73_planner_settings_partial",
    "Verif.Settings.C73_planner_settings_violated"
   ],
   "note": "Proved for the conic and LQR settings; false for exactly one pair of planner parameters (RobotWeight, MassTimesGravity), which share a member."
  },
  {
   "property": "C74",
   "status": "partial",
   "theorems": [
    "Verif.Settings.C74_load_derives_partial",
    "Verif.Settings.C74_complete_file_loads",
    "Verif.Settings.C74_load_derives_violated",
    "Verif.Settings.C74_missing_key_violated"
   ],
   "note": "Holds when nothing was thrown, in particular for every complete file; false otherwise since the error is only printed."
  },
  {
   "property": "C75",
   "status": "partial",
   "theorems": [
    "Verif.Settings.C75_steps_consistent_partial",
    "Verif.Settings.C75_steps_consistent_after_load",
    "Verif.Settings.C75_steps_consistent_violated"
   ],
   "note": "Holds after loading and after writes to other parameters; false after a write to the time step."
  },
  {
   "property": "C76",
   "status": "proved",
   "theorems": [
    "Verif.Settings.C76_linesearch_steps"
   ],
   "note": ""
  },
  {
   "property": "C77",
   "status": "proved",
   "theorems": [
    "Verif.IP.C77_raw_step_safe",
    "Verif.IP.C77_step_safe",
    "Verif.IP.C77_step_bounds"
   ],
   "note": ""
  },
  {
   "property": "C78",
   "status": "proved",
   "theorems": [
    "Verif.IP.C78_iterate_stays_inside"
   ],
   "note": ""
  },
  {
   "property": "C79",
   "status": "proved",
   "theorems": [
    "Verif.IP.C79_residuals_shrink"
   ],
   "note": ""
  },
  {
   "property": "C80",
   "status": "proved",
   "theorems": [
    "Verif.IP.C80_primal_infeasible",
    "Verif.IP.C80_dual_infeasible"
   ],
   "note": ""
  },
  {
   "property": "C81",
   "status": "proved",
   "theorems": [
    "Verif.ContactPlan.C81_swing_orientation"
   ],
   "note": ""
  },
  {
   "property": "C82",
   "status": "partial",
   "theorems": [
    "Verif.Traj.C82_flight_phase_partial",
    "Verif.Traj.C82_single_step_violated"
   ],
   "note": "Flight phases of at least two steps; false for single-step phases, whose conditions contradict each other."
  },
  {
   "property": "C83",
   "status": "partial",
   "theorems": [
    "Verif.MinJerk.C83_contact_plan_partial",
    "Verif.MinJerk.C83_last_contact_violated",
    "Verif.MinJerk.C83_initial_swing_violated"
   ],
   "note": "Proved for end-effectors in contact at the first step and phases ending before the last step; the contact lasting to the end of the horizon is dropped, and an initial swing phase is entered as a contact."
  },
  {
   "property": "C84",
   "status": "partial",
   "theorems": [
    "Verif.MinJerk.C84_end_effector_trajectory",
    "Verif.MinJerk.C84_references_partial",
    "Verif.MinJerk.C84_standing_violated",
    "Verif.MinJerk.C84_last_contact_violated",
    "Verif.MinJerk.C84_velocity_per_time"
   ],
   "note": "Proved for exact linear solves and the contacts of the contact plan; false for an end-effector that never moves (raises) and for the last contact (ignored)."
  },
  {
   "property": "C85",
   "status": "proved",
   "theorems": [
    "Verif.MinJerk.C85_via_points",
    "Verif.MinJerk.C85_no_via"
   ],
   "note": ""
  },
  {
   "property": "C86",
   "status": "proved",
   "theorems": [
    "Verif.IP.C86_kept_iterate_improves",
    "Verif.IP.C86_fallback_not_worse"
   ],
   "note": ""
  },
  {
   "property": "C87",
   "status": "proved",
   "theorems": [
    "Verif.IP.C87_gap",
    "Verif.IP.C87_gap_rate"
   ],
   "note": "Exact linear solves (C23 and the refinement are separate properties)."
  },
  {
   "property": "C88",
   "status": "proved",
   "theorems": [
    "Verif.Lin.C88_operator",
    "Verif.Lin.C88_initial"
   ],
   "note": "Exact reals; no empty second-order cone; no entry stored twice in A or G."
  },
  {
   "property": "C89",
   "status": "proved",
   "theorems": [
    "Verif.Lin.C89_factorization",
    "Verif.Lin.C89_initial",
    "Verif.Lin.C89_direction"
   ],
   "note": "The regularisation of the last auxiliary pivot leaves an explicit rank-one term in every second-order cone."
  },
  {
   "property": "C90",
   "status": "partial",
   "theorems": [
    "Verif.Lin.C90_refinement",
    "Verif.Lin.C90_none",
    "Verif.Lin.C90_exact",
    "Verif.Lin.C90_residual",
    "Verif.Lin.C90_residual_init",
    "Verif.Lin.C90_exact_violated"
   ],
   "note": "Bound on the steps and monotonicity proved for every factorisation; the measured error is not the residual of the factorised system with second-order cones (wrong sign of the regularisation in the last entry, missing in the auxiliary row), so an exact solution is not recognised there."
  },
  {
   "property": "C91",
   "status": "proved",
   "theorems": [
    "Verif.Rt.C91_task_of_rank",
    "Verif.Rt.C91_clean"
   ],
   "note": "Models built with the constructor map of variables and without user-written composers."
  },
  {
   "property": "C92",
   "status": "proved",
   "theorems": [
    "Verif.Rt.C92_solve_ranks",
    "Verif.Rt.C92_negative_rank_ignored"
   ],
   "note": "Constraints with a negative rank are silently ignored."
  },
  {
   "property": "C93",
   "status": "partial",
   "theorems": [
    "Verif.Rt.C93_violated",
    "Verif.RtSolve.C93_hqp_violated"
   ],
   "note": "Violated: the flag is set back to true after the search, so every level is solved with slacks."
  },
  {
   "property": "C94",
   "status": "proved",
   "theorems": [
    "Verif.Rt.C94_append",
    "Verif.Rt.C94_appendAtColumn",
    "Verif.Rt.C94_appendRowsOfRank",
    "Verif.Rt.C94_vector"
   ],
   "note": ""
  },
  {
   "property": "C95",
   "status": "partial",
   "theorems": [
    "Verif.RtQP.C95_optimal_partial",
    "Verif.RtQP.C95_optimal_relaxed_partial",
    "Verif.RtQP.C95_violated",
    "Verif.RtQP.C95_violated_dependent"
   ],
   "note": "Proved for runs in which the zero tests decide correctly (RtQP.Regular; always the case for eps = 0, C98). With the machine epsilon the statement is false: two witnesses."
  },
  {
   "property": "C96",
   "status": "partial",
   "theorems": [
    "Verif.RtQP.C96_infeasible_partial",
    "Verif.RtQP.C96_violated"
   ],
   "note": "Proved for runs in which the zero tests decide correctly; with the machine epsilon false: witness 1e-9 x + 1 <= 0."
  },
  {
   "property": "C97",
   "status": "partial",
   "theorems": [
    "Verif.RtQP.C97_terminates_partial",
    "Verif.RtQP.C97_violated",
    "Verif.RtQP.C97_rejected_forever"
   ],
   "note": "Proved for runs in which the zero tests decide correctly; false otherwise: every run without equalities in which the constraint just chosen is rejected loops forever, with a reachable witness."
  },
  {
   "property": "C98",
   "status": "proved",
   "theorems": [
    "Verif.RtQP.C98_exact"
   ],
   "note": "Total correctness for eps = 0 (exact reals)."
  },
  {
   "property": "C99",
   "status": "proved",
   "theorems": [
    "Verif.RtQP.C99_factorisation"
   ],
   "note": ""
  },
  {
   "property": "C100",
   "status": "proved",
   "theorems": [
    "Verif.RtHqp.C100_equalities_kept"
   ],
   "note": "The SVD and the QP solver enter through their contracts (SvdOk, QpOk)."
  },
  {
   "property": "C101",
   "status": "proved",
   "theorems": [
    "Verif.RtHqp.C101_lexicographic"
   ],
   "note": ""
  },
  {
   "property": "C102",
   "status": "proved",
   "theorems": [
    "Verif.RtHqp.C102_inequalities_kept",
    "Verif.RtHqp.C102_inequalities_bound"
   ],
   "note": ""
  },
  {
   "property": "C103",
   "status": "partial",
   "theorems": [
    "Verif.RtHqp.C103_violated",
    "Verif.RtHqp.C102_inequalities_bound"
   ],
   "note": "Violated: a later task doubles the violation; only the bound v + m (v + relax + tol) holds."
  },
  {
   "property": "C104",
   "status": "proved",
   "theorems": [
    "Verif.RtHqp.C104_nullspace_dimension"
   ],
   "note": ""
  },
  {
   "property": "C105",
   "status": "partial",
   "theorems": [
    "Verif.RtHqp.C105_memory_partial",
    "Verif.RtHqp.C105_violated"
   ],
   "note": "Proved for at most seven non-empty tasks; false beyond."
  },
  {
   "property": "C106",
   "status": "proved",
   "theorems": [
    "Verif.RtHqp.C106_always_solved"
   ],
   "note": ""
  },
  {
   "property": "C107",
   "status": "proved",
   "theorems": [
    "Verif.RtHqp.C107_composed",
    "Verif.RtHqp.svds_exist",
    "Verif.RtHqp.chols_exist"
   ],
   "note": "Zero tests at eps = 0; Eigen SVD and LLT through their contracts, which are shown to be satisfiable."
  },
  {
   "property": "C108",
   "status": "proved",
   "theorems": [
    "Verif.Kin.C108_constraints",
    "Verif.Kin.C108_solver_problem"
   ],
   "note": ""
  },
  {
   "property": "C109",
   "status": "proved",
   "theorems": [
    "Verif.Kin.C109_objective",
    "Verif.Kin.C109_minimiser",
    "Verif.Kin.C109_attained"
   ],
   "note": ""
  },
  {
   "property": "C110",
   "status": "proved",
   "theorems": [
    "Verif.Kin.C110_registration"
   ],
   "note": ""
  },
  {
   "property": "C111",
   "status": "partial",
   "theorems": [
    "Verif.Kin.C111_returned_partial",
    "Verif.Kin.C111_violated"
   ],
   "note": "Proved when the active dofs are a prefix of the dofs; false otherwise."
  },
  {
   "property": "C112",
   "status": "partial",
   "theorems": [
    "Verif.Kin.C112_inactive_partial",
    "Verif.Kin.C112_violated"
   ],
   "note": "Proved when the active dofs are a prefix of the dofs; false otherwise."
  },
  {
   "property": "C113",
   "status": "proved",
   "theorems": [
    "Verif.Kin.C113_posture_problem",
    "Verif.Kin.C113_limits",
    "Verif.Kin.C113_solves"
   ],
   "note": ""
  },
  {
   "property": "C114",
   "status": "proved",
   "theorems": [
    "Verif.Kin.C114_momentum_ignored"
   ],
   "note": "The constraint that would couple them (KinematicsOptimizer.cpp, total_qd) is commented out in the code."
  },
  {
   "property": "C115",
   "status": "proved",
   "theorems": [
    "Verif.Kin.C115_calls"
   ],
   "note": ""
  },
  {
   "property": "C116",
   "status": "proved",
   "theorems": [
    "Verif.Kin.C116_initial",
    "Verif.Kin.C116_all_fail"
   ],
   "note": ""
  },
  {
   "property": "C117",
   "status": "partial",
   "theorems": [
    "Verif.Kin.C117_motion_partial",
    "Verif.Kin.C117_violated"
   ],
   "note": "Proved for prefix active dofs unless every trajectory problem fails; false otherwise."
  },
  {
   "property": "C118",
   "status": "proved",
   "theorems": [
    "Verif.Kin.C118_replay",
    "Verif.Kin.C118_last_not_shown"
   ],
   "note": ""
  },
  {
   "property": "C119",
   "status": "proved",
   "theorems": [
    "Verif.Dyn.C119_constraints"
   ],
   "note": ""
  },
  {
   "property": "C120",
   "status": "proved",
   "theorems": [
    "Verif.Dyn.C120_objective"
   ],
   "note": ""
  },
  {
   "property": "C121",
   "status": "proved",
   "theorems": [
    "Verif.Dyn.C121_registration"
   ],
   "note": ""
  },
  {
   "property": "C122",
   "status": "proved",
   "theorems": [
    "Verif.Dyn.C122_solver_problem",
    "Verif.Dyn.C122_minimiser"
   ],
   "note": ""
  },
  {
   "property": "C123",
   "status": "proved",
   "theorems": [
    "Verif.Dyn.C123_stored_plan"
   ],
   "note": ""
  },
  {
   "property": "C124",
   "status": "partial",
   "theorems": [
    "Verif.Dyn.C124_residual_partial",
    "Verif.Dyn.C124_violated"
   ],
   "note": "Holds for center of mass and linear momentum; false for the angular momentum of a converged iteration (old durations)."
  },
  {
   "property": "C125",
   "status": "partial",
   "theorems": [
    "Verif.Dyn.C125_loop_partial",
    "Verif.Dyn.C125_converged_partial",
    "Verif.Dyn.C125_violated"
   ],
   "note": "Bound and rule proved; false for the first plan: the loop tests convergence only after solving again."
  },
  {
   "property": "C126",
   "status": "partial",
   "theorems": [
    "Verif.Dyn.C126_settings_partial",
    "Verif.Dyn.C126_objective_after_tracking",
    "Verif.Dyn.C126_violated"
   ],
   "note": "False: the tracking call overwrites the caller's momentum weights."
  },
  {
   "property": "C127",
   "status": "proved",
   "theorems": [
    "Verif.Dyn.C127_contact_point_torque"
   ],
   "note": ""
  },
  {
   "property": "C128",
   "status": "partial",
   "theorems": [
    "Verif.Dyn.C128_first_contact_partial",
    "Verif.Dyn.C128_violated"
   ],
   "note": "Holds with respect to the contact of end-effector 0 at step 0; false for later contacts."
  },
  {
   "property": "C129",
   "status": "proved",
   "theorems": [
    "Verif.Dyn.C129_trust_region_accuracy"
   ],
   "note": ""
  },
  {
   "property": "C130",
   "status": "partial",
   "theorems": [
    "Verif.Dyn.C130_penalty_at_fixed_point",
    "Verif.Dyn.C130_violated"
   ],
   "note": "The exact value of the penalty is proved; it vanishes only without motion."
  },
  {
   "property": "C131",
   "status": "partial",
   "theorems": [
    "Verif.PyIk.C131_qp_partial",
    "Verif.PyIk.C131_infeasible_raises",
    "Verif.PyIk.quadprog_ok_exists"
   ],
   "note": "Given the contract of quadprog (proved satisfiable) the wrapper solves the documented program; for inconsistent constraints it raises instead of returning None."
  },
  {
   "property": "C132",
   "status": "proved",
   "theorems": [
    "Verif.PyIk.C132_ik_optimal"
   ],
   "note": ""
  },
  {
   "property": "C133",
   "status": "proved",
   "theorems": [
    "Verif.PyIk.C133_history"
   ],
   "note": ""
  },
  {
   "property": "C134",
   "status": "proved",
   "theorems": [
    "Verif.PyMko.C134_trajectory"
   ],
   "note": ""
  },
  {
   "property": "C135",
   "status": "proved",
   "theorems": [
    "Verif.PyMko.C135_flight"
   ],
   "note": "The momentum carried over is that of the last contact velocity at the configuration before it; vertical momentum starts from the planned one."
  },
  {
   "property": "C136",
   "status": "partial",
   "theorems": [
    "Verif.PyMko.C136_returns_partial",
    "Verif.PyMko.C136_flight_start_violated"
   ],
   "note": "Returns when the first step has a contact (and any momentum is attainable); raises when the plan starts in the air."
  },
  {
   "property": "C137",
   "status": "partial",
   "theorems": [
    "Verif.PyMko.C137_dynamics_data_partial",
    "Verif.PyMko.C137_dynamics_data_violated"
   ],
   "note": "Rows of steps before a flight phase are overwritten through a numpy view; all other rows are those of the plan."
  },
  {
   "property": "C138",
   "status": "partial",
   "theorems": [
    "Verif.PyMko.C138_history_partial",
    "Verif.PyMko.C138_initial_state_violated"
   ],
   "note": "Independent of history except that the initial state of the first call is used for ever."
  },
  {
   "property": "C139",
   "status": "partial",
   "theorems": [
    "Verif.PyMko.C139_recorded_partial",
    "Verif.PyMko.C139_velocity_violated"
   ],
   "note": "Everything but the end-effector velocity is consistent; that uses the Jacobian of the previous configuration."
  },
  {
   "property": "C140",
   "status": "partial",
   "theorems": [
    "Verif.PyMko.C140_initial_partial",
    "Verif.PyMko.C140_failed_though_found_violated",
    "Verif.PyMko.C140_no_iterations_violated"
   ],
   "note": "Failure is also printed when the configuration was found in the last iteration; budget 0 raises."
  },
  {
   "property": "C141",
   "status": "proved",
   "theorems": [
    "Verif.PyExec.C141_interpolation",
    "Verif.PyExec.C141_samples_and_bounds",
    "Verif.PyExec.Interp.unique"
   ],
   "note": ""
  },
  {
   "property": "C142",
   "status": "proved",
   "theorems": [
    "Verif.PyExec.C142_time_vector"
   ],
   "note": ""
  },
  {
   "property": "C143",
   "status": "partial",
   "theorems": [
    "Verif.PyExec.C143_rows",
    "Verif.PyExec.C143_quaternion_partial",
    "Verif.PyExec.C143_quaternion_violated"
   ],
   "note": "Rows proved; exported quaternions have norm at most one, not one."
  },
  {
   "property": "C144",
   "status": "partial",
   "theorems": [
    "Verif.PyExec.C144_leg_order",
    "Verif.PyExec.C144_rest",
    "Verif.PyExec.C144_points",
    "Verif.PyExec.C144_centroidal",
    "Verif.PyExec.C144_velocities_violated",
    "Verif.PyExec.C144_abs_order_violated"
   ],
   "note": "All but: quadruped_velocities.dat holds end-effector velocities, and the two exporters order the legs of the absolute positions differently."
  },
  {
   "property": "C145",
   "status": "partial",
   "theorems": [
    "Verif.PyExec.C145_roundtrip",
    "Verif.PyExec.C145_torque_partial",
    "Verif.PyExec.C145_torque_violated"
   ],
   "note": "Round trip proved; torques are right exactly for joint orders that are involutions."
  },
  {
   "property": "C146",
   "status": "partial",
   "theorems": [
    "Verif.PyExec.C146_time_step",
    "Verif.PyExec.C146_short_plan_violated",
    "Verif.PyExec.C146_lag_violated"
   ],
   "note": "Right while the plan lasts when time steps last at least 1 ms; plans ending before 3.999 s raise; shorter steps lag."
  },
  {
   "property": "C147",
   "status": "partial",
   "theorems": [
    "Verif.PyExec.C147_velocity_partial",
    "Verif.PyExec.C147_velocity_violated"
   ],
   "note": "The time since the start is used instead of the time since the previous pass."
  },
  {
   "property": "C148",
   "status": "proved",
   "theorems": [
    "Verif.PyExec.C148_limit"
   ],
   "note": ""
  },
  {
   "property": "C149",
   "status": "partial",
   "theorems": [
    "Verif.PyExec.C149_swing_times",
    "Verif.PyExec.C149_clear_of_ground_violated"
   ],
   "note": "Maximal runs of readings proved; without a contact point there is no reading, so swing phases clear of the ground are not recorded."
  },
  {
   "property": "C150",
   "status": "partial",
   "theorems": [
    "Verif.PyExec.C150_contact_partial",
    "Verif.PyExec.C150_contact_violated"
   ],
   "note": "The flag is raised when either of the two neighbouring samples is loaded."
  },
  {
   "property": "C151",
   "status": "proved",
   "theorems": [
    "Verif.PyIk2.C151_weighted"
   ],
   "note": ""
  },
  {
   "property": "C152",
   "status": "partial",
   "theorems": [
    "Verif.PyIk2.C152_hierarchy_partial",
    "Verif.PyIk2.C152_other_robots_violated",
    "Verif.PyIk2.exists_penrose"
   ],
   "note": "Proved for four end-effectors; for any other number the slice J[6:18] mixes in joint rows."
  },
  {
   "property": "C153",
   "status": "partial",
   "theorems": [
    "Verif.PyIk2.C153_motion_partial",
    "Verif.PyIk2.C153_returns",
    "Verif.PyIk2.C153_plan_time_violated",
    "Verif.PyIk2.C153_short_step_violated"
   ],
   "note": "Right for time steps that are whole milliseconds; others drop the fraction, and steps below 1 ms raise."
  },
  {
   "property": "C154",
   "status": "partial",
   "theorems": [
    "Verif.PyIk2.C154_solve",
    "Verif.PyIk2.C154_optimize_partial",
    "Verif.PyIk2.C154_velocity_violated"
   ],
   "note": "End-effector velocities stored by optimize use the Jacobian of the search for the initial configuration."
  },
  {
   "property": "C155",
   "status": "proved",
   "theorems": [
    "Verif.PyLqr.C155_optimal",
    "Verif.PyLqr.C155_end_effector"
   ],
   "note": ""
  },
  {
   "property": "C156",
   "status": "partial",
   "theorems": [
    "Verif.PyLqr.C156_rows_partial",
    "Verif.PyLqr.C156_first_row_violated"
   ],
   "note": "The loop of the centroidal version stops before time step 0; row i belongs to time step i+1."
  },
  {
   "property": "C157",
   "status": "partial",
   "theorems": [
    "Verif.PyLqr.C157_states_partial",
    "Verif.PyLqr.C157_violated",
    "Verif.PyLqr.C157_controls_partial",
    "Verif.PyLqr.C157_controls_violated"
   ],
   "note": "Two signs of pd_omega are wrong and the inertia is not turned; exact characterisation of when the rows are right."
  },
  {
   "property": "C158",
   "status": "partial",
   "theorems": [
    "Verif.PyLqr.C158_moment_partial",
    "Verif.PyLqr.C158_motion_partial",
    "Verif.PyLqr.C158_violated_moment",
    "Verif.PyLqr.C158_violated_frame"
   ],
   "note": "Sign error in the third row of compute_r_cross, inertia turned by the inverse rotation."
  },
  {
   "property": "C159",
   "status": "partial",
   "theorems": [
    "Verif.PyLqr.C159_weights_partial",
    "Verif.PyLqr.C159_violated"
   ],
   "note": "The script overwrites its state weight with zeros, so that all gains are zero."
  },
  {
   "property": "C160",
   "status": "proved",
   "theorems": [
    "Verif.PyLqr.C160_files",
    "Verif.PyLqr.C160_width"
   ],
   "note": ""
  },
  {
   "property": "C161",
   "status": "partial",
   "theorems": [
    "Verif.PyLqr.C161_states",
    "Verif.PyLqr.C161_controls_partial",
    "Verif.PyLqr.C161_controls_violated"
   ],
   "note": "Exact except for the controls just before a flight phase."
  },
  {
   "property": "C162",
   "status": "partial",
   "theorems": [
    "Verif.PyLqr.C162_columns_partial",
    "Verif.PyLqr.C162_violated"
   ],
   "note": "compute_dyn uses the stored centre of mass, not the one of the state."
  },
  {
   "property": "C163",
   "status": "proved",
   "theorems": [
    "Verif.PyMan.C163_product",
    "Verif.PyMan.C163_rotation",
    "Verif.PyMan.C163_group"
   ],
   "note": ""
  },
  {
   "property": "C164",
   "status": "partial",
   "theorems": [
    "Verif.PyMan.C164_closed_form",
    "Verif.PyMan.C164_small_norm",
    "Verif.PyMan.C164_small_partial",
    "Verif.PyMan.C164_small_violated"
   ],
   "note": "Exact beyond the threshold; below it a truncated series, off by at most 1e-13 and never of norm one."
  },
  {
   "property": "C165",
   "status": "proved",
   "theorems": [
    "Verif.PyMan.C165_step",
    "Verif.PyMan.C165_flight",
    "Verif.PyMan.C165_flag"
   ],
   "note": ""
  },
  {
   "property": "C166",
   "status": "partial",
   "theorems": [
    "Verif.PyMan.C166_norm_partial",
    "Verif.PyMan.C166_violated"
   ],
   "note": "Never fails, the norm drifts by at most a factor 1 - 1e-12/12 (squared norm) per step; it does drift for every slow rotation."
  },
  {
   "property": "C167",
   "status": "partial",
   "theorems": [
    "Verif.PyMan.C167_difference_partial",
    "Verif.PyMan.C167_inverse_partial",
    "Verif.PyMan.C167_antisymm",
    "Verif.PyMan.C167_self",
    "Verif.PyMan.C167_small_violated"
   ],
   "note": "Exact outside the branches for small arguments, which are not inverse to each other."
  },
  {
   "property": "C168",
   "status": "partial",
   "theorems": [
    "Verif.PyMan.C168_sign_violated",
    "Verif.PyMan.C168_orientation_partial"
   ],
   "note": "Opposite quaternions give differences of different length."
  },
  {
   "property": "C169",
   "status": "partial",
   "theorems": [
    "Verif.PyMan.C169_sign",
    "Verif.PyMan.C169_violated",
    "Verif.PyMan.C169_gains_partial",
    "Verif.PyMan.C169_stored_partial"
   ],
   "note": "The matrices are the negatives of the difference quotients; the stored gains do not depend on the sign."
  },
  {
   "property": "C170",
   "status": "partial",
   "theorems": [
    "Verif.PyMan.C170_true",
    "Verif.PyMan.C170_formula_partial",
    "Verif.PyMan.C170_violated"
   ],
   "note": "Line 295 subtracts instead of adding eps; exact formula of the result, which is indefinite with the weights of the script."
  },
  {
   "property": "C171",
   "status": "partial",
   "theorems": [
    "Verif.PyMan.C171_minimum",
    "Verif.PyMan.C171_linear_partial",
    "Verif.PyMan.C171_smooth_violated"
   ],
   "note": "Holds when Qdudu is positive definite; with the smoothed inverse the second derivative of the value function is wrong."
  },
  {
   "property": "C172",
   "status": "partial",
   "theorems": [
    "Verif.PyMan.C172_optimal_partial",
    "Verif.PyMan.C172_symm",
    "Verif.PyMan.C172_violated"
   ],
   "note": "Holds when all Qdudu are positive definite, which fails with the weights of the script for every plan ending in contact."
  },
  {
   "property": "C173",
   "status": "proved",
   "theorems": [
    "Verif.PyMan.C173_flight"
   ],
   "note": ""
  },
  {
   "property": "C174",
   "status": "proved",
   "theorems": [
    "Verif.PyMan.C174_rows"
   ],
   "note": ""
  },
  {
   "property": "C175",
   "status": "proved",
   "theorems": [
    "Verif.Cont.C175_load"
   ],
   "note": ""
  },
  {
   "property": "C176",
   "status": "partial",
   "theorems": [
    "Verif.Cont.C176_prefix_partial",
    "Verif.Cont.C176_violated"
   ],
   "note": "An exception half-way leaves a mixture of old and new contacts."
  },
  {
   "property": "C177",
   "status": "proved",
   "theorems": [
    "Verif.Cont.C177_placement",
    "Verif.Cont.C177_orientation"
   ],
   "note": ""
  },
  {
   "property": "C178",
   "status": "partial",
   "theorems": [
    "Verif.Cont.C178_rotation_partial",
    "Verif.Cont.C178_violated"
   ],
   "note": "The quaternion of the file is not normalised; exact characterisation of when the placement is rigid."
  },
  {
   "property": "C179",
   "status": "partial",
   "theorems": [
    "Verif.Cont.C179_initial_partial",
    "Verif.Cont.C179_violated"
   ],
   "note": "Holds when everything can be read; otherwise a mixture is left and the exception swallowed."
  },
  {
   "property": "C180",
   "status": "proved",
   "theorems": [
    "Verif.Cont.C180_positions",
    "Verif.Cont.C180_velocities",
    "Verif.Cont.C180_fresh"
   ],
   "note": ""
  },
  {
   "property": "C181",
   "status": "partial",
   "theorems": [
    "Verif.Plan.C181_setters_partial",
    "Verif.Plan.C181_violated",
    "Verif.Plan.C181_violated_witness"
   ],
   "note": "setEffTorque writes the position."
  },
  {
   "property": "C182",
   "status": "proved",
   "theorems": [
    "Verif.Plan.C182_alternation",
    "Verif.Plan.C182_no_iterations"
   ],
   "note": ""
  },
  {
   "property": "C183",
   "status": "partial",
   "theorems": [
    "Verif.Plan.C183_arguments_partial",
    "Verif.Plan.C183_command_line",
    "Verif.Plan.C183_help",
    "Verif.Plan.C183_missing_file",
    "Verif.Plan.C183_violated"
   ],
   "note": "The feedback cannot be switched on."
  },
  {
   "property": "C184",
   "status": "partial",
   "theorems": [
    "Verif.Plan.C184_solo8_partial",
    "Verif.Plan.C184_three_partial",
    "Verif.Plan.C184_violated"
   ],
   "note": "The slices for three joints per leg set only the first leg as intended."
  },
  {
   "property": "C185",
   "status": "partial",
   "theorems": [
    "Verif.Plan.C185_row_partial",
    "Verif.Plan.C185_row_violated",
    "Verif.Plan.C185_call_violated",
    "Verif.Plan.C185_delivery_violated"
   ],
   "note": "A property is called, the results are stored under names the C++ side does not read, and the rows use the local axes."
  },
  {
   "property": "C186",
   "status": "proved",
   "theorems": [
    "Verif.Plan.C186_jacobian"
   ],
   "note": ""
  },
  {
   "property": "C187",
   "status": "partial",
   "theorems": [
    "Verif.Plan.C187_position_partial",
    "Verif.Plan.C187_violated"
   ],
   "note": "set_configuration does not recompute the placements."
  },
  {
   "property": "C188",
   "status": "partial",
   "theorems": [
    "Verif.Plan.C188_work_partial",
    "Verif.Plan.C188_configuration_partial",
    "Verif.Plan.C188_violated"
   ],
   "note": "Holds at the configuration the jacobian belongs to, which is not the measured one."
  },
  {
   "property": "C189",
   "status": "partial",
   "theorems": [
    "Verif.Plan.C189_labels_violated",
    "Verif.Plan.C189_force_partial",
    "Verif.Plan.C189_force_violated"
   ],
   "note": "Labels are exchanged diagonally; only the last contact point of a foot counts."
  },
  {
   "property": "C190",
   "status": "proved",
   "theorems": [
    "Verif.Plan.C190_quat2mat",
    "Verif.Plan.C190_patch",
    "Verif.Plan.C190_timesteps"
   ],
   "note": ""
  },
  {
   "property": "C191",
   "status": "proved",
   "theorems": [
    "Verif.Plan.C191_norm",
    "Verif.Plan.C191_hidden"
   ],
   "note": ""
  },
  {
   "property": "C192",
   "status": "proved",
   "theorems": [
    "Verif.BnBLink.C192_branch",
    "Verif.BnBLink.C192_in_place",
    "Verif.BnBLink.C192_root",
    "Verif.BnBLink.C192_equilibrated"
   ],
   "note": ""
  },
  {
   "property": "C193",
   "status": "partial",
   "theorems": [
    "Verif.BnBLink.C193_cost_partial",
    "Verif.BnBLink.C193_violated"
   ],
   "note": "The stored cost is divided by the scaling while the vector is scaled back: the ranking is right without equilibration, reversed in a problem with two binaries for any number of rounds."
  },
  {
   "property": "C194",
   "status": "partial",
   "theorems": [
    "Verif.BnBLink.C194_optimal_partial",
    "Verif.BnBLink.C194_violated"
   ],
   "note": "Holds for an exact relaxation solver and no equilibration; an infeasible root relaxation with integral entries is reported Optimal."
  },
  {
   "property": "C195",
   "status": "proved",
   "theorems": [
    "Verif.RtQPIf.C195_append",
    "Verif.RtQPIf.C195_build",
    "Verif.RtQPIf.C195_reset"
   ],
   "note": ""
  },
  {
   "property": "C196",
   "status": "proved",
   "theorems": [
    "Verif.RtQPIf.C196_check",
    "Verif.RtQPIf.C196_feasible",
    "Verif.RtQPIf.C196_report",
    "Verif.RtQPIf.C196_feasibility_only"
   ],
   "note": ""
  },
  {
   "property": "C197",
   "status": "partial",
   "theorems": [
    "Verif.RtQPIf.C197_optimal",
    "Verif.RtQPIf.C197_zero_iff",
    "Verif.RtQPIf.C197_inactive_partial",
    "Verif.RtQPIf.C197_solver",
    "Verif.RtQPIf.C197_violated"
   ],
   "note": "Zero at every minimiser; zero characterised exactly; but zero also at a feasible point whose active inequality has a multiplier of the wrong sign."
  },
  {
   "property": "C198",
   "status": "partial",
   "theorems": [
    "Verif.RtQPIf.C198_pinv_partial",
    "Verif.RtQPIf.C198_violated",
    "Verif.RtQPIf.C198_range"
   ],
   "note": "Right if at most the last singular value is small; otherwise later entries keep old content, and the last line always addresses one entry too many."
  },
  {
   "property": "C199",
   "status": "proved",
   "theorems": [
    "Verif.RtQPIf.C199_condition",
    "Verif.RtQPIf.C199_wide"
   ],
   "note": ""
  },
  {
   "property": "C200",
   "status": "partial",
   "theorems": [
    "Verif.LqrSeq.C200_update",
    "Verif.LqrSeq.C200_short",
    "Verif.LqrSeq.C200_scale",
    "Verif.LqrSeq.C200_assign_partial",
    "Verif.LqrSeq.C200_violated"
   ],
   "note": "All but self-assignment and assignment of an empty sequence."
  },
  {
   "property": "C201",
   "status": "partial",
   "theorems": [
    "Verif.LqrSeq.C201_first_partial",
    "Verif.LqrSeq.C201_violated"
   ],
   "note": "Holds for a new problem; on re-initialisation the old states stay in front."
  },
  {
   "property": "C202",
   "status": "partial",
   "theorems": [
    "Verif.LqrSeq.C202_same_partial",
    "Verif.LqrSeq.C202_violated"
   ],
   "note": "Holds for repeated initialisation with one problem; with another problem the derivatives are those of the first."
  },
  {
   "property": "C203",
   "status": "partial",
   "theorems": [
    "Verif.LqrSeq.C203_store",
    "Verif.LqrSeq.C203_load_partial",
    "Verif.LqrSeq.C203_violated"
   ],
   "note": "The file is complete; only the feedback is loaded."
  },
  {
   "property": "C204",
   "status": "proved",
   "theorems": [
    "Verif.LqrSeq.C204_step",
    "Verif.LqrSeq.C204_error",
    "Verif.LqrSeq.C204_order"
   ],
   "note": ""
  },
  {
   "property": "C205",
   "status": "partial",
   "theorems": [
    "Verif.Lbfgs.C205_wrapper_partial",
    "Verif.Lbfgs.C205_violated",
    "Verif.Lbfgs.C205_example"
   ],
   "note": "Holds for all histories without copies; a copied solver evaluates the problem of the original."
  },
  {
   "property": "C206",
   "status": "proved",
   "theorems": [
    "Verif.Lbfgs.C206_no_worse"
   ],
   "note": "Histories without copies."
  },
  {
   "property": "C207",
   "status": "proved",
   "theorems": [
    "Verif.Lbfgs.C207_penalty_method",
    "Verif.Lbfgs.C207_example"
   ],
   "note": ""
  },
  {
   "property": "C208",
   "status": "proved",
   "theorems": [
    "Verif.Lbfgs.C208_difference_accuracy",
    "Verif.Lbfgs.C208_example"
   ],
   "note": ""
  },
  {
   "property": "C209",
   "status": "proved",
   "theorems": [
    "Verif.Lbfgs.C209_success_convex",
    "Verif.Lbfgs.C209_example"
   ],
   "note": ""
  },
  {
   "property": "C210",
   "status": "proved",
   "theorems": [
    "Verif.LqrSeq.C210_step",
    "Verif.LqrSeq.C210_perturbed",
    "Verif.LqrSeq.C210_sensitivity"
   ],
   "note": ""
  },
  {
   "property": "C211",
   "status": "proved",
   "theorems": [
    "Verif.LqrSeq.C211_linear",
    "Verif.LqrSeq.C211_euler",
    "Verif.LqrSeq.C211_example"
   ],
   "note": "Runge-Kutta: linear systems."
  },
  {
   "property": "C212",
   "status": "proved",
   "theorems": [
    "Verif.ExecTune.C212_dialogue",
    "Verif.ExecTune.C212_only"
   ],
   "note": ""
  },
  {
   "property": "C213",
   "status": "partial",
   "theorems": [
    "Verif.ExecTune.C213_order_partial",
    "Verif.ExecTune.C213_violated",
    "Verif.ExecTune.C213_table"
   ],
   "note": "Holds exactly if the joints are listed in the order of pinocchio."
  },
  {
   "property": "C214",
   "status": "partial",
   "theorems": [
    "Verif.ExecTune.C214_momentum_partial",
    "Verif.ExecTune.C214_violated"
   ],
   "note": "All rows but the first."
  },
  {
   "property": "C215",
   "status": "proved",
   "theorems": [
    "Verif.Lqr.C215_dynamics",
    "Verif.Lqr.C215_objective"
   ],
   "note": ""
  },
  {
   "property": "C216",
   "status": "proved",
   "theorems": [
    "Verif.Lqr.C216_objective",
    "Verif.Lqr.C216_dynamics",
    "Verif.Lqr.C216_symmetric"
   ],
   "note": ""
  },
  {
   "property": "C217",
   "status": "proved",
   "theorems": [
    "Verif.Cone.C217_linear",
    "Verif.Cone.C217_product",
    "Verif.Cone.C217_division"
   ],
   "note": ""
  },
  {
   "property": "C218",
   "status": "proved",
   "theorems": [
    "Verif.ConicStore.C218_storage"
   ],
   "note": ""
  },
  {
   "property": "C219",
   "status": "proved",
   "theorems": [
    "Verif.ConicEnd.C219_constraints"
   ],
   "note": ""
  },
  {
   "property": "C220",
   "status": "proved",
   "theorems": [
    "Verif.ConicEnd.C220_objective"
   ],
   "note": ""
  },
  {
   "property": "C221",
   "status": "proved",
   "theorems": [
    "Verif.ConicEnd.C221_infeasible"
   ],
   "note": ""
  },
  {
   "property": "C222",
   "status": "proved",
   "theorems": [
    "Verif.Dyn.C222_plan"
   ],
   "note": ""
  },
  {
   "property": "C223",
   "status": "proved",
   "theorems": [
    "Verif.Dyn.C223_accumulated"
   ],
   "note": ""
  },
  {
   "property": "C224",
   "status": "proved",
   "theorems": [
    "Verif.Dyn.C224_angular_momentum"
   ],
   "note": ""
  },
  {
   "property": "C225",
   "status": "proved",
   "theorems": [
    "Verif.Kin.C225_plan"
   ],
   "note": ""
  },
  {
   "property": "C226",
   "status": "proved",
   "theorems": [
    "Verif.Kin.C226_posture",
    "Verif.Kin.C226_limits"
   ],
   "note": ""
  },
  {
   "property": "C227",
   "status": "proved",
   "theorems": [
    "Verif.Lbfgs.C227_cubic",
    "Verif.Lbfgs.C227_quadratic",
    "Verif.Lbfgs.C227_secant",
    "Verif.Lbfgs.C227_extrapolate",
    "Verif.Lbfgs.C227_inside"
   ],
   "note": "Real arithmetic; non-vacuity in Lbfgs.C227_example."
  },
  {
   "property": "C228",
   "status": "partial",
   "theorems": [
    "Verif.Lbfgs.C228_violated",
    "Verif.Lbfgs.C228_partial"
   ],
   "note": "The full statement is false of the code: when the interpolating cubic has no minimum, the limit to extrapolate to is chosen by the sign of theta instead of the direction, so the search can fall back to the smallest step. Proved: longer steps whenever the slope steepens or the interpolating cubic increases somewhere."
  },
  {
   "property": "C229",
   "status": "partial",
   "theorems": [
    "Verif.Dyn.C229_violated",
    "Verif.Dyn.C229_partial"
   ],
   "note": "The full statement is false of the code: the saved centres of pressure have one column per active time step. Proved for everything else, and by active time step for the centres of pressure."
  },
  {
   "property": "C230",
   "status": "partial",
   "theorems": [
    "Verif.Dyn.C230_violated",
    "Verif.Dyn.C230_partial"
   ],
   "note": "The full statement is false of the code: it fails when not all joints are active. Proved: exactly when saving works."
  },
  {
   "property": "C231",
   "status": "proved",
   "theorems": [
    "Verif.Lqr.C231_saturated_feedback",
    "Verif.Lqr.C231_within_limits"
   ],
   "note": ""
  },
  {
   "property": "C232",
   "status": "proved",
   "theorems": [
    "Verif.Settings.C232_file_reaches_getters"
   ],
   "note": ""
  },
  {
   "property": "C233",
   "status": "partial",
   "theorems": [
    "Verif.Settings.C233_chosen_formulation_partial",
    "Verif.Settings.C233_other_formulation",
    "Verif.Settings.C233_initial_posture_violated",
    "Verif.Settings.C233_without_kinematics_violated"
   ],
   "note": "The full statement is false of the code: with the second-order formulation the initial posture is found with the constructor defaults of the first-order solver, and without load_kinematics the formulation is whatever the object held. Proved for the formulation the file selects."
  },
  {
   "property": "C234",
   "status": "proved",
   "theorems": [
    "Verif.RtSolve.C234_solved",
    "Verif.RtSolve.C234_lexicographic"
   ],
   "note": "Exact arithmetic and factorisations; memory safety for more than seven non-empty ranks is C105."
  },
  {
   "property": "C235",
   "status": "proved",
   "theorems": [
    "Verif.RtSolve.C235_equalities_kept",
    "Verif.RtSolve.C235_inequalities_kept"
   ],
   "note": ""
  },
  {
   "property": "C236",
   "status": "proved",
   "theorems": [
    "Verif.DynPlan.C236_limits",
    "Verif.DynPlan.C236_plan",
    "Verif.DynPlan.C236_forces",
    "Verif.DynPlan.C236_start",
    "Verif.DynPlan.C236_start_forces",
    "Verif.DynPlan.C236_file"
   ],
   "note": "Exact arithmetic. Asks that end-effector 0 has a contact at the first step (the optimiser reads the height of that contact; otherwise C237)."
  },
  {
   "property": "C237",
   "status": "partial",
   "theorems": [
    "Verif.DynPlan.C237_lookups_partial",
    "Verif.DynPlan.C237_violated"
   ],
   "note": "The full statement is false of the code: the type of the contact is read before it is checked that there is one; every lookup is in range exactly if every end-effector has a contact at every time step."
  },
  {
   "property": "C238",
   "status": "partial",
   "theorems": [
    "Verif.DynPlan.C238_same_partial",
    "Verif.DynPlan.C238_refilled_partial",
    "Verif.DynPlan.C238_violated"
   ],
   "note": "The full statement is false of the code: activations of an earlier plan are not removed."
  },
  {
   "property": "C239",
   "status": "proved",
   "theorems": [
    "Verif.Slerp.C239_ends"
   ],
   "note": "Exact arithmetic; Eigen is external and modelled after its source."
  },
  {
   "property": "C240",
   "status": "proved",
   "theorems": [
    "Verif.Slerp.C240_uniform",
    "Verif.Slerp.C240_parallel"
   ],
   "note": "Exact arithmetic; Eigen is external and modelled after its source."
  },
  {
   "property": "C241",
   "status": "proved",
   "theorems": [
    "Verif.Swing.C241_swing"
   ],
   "note": "Exact arithmetic and an exact linear solver. Phases of a single step are excluded (see C82), and the via point is constrained only where the list has one (see C242)."
  },
  {
   "property": "C242",
   "status": "partial",
   "theorems": [
    "Verif.Swing.C242_own_partial",
    "Verif.Swing.C242_violated"
   ],
   "note": "The full statement is false of the code: the via point variable is shared by all end-effectors and not initialised. Proved for end-effectors with a via point for each of their phases."
  },
  {
   "property": "C243",
   "status": "proved",
   "theorems": [
    "Verif.Swing.C243_load",
    "Verif.Swing.C243_passes"
   ],
   "note": ""
  },
  {
   "property": "C244",
   "status": "proved",
   "theorems": [
    "Verif.PyPlan.C244_script",
    "Verif.PyPlan.C244_content",
    "Verif.PyPlan.C244_isolated"
   ],
   "note": "pybind11 is external: its copies of Eigen vectors and of list elements are part of the model."
  },
  {
   "property": "C245",
   "status": "proved",
   "theorems": [
    "Verif.PyPlan.C245_limits"
   ],
   "note": "Exact arithmetic."
  },
  {
   "property": "C246",
   "status": "proved",
   "theorems": [
    "Verif.PyPlan.C246_duration"
   ],
   "note": ""
  },
  {
   "property": "C247",
   "status": "partial",
   "theorems": [
    "Verif.PyPlan.C247_reload_violated",
    "Verif.PyPlan.C247_reload_partial"
   ],
   "note": "The full statement is false of the code: the lists are cleared before the contacts of the file are stored. It holds when the file cannot be opened."
  },
  {
   "property": "C248",
   "status": "proved",
   "theorems": [
    "Verif.IP.C248_denominator",
    "Verif.IP.C248_rate",
    "Verif.IP.C248_least_step"
   ],
   "note": "Exact arithmetic and an exact linear solver (the code regularises and refines; see C23, C88-C90)."
  },
  {
   "property": "C249",
   "status": "proved",
   "theorems": [
    "Verif.IP.C249_stops",
    "Verif.IP.C249_passes",
    "Verif.IP.C249_finite"
   ],
   "note": "Exact arithmetic and an exact linear solver; asks for a lower bound of tau."
  },
  {
   "property": "C250",
   "status": "proved",
   "theorems": [
    "Verif.IP.C250_bounded",
    "Verif.IP.C250_solvable",
    "Verif.IP.C250_infeasible"
   ],
   "note": "Exact arithmetic and an exact linear solver."
  },
  {
   "property": "C251",
   "status": "proved",
   "theorems": [
    "Verif.Settings.C251_load",
    "Verif.Settings.C251_returns",
    "Verif.Settings.C251_fresh"
   ],
   "note": "yaml-cpp is outside the model: a section is a partial map from key and type to values."
  },
  {
   "property": "C252",
   "status": "proved",
   "theorems": [
    "Verif.Settings.C252_load",
    "Verif.Settings.C252_coefficients"
   ],
   "note": "A time step of zero (undefined conversion in C++) gives zero steps in the model; a write past the end of the coefficient vector counts as a failed load."
  },
  {
   "property": "C253",
   "status": "partial",
   "theorems": [
    "Verif.Settings.C253_conic_violated",
    "Verif.Settings.C253_lqr_violated",
    "Verif.Settings.C253_reported_partial"
   ],
   "note": "The full statement is false of the code: a parse error is caught, printed and forgotten. Missing files, sections and values are reported."
  },
  {
   "property": "C254",
   "status": "proved",
   "theorems": [
    "Verif.Settings.C254_values",
    "Verif.Settings.C254_shipped",
    "Verif.Settings.C254_finite"
   ],
   "note": "The entries of the shipped file are transcribed."
  },
  {
   "property": "C255",
   "status": "partial",
   "theorems": [
    "Verif.Lbfgs.C255_negative_violated",
    "Verif.Lbfgs.C255_violated",
    "Verif.Lbfgs.C255_positive_partial"
   ],
   "note": "violated by the code for negative objective values (C255_negative_violated for every problem, C255_violated with a concrete run); exact for positive values"
  },
  {
   "property": "C256",
   "status": "partial",
   "theorems": [
    "Verif.RtQP.C256_memory_partial",
    "Verif.RtQP.C256_overdetermined_violated",
    "Verif.RtQP.C256_overdetermined_exact_violated",
    "Verif.RtQP.C256_rejected_violated"
   ],
   "note": "violated by the code (overdetermined equalities; a rejection while equalities are active); holds for p <= n up to the first rejection, for any data and any outcome of the zero tests"
  },
  {
   "property": "C257",
   "status": "proved",
   "theorems": [
    "Verif.Lbfgs.C257_rate",
    "Verif.Lbfgs.C257_iterations",
    "Verif.Lbfgs.C257_backtracking_total"
   ],
   "note": "Exact arithmetic. Success of the search is shown for Armijo backtracking; the other searches can end with an error code (limits on evaluations), the rate and the iteration bound hold for all four."
  },
  {
   "property": "C258",
   "status": "partial",
   "theorems": [
    "Verif.PyView.C258_curves_partial",
    "Verif.PyView.C258_contacts",
    "Verif.PyView.C258_single_violated"
   ],
   "note": "violated for plans of a single time step, whose time vector is squeezed to a scalar; every longer plan is shown, and the contacts always are"
  },
  {
   "property": "C259",
   "status": "proved",
   "theorems": [
    "Verif.LqrSeq.C259_fourth_order",
    "Verif.LqrSeq.C259_example"
   ],
   "note": "Exact arithmetic. The smoothness of the motion is a hypothesis."
  },
  {
   "property": "C260",
   "status": "proved",
   "theorems": [
    "Verif.Orient.C260_exp",
    "Verif.Orient.C260_exp_log",
    "Verif.Orient.C260_log_exp",
    "Verif.Orient.C260_error_rotates",
    "Verif.Orient.C260_integrate_required",
    "Verif.Orient.C260_example"
   ],
   "note": "Exact arithmetic. Complements C51 and C70, which are exact outside the small-angle branches."
  },
  {
   "property": "C261",
   "status": "partial",
   "theorems": [
    "Verif.Fl.C261_steps_partial",
    "Verif.Fl.C261_exact",
    "Verif.Fl.C261_violated",
    "Verif.Fl.C261_shipped",
    "Verif.Fl.C261_via_partial"
   ],
   "note": "Rounding to nearest after every operation, any rule for ties. False: horizon 1.2 with time step 0.1 gives 11 steps. Proved: never more than one step is lost, exact for representable numbers, for horizons that are not multiples, and for all shipped files."
  },
  {
   "property": "C262",
   "status": "partial",
   "theorems": [
    "Verif.Fl.C262_inside_partial",
    "Verif.Fl.C262_rounded_up",
    "Verif.Fl.C262_apart",
    "Verif.Fl.C262_shipped",
    "Verif.Fl.C262_handover",
    "Verif.Fl.C262_violated"
   ],
   "note": "Rounding to nearest, any rule for ties. False for the time step 0.15 and contact times 1.35, 2.7. Proved: exact for time steps stored rounded up (0.1, 0.01, 0.005), for contact times away from the grid, and strictly inside and outside always."
  },
  {
   "property": "C263",
   "status": "partial",
   "theorems": [
    "Verif.Fl.C263_rows",
    "Verif.Fl.C263_inner_partial",
    "Verif.Fl.C263_inner_violated"
   ],
   "note": "The number of rows is proved for every plan; the number of inner steps is false for 43 ms (42 steps) and otherwise at most one too small."
  },
  {
   "property": "C264",
   "status": "proved",
   "theorems": [
    "Verif.Fl.C264_times"
   ],
   "note": "Rounding to nearest, any rule for ties."
  },
  {
   "property": "C265",
   "status": "partial",
   "theorems": [
    "Verif.DemoMain.C265_args_partial",
    "Verif.DemoMain.C265_args_violated"
   ],
   "note": "The documented call works and wrong numbers of arguments print the usage; every other first argument is accepted, and after \"i\" the name is ignored."
  },
  {
   "property": "C266",
   "status": "proved",
   "theorems": [
    "Verif.LbfgsF.C266_line_search",
    "Verif.LbfgsF.C266_terminates",
    "Verif.LbfgsF.run_real"
   ],
   "note": "Every double operation of the source is an operation of an arbitrary arithmetic, in the order of the source; nothing is assumed of it. run_real: with exact real arithmetic this model is the one of C27-C33."
  },
  {
   "property": "C267",
   "status": "proved",
   "theorems": [
    "Verif.LbfgsF.C267_result"
   ],
   "note": "Arbitrary arithmetic, nothing assumed of it."
  },
  {
   "property": "C268",
   "status": "partial",
   "theorems": [
    "Verif.LbfgsF.C268_monotone_partial",
    "Verif.LbfgsF.C268_backtracking_partial",
    "Verif.LbfgsF.C268_violated",
    "Verif.LbfgsF.ieee_round",
    "Verif.LbfgsF.double_round"
   ],
   "note": "Proved for the default More-Thuente search in every arithmetic satisfying the IEEE laws, which are proved of rounded arithmetic with infinities and NaN, in particular double precision. False of the backtracking searches: they accept NaN, and after it every value."
  },
  {
   "property": "C269",
   "status": "partial",
   "theorems": [
    "Verif.LbfgsF.C269_nan_partial",
    "Verif.LbfgsF.C269_violated"
   ],
   "note": "Proved for the default More-Thuente search. With a backtracking search and the default iteration limit the call never returns."
  },
  {
   "property": "C270",
   "status": "proved",
   "theorems": [
    "Verif.PyMan.C270_log_exact",
    "Verif.PyMan.C270_log",
    "Verif.PyMan.C270_inverse"
   ],
   "note": "Exact arithmetic. Complements C167: the exact statement fails for small angles."
  },
  {
   "property": "C271",
   "status": "proved",
   "theorems": [
    "Verif.IPF.C271_terminates",
    "Verif.IPF.C271_exit_code",
    "Verif.IPF.C271_optimal_no_nan",
    "Verif.IPF.C271_example",
    "Verif.IPF.optimize_real"
   ],
   "note": "Every double operation of the loop is an operation of an arbitrary arithmetic; linear solver and scaled directions are an arbitrary oracle. optimize_real: with exact real arithmetic this is the model of C21 and C22 (when no division by zero occurs in the line search, in particular without second-order cones)."
  },
  {
   "property": "C272",
   "status": "partial",
   "theorems": [
    "Verif.IPF.C272_restored_partial",
    "Verif.IPF.C272_nan_unnoticed",
    "Verif.IPF.C272_violated"
   ],
   "note": "What is returned as best iterate has no NaN in the cone. But a NaN iterate is not noticed: the loop goes on to the iteration limit, and the reduced test then uses the residuals of the NaN iterate, so that reduced optimality is never reported."
  },
  {
   "property": "C273",
   "status": "partial",
   "theorems": [
    "Verif.IPF.C273_optimal_partial",
    "Verif.IPF.C273_dropped",
    "Verif.IPF.C273_violated"
   ],
   "note": "Proved when the residual of the cone constraints is a number. Otherwise std::max drops it: with an infinite right-hand side an unbounded problem is reported optimal at once."
  },
  {
   "property": "C274",
   "status": "proved",
   "theorems": [
    "Verif.BnBF.C274_terminates",
    "Verif.BnBF.run_real"
   ],
   "note": "Every double operation is an operation of an arbitrary arithmetic; the relaxation solver is an arbitrary oracle. run_real: in the exact arithmetic of extended reals with NaN this model has exactly the outcomes of the model of C24-C26."
  },
  {
   "property": "C275",
   "status": "partial",
   "theorems": [
    "Verif.BnBF.C275_incumbent_partial",
    "Verif.BnBF.C275_violated",
    "Verif.BnBF.infinity_fp"
   ],
   "note": "Proved when the objective of the root relaxation is a number, for the solutions evaluated after the root. A root relaxation that is integral with a NaN objective is reported as Optimal although it was never stored: the solver then holds what an earlier call left behind."
  },
  {
   "property": "C276",
   "status": "partial",
   "theorems": [
    "Verif.BnBF.C276_lower_partial",
    "Verif.BnBF.C276_violated",
    "Verif.BnBF.infinity_fp"
   ],
   "note": "Proved for the leaves whose objective is a number. A leaf with a NaN objective is dropped by std::min and never explored: Optimal is reported with a closed gap."
  },
  {
   "property": "C277",
   "status": "partial",
   "theorems": [
    "Verif.IP.C277_primal",
    "Verif.IP.C277_dual_partial",
    "Verif.IP.C277_run",
    "Verif.IP.C277_violated"
   ],
   "note": "Exact arithmetic and an exact linear solver. The primal part and the statement about all iterates hold for every history; the minimality of the multipliers holds for a first call only: the y and z parts of the right-hand side keep what an earlier optimize call wrote there (branch and bound calls optimize repeatedly), so later calls on the same problem start elsewhere."
  },
  {
   "property": "C278",
   "status": "partial",
   "theorems": [
    "Verif.RtQPF.C278_memory_partial",
    "Verif.RtQPF.C278_memory_violated",
    "Verif.RtQPF.C278_memory_witness",
    "Verif.RtQPF.run_real",
    "Verif.RtQPF.plain_fp"
   ],
   "note": "Every double operation is an operation of an arbitrary arithmetic; the factorisation is arbitrary. False after a rejected constraint without room to undo it (C278_memory_violated, witness C278_memory_witness); proved in every other run. run_real: with exact real arithmetic this model is the one of C95-C99 and C256."
  },
  {
   "property": "C279",
   "status": "partial",
   "theorems": [
    "Verif.RtQPF.C279_nan_success",
    "Verif.RtQPF.C279_nan_success_violated"
   ],
   "note": "Violated for every problem: if the factorisation delivers a NaN in any coordinate, success is reported at once with a NaN solution (C279_nan_success for all constraints, C279_nan_success_violated in floating-point arithmetic with any rounding). That the Cholesky solve passes a NaN of the gradient on is outside the model."
  },
  {
   "property": "C280",
   "status": "partial",
   "theorems": [
    "Verif.RtQPF.C280_accept_partial",
    "Verif.RtQPF.abs_fp",
    "Verif.RtQPF.plain_fp"
   ],
   "note": "Proved for returns from the active-set iteration; a return while the equalities are being added is not checked at all (C95_violated_dependent), and a NaN slack counts as not violated (C279)."
  },
  {
   "property": "C281",
   "status": "proved",
   "theorems": [
    "Verif.Lqr.C281_schedule",
    "Verif.Lqr.C281_failures",
    "Verif.Lqr.C281_successes",
    "Verif.Lqr.C281_kept",
    "Verif.Lqr.C281_kept_closed",
    "Verif.Lqr.C281_few"
   ],
   "note": "Exact arithmetic, any backward and forward pass of the model. The closed forms hold from a multiplier of at most one (failures) or at least one (successes), as after a change of direction."
  }
 ]
}