{"claims": [
 {"property": "C01", "status": "proved", "theorems": ["Nosnoc.C01_index_lists_partition", "Nosnoc.C01_each_position_once"], "note": "Index lists partition the decision vector"},
 {"property": "C02", "status": "proved", "theorems": ["Nosnoc.C02_index_lists_name", "Nosnoc.C02_ind_theta"], "note": "Index lists name the right variable"},
 {"property": "C03", "status": "proved", "theorems": ["Nosnoc.C03_size"], "note": "Size of the decision vector"},
 {"property": "C04", "status": "proved", "theorems": ["Nosnoc.C04_bounds_and_guess", "Nosnoc.C04_variables"], "note": "Every variable gets its documented bounds and initial guess"},
 {"property": "C05", "status": "proved", "theorems": ["Nosnoc.C05_constraints_aligned", "Nosnoc.C05_ind_comp", "Nosnoc.C05_ind_comp_boolean"], "note": "Constraint arrays stay aligned"},
 {"property": "C06", "status": "proved", "theorems": ["Nosnoc.C06_construct_iff", "Nosnoc.C06_wrong_x0_rejected"], "note": "Construction succeeds exactly on consistent data"},
 {"property": "C07", "status": "partial", "theorems": ["Nosnoc.C07_global_sot_violated", "Nosnoc.C07_local_sot_partial"], "note": "Violated by the code: GLOBAL mode never builds a problem (proved). LOCAL and NONE are proved correct."},
 {"property": "C08", "status": "partial", "theorems": ["Nosnoc.C08_parameter_values_partial", "Nosnoc.C08_step_several_systems_violated"], "note": "Proved for Stewart mode and for at most one switching system. C08_step_several_systems_violated: in Step mode with several systems the numeric initial multipliers are interleaved per system while the symbolic parameter lists all negative parts first, and an NLP that is feasible in truth becomes infeasible."},
 {"property": "C09", "status": "proved", "theorems": ["Nosnoc.C09_last_write_wins", "Nosnoc.C09_initial", "Nosnoc.C09_set_p_global", "Nosnoc.C09_set_p_time_var", "Nosnoc.C09_commute_and_repeat"], "note": "Parameter setters write exactly their slots"},
 {"property": "C10", "status": "proved", "theorems": ["Nosnoc.C10_step_box", "Nosnoc.C10_grid_monotone"], "note": "Step-size box and monotone time grid"},
 {"property": "C11", "status": "proved", "theorems": ["Nosnoc.C11_equidistant_grid"], "note": "Equidistant control grid"},
 {"property": "C12", "status": "partial", "theorems": ["Nosnoc.C12_total_time_partial", "Nosnoc.C12_total_time_violated"], "note": "Proved with FESD if the control grid is equidistant or there is more than one stage. C12_total_time_violated: with one stage and a non-equidistant control grid nothing fixes the sum of the steps."},
 {"property": "C13", "status": "proved", "theorems": ["Nosnoc.C13_grid_is_discretisation_grid", "Nosnoc.C13_standard_grid"], "note": "Without FESD the reported grid is the discretisation grid"},
 {"property": "C14", "status": "proved", "theorems": ["Nosnoc.C14_time_freezing"], "note": "Time freezing pins physical time"},
 {"property": "C15", "status": "proved", "theorems": ["Nosnoc.C15_end_value", "Nosnoc.C15_derivative", "Nosnoc.C15_integral", "Nosnoc.C15_unique"], "note": "Collocation coefficients are exact"},
 {"property": "C16", "status": "proved", "theorems": ["Nosnoc.C16_D_selects_last", "Nosnoc.C16_last_stage_is_end", "Nosnoc.C16_path_at_end"], "note": "Stiffly accurate schemes need no end state"},
 {"property": "C17", "status": "proved", "theorems": ["Nosnoc.C17_runge_kutta", "Nosnoc.C17_collocation"], "note": "Runge-Kutta equations hold at every feasible point"},
 {"property": "C18", "status": "partial", "theorems": ["Nosnoc.C18_differential_to_lift", "Nosnoc.C18_lift_to_differential", "Nosnoc.C18_state_bounds_violated"], "note": "Equivalence proved up to the state bounds at interior stages; C18_state_bounds_violated shows that with bounds the code differs (DIFFERENTIAL does not bound stage states)."},
 {"property": "C19", "status": "proved", "theorems": ["Nosnoc.C19_stage_equations", "Nosnoc.C19_end_state", "Nosnoc.C19_integral_to_differential", "Nosnoc.C19_differential_to_integral"], "note": "INTEGRAL and DIFFERENTIAL describe the same trajectories"},
 {"property": "C20", "status": "proved", "theorems": ["Nosnoc.C20_valid", "Nosnoc.C20_order", "Nosnoc.C20_radau_stiffly_accurate", "Nosnoc.C20_gauss_interior", "Nosnoc.C20_range", "Nosnoc.C20_outside", "Nosnoc.C20_regular", "Nosnoc.C20_weights"], "note": "Butcher tableaus are valid collocation methods"},
 {"property": "C21", "status": "partial", "theorems": ["Nosnoc.C21_weights_differential", "Nosnoc.C21_weights_integral_partial", "Nosnoc.C21_weight_sum_integral", "Nosnoc.C21_elapsed", "Nosnoc.C21_radau1_violated"], "note": "Weights proved for the differential representations. For INTEGRAL the weight of the element start is dropped: the exact sum of the weights is proved, and C21_radau1_violated shows that with Radau and n_s = 1 a cost of 1 per unit time is halved."},
 {"property": "C22", "status": "proved", "theorems": ["Nosnoc.C22_length", "Nosnoc.C22_steps", "Nosnoc.C22_rk4_constant_grid", "Nosnoc.C22_rk4_zero_steps", "Nosnoc.C22_rk4_times", "Nosnoc.C22_concatenation", "Nosnoc.C22_linear_exact", "Nosnoc.C22_linear_invariants", "Nosnoc.C22_constant_field", "Nosnoc.C22_order_four_linear", "Nosnoc.C22_cubic_quadrature"], "note": "rk4 integrates one step per grid entry"},
 {"property": "C23", "status": "partial", "theorems": ["Nosnoc.C23_stage_conditions", "Nosnoc.C23_active_minimal", "Nosnoc.C23_unique_solution", "Nosnoc.C23_selects_partial", "Nosnoc.C23_rhs_partial", "Nosnoc.C23_zeros_violated"], "note": "Stewart conditions proved for all models; region selection proved for sign matrices without zeros. C23_zeros_violated: with zeros in S (an accepted, covering, non-overlapping matrix) a feasible point can select the wrong region."},
 {"property": "C24", "status": "proved", "theorems": ["Nosnoc.C24_stage_conditions", "Nosnoc.C24_alpha", "Nosnoc.C24_solvable", "Nosnoc.C24_rhs"], "note": "Step representation selects the active region"},
 {"property": "C25", "status": "proved", "theorems": ["Nosnoc.C25_filippov", "Nosnoc.C25_weights", "Nosnoc.C25_full"], "note": "Feasible dynamics are Filippov combinations"},
 {"property": "C26", "status": "proved", "theorems": ["Nosnoc.C26_initial_multipliers"], "note": "Initial multipliers solve the initial switching conditions"},
 {"property": "C27", "status": "proved", "theorems": ["Nosnoc.C27_smoothed_multipliers", "Nosnoc.C27_weights", "Nosnoc.C27_smoothed_rhs"], "note": "Smoothed multipliers agree with the Step weights"},
 {"property": "C28", "status": "proved", "theorems": ["Nosnoc.C28_stage_vector", "Nosnoc.C28_call"], "note": "Stage arguments are bound in the right order"},
 {"property": "C29", "status": "partial", "theorems": ["Nosnoc.C29_own_multipliers_partial", "Nosnoc.C29_last_element_violated", "Nosnoc.C29_infeasible_violated"], "note": "Proved for all elements but the last of each control stage. C29_last_element_violated: the last element has no multipliers of its own at its end, the switching equations at the end state are imposed on the multipliers of the last stage point. C29_infeasible_violated: with the midpoint rule this makes the problem infeasible for a drift that stays in one region."},
 {"property": "C30", "status": "proved", "theorems": ["Nosnoc.C30_modes", "Nosnoc.C30_boolean", "Nosnoc.C30_lengths"], "note": "Each MPCC mode encodes its relaxed complementarity"},
 {"property": "C31", "status": "partial", "theorems": ["Nosnoc.C31_fischer_burmeister", "Nosnoc.C31_exact", "Nosnoc.C31_complete", "Nosnoc.C31_boolean", "Nosnoc.C31_boolean_relaxed_violated", "Nosnoc.C31_nested", "Nosnoc.C31_fischer_burmeister_pair"], "note": "Proved for all modes but BOOLEAN; for BOOLEAN proved with binary b, and C31_boolean_relaxed_violated shows that the library leaves b continuous in [0, 1]."},
 {"property": "C32", "status": "partial", "theorems": ["Nosnoc.C32_no_switch", "Nosnoc.C32_no_switch_fischer_burmeister", "Nosnoc.C32_no_switch_partial", "Nosnoc.C32_no_switch_end", "Nosnoc.C32_free_multipliers_violated"], "note": "Meaning of the cross complementarity rows proved; C32_free_multipliers_violated shows that FB and two-sided elastic modes with SUM_LAMBDAS leave the multipliers free in sign, so sigma = 0 does not force each product to vanish."},
 {"property": "C33", "status": "partial", "theorems": ["Nosnoc.C33_sum_implies_all", "Nosnoc.C33_equivalent_at_zero", "Nosnoc.C33_all_implies_scaled_sum", "Nosnoc.C33_gauss_violated"], "note": "SUM_LAMBDAS implies COMPLEMENT_ALL is proved; C33_gauss_violated shows the converse fails for schemes without right boundary point, because SUM_LAMBDAS also includes the end multiplier of the element itself."},
 {"property": "C34", "status": "partial", "theorems": ["Nosnoc.C34_residual_bounds", "Nosnoc.C34_certificate", "Nosnoc.C34_residual_attained", "Nosnoc.C34_free_multipliers_violated"], "note": "Residual certificate proved where it holds; the violated theorems show where a small residual does not certify complementarity."},
 {"property": "C35", "status": "partial", "theorems": ["Nosnoc.C35_stage", "Nosnoc.C35_ctrl_partial", "Nosnoc.C35_global", "Nosnoc.C35_ctrl_violated"], "note": "Stage and global complementarities proved. C35_ctrl_violated: control complementarities are only imposed when a stage has exactly N_finite_elements elements, so with Nfe_list they can be dropped silently."},
 {"property": "C36", "status": "proved", "theorems": ["Nosnoc.C36_width_rejected", "Nosnoc.C36_classification", "Nosnoc.C36_partition"], "note": "Path complementarity classification"},
 {"property": "C37", "status": "partial", "theorems": ["Nosnoc.C37_stage_end", "Nosnoc.C37_fe_end", "Nosnoc.C37_stage_partial", "Nosnoc.C37_stage_violated"], "note": "Ends of elements proved. C37_stage_violated: with a right boundary point and g_path_at_stg the last stage of non-final elements is skipped."},
 {"property": "C38", "status": "proved", "theorems": ["Nosnoc.C38_terminal_constraint", "Nosnoc.C38_terminal_cost"], "note": "Terminal constraint and cost act on the final state"},
 {"property": "C39", "status": "proved", "theorems": ["Nosnoc.C39_mean_cost", "Nosnoc.C39_mean_zero", "Nosnoc.C39_delta_cost", "Nosnoc.C39_delta_zero"], "note": "Heuristic step equilibration penalises exactly non-uniform steps"},
 {"property": "C40", "status": "proved", "theorems": ["Nosnoc.C40_direct", "Nosnoc.C40_indicator"], "note": "DIRECT step equilibration: steps only change at switches"},
 {"property": "C41", "status": "partial", "theorems": ["Nosnoc.C41_direct_complementarity_partial", "Nosnoc.C41_h_comp_meaning", "Nosnoc.C41_h_comp_infeasible_violated", "Nosnoc.C41_direct_complementarity_violated", "Nosnoc.C41_h_comp_vacuous_violated"], "note": "Meaning of the rows proved; the violated theorems show DIRECT_COMPLEMENTARITY is one-sided with SCHOLTES_INEQ and HEURISTIC_DELTA_H_COMP is vacuous or infeasible."},
 {"property": "C42", "status": "proved", "theorems": ["Nosnoc.C42_cost", "Nosnoc.C42_nonneg", "Nosnoc.C42_zero"], "note": "L2 step equilibration adds a nonnegative penalty inactive at switches"},
 {"property": "C43", "status": "proved", "theorems": ["Nosnoc.C43_slack_exists", "Nosnoc.C43_slack_bounds", "Nosnoc.C43_objective", "Nosnoc.C43_scalings_agree"], "note": "Elastic modes: slack bounded and penalised"},
 {"property": "C44", "status": "partial", "theorems": ["Nosnoc.C44_least_squares", "Nosnoc.C44_equivalent", "Nosnoc.C44_accepted", "Nosnoc.C44_inequality_modes_refused", "Nosnoc.C44_refusal_violated"], "note": "What LEAST_SQUARES does is proved, and that it is equivalent for equations and refuses the inequality modes. C44_refusal_violated: a path constraint with lower bound 0 and infinite upper bound is not refused but squared."},
 {"property": "C45", "status": "proved", "theorems": ["Nosnoc.C45_objective", "Nosnoc.C45_plain"], "note": "Elapsed-cost bookkeeping: the objective is the sum of its documented parts"},
 {"property": "C46", "status": "proved", "theorems": ["Nosnoc.C46_homotopy_loop"], "note": "Homotopy loop terminates and follows its schedule"},
 {"property": "C47", "status": "proved", "theorems": ["Nosnoc.C47_linear", "Nosnoc.C47_superlinear", "Nosnoc.C47_parameters_of_calls"], "note": "Homotopy parameters decrease and stay positive"},
 {"property": "C48", "status": "proved", "theorems": ["Nosnoc.C48_default_budget"], "note": "The default iteration budget reaches the tolerance"},
 {"property": "C49", "status": "proved", "theorems": ["Nosnoc.C49_results_of_last_solve", "Nosnoc.C49_solve_succeeds"], "note": "Results are those of the last NLP solve"},
 {"property": "C50", "status": "partial", "theorems": ["Nosnoc.C50_cost_partial", "Nosnoc.C50_negative_objective_violated", "Nosnoc.C50_polishing_violated"], "note": "Proved: without polishing the reported cost is the absolute value of the objective at w_sol. C50_negative_objective_violated: a negative objective is reported with the wrong sign. C50_polishing_violated: after polishing the cost is that of the unpolished solution."},
 {"property": "C51", "status": "partial", "theorems": ["Nosnoc.C51_status", "Nosnoc.C51_residual_partial", "Nosnoc.C51_residual_violated", "Nosnoc.C51_unsolvable_violated"], "note": "SUCCESS iff accepted status of the last NLP solve is proved. C51_residual_violated: SUCCESS is reported with a complementarity residual of 1; C51_unsolvable_violated: the same for every NLP solver that accepts feasible points only and finds them whenever they exist, on an optimal control problem without solution in mode ELASTIC_INEQ; what does hold about the residual is C51_residual_partial."},
 {"property": "C52", "status": "proved", "theorems": ["Nosnoc.C52_solve_is_a_homotopy"], "note": "Warm starting along the homotopy"},
 {"property": "C53", "status": "proved", "theorems": ["Nosnoc.C53_solve_keeps_problem", "Nosnoc.C53_guess_after_solve", "Nosnoc.C53_guess_entries", "Nosnoc.C53_repeated_solve"], "note": "solve() leaves the stored problem intact"},
 {"property": "C54", "status": "proved", "theorems": ["Nosnoc.C54_initialise_writes_x0", "Nosnoc.C54_external"], "note": "Initialisation writes x0 into every state guess"},
 {"property": "C55", "status": "partial", "theorems": ["Nosnoc.C55_states_by_stage", "Nosnoc.C55_states_by_element", "Nosnoc.C55_states_wrong_rows", "Nosnoc.C55_states_wrong_columns", "Nosnoc.C55_controls", "Nosnoc.C55_controls_wrong_rows", "Nosnoc.C55_globals", "Nosnoc.C55_globals_wrong_length", "Nosnoc.C55_theta_partial", "Nosnoc.C55_theta_wrong_rows", "Nosnoc.C55_theta_several_systems_violated"], "note": "Proved for states, controls and global variables, including that a wrong shape raises and that the states are written although a warning is raised. Theta is proved for one switching system; C55_theta_several_systems_violated: with several systems the documented shape is rejected and an accepted shape writes the same row to every system."},
 {"property": "C56", "status": "partial", "theorems": ["Nosnoc.C56_fixed_multipliers", "Nosnoc.C56_complementary_points_kept", "Nosnoc.C56_no_point_lost_partial", "Nosnoc.C56_without_fesd_violated"], "note": "What is fixed, and that nothing else changes, is proved for every solve. That no solution is lost is proved in every mode for points complementary to the initial multipliers, and for all feasible points with FESD and signed multipliers or Fischer-Burmeister functions with COMPLEMENT_ALL; C56_without_fesd_violated: without FESD every NLP call of a problem whose step crosses the switching surface is feasible before fixing and infeasible after."},
 {"property": "C57", "status": "partial", "theorems": ["Nosnoc.C57_polishing_partial", "Nosnoc.C57_polishing_runs_iff", "Nosnoc.C57_speed_of_time_violated", "Nosnoc.C57_negative_multiplier_violated"], "note": "What polishing fixes, keeps and returns is proved, with the exact condition under which it runs through. C57_speed_of_time_violated: it raises for every problem with speed-of-time variables. C57_negative_multiplier_violated: a multiplier of -1 is fixed to 0."},
 {"property": "C58", "status": "proved", "theorems": ["Nosnoc.C58_results_meaning", "Nosnoc.C58_results_at", "Nosnoc.C58_results_aligned"], "note": "Results are aligned in time"},
 {"property": "C59", "status": "proved", "theorems": ["Nosnoc.C59_switches_exact"], "note": "Switch detection reports exactly the element boundaries with a mode change"},
 {"property": "C60", "status": "partial", "theorems": ["Nosnoc.C60_switch_times_partial", "Nosnoc.C60_switch_times_violated"], "note": "switch_times are points of t_grid"},
 {"property": "C61", "status": "partial", "theorems": ["Nosnoc.C61_results_partial", "Nosnoc.C61_ragged_systems_violated", "Nosnoc.C61_long_nfe_list_violated"], "note": "Extraction is proved for systems with equally many regions and Nfe_list of the right length; C61_ragged_systems_violated: systems with different numbers of regions make the extraction raise; C61_long_nfe_list_violated: so does an Nfe_list longer than N_stages."},
 {"property": "C62", "status": "proved", "theorems": ["Nosnoc.C62_simulation", "Nosnoc.C62_run_returns"], "note": "Simulation loop chains states and time"},
 {"property": "C63", "status": "partial", "theorems": ["Nosnoc.C63_all_steps_partial", "Nosnoc.C63_no_effect_violated", "Nosnoc.C63_stop_on_failure_violated"], "note": "All steps run and True is returned is proved (C63_all_steps_partial). stop_on_failure compares a Status with a string, so it never stops: C63_no_effect_violated (both flag values behave the same), C63_stop_on_failure_violated (every step fails and run still returns True)."},
 {"property": "C64", "status": "proved", "theorems": ["Nosnoc.C64_create_iff", "Nosnoc.C64_row_per_step"], "note": "The looper only accepts pure simulation problems"},
 {"property": "C65", "status": "proved", "theorems": ["Nosnoc.C65_switch_times_shifted"], "note": "The shift by the total time of the previous steps is proved; what the switch times of one step are is C60."},
 {"property": "C66", "status": "proved", "theorems": ["Nosnoc.C66_idempotent", "Nosnoc.C66_defaults", "Nosnoc.C66_tableau", "Nosnoc.C66_tableau_integral"], "note": "Option preprocessing is idempotent and fills defaults consistently"},
 {"property": "C67", "status": "partial", "theorems": ["Nosnoc.C67_uniform_partial", "Nosnoc.C67_first_partial", "Nosnoc.C67_set_partial", "Nosnoc.C67_fixed_partial", "Nosnoc.C67_other_object_violated"], "note": "The tolerances are class attributes shared by all options objects. Proved: the value for the first solver of a process, for histories in which all options objects have the same comp_tol, and after the user has set it; it never changes for an existing solver. C67_other_object_violated: the second of two options objects gets the tolerance of the first."},
 {"property": "C68", "status": "partial", "theorems": ["Nosnoc.C68_assigned_partial", "Nosnoc.C68_reset_partial", "Nosnoc.C68_more_stages_violated", "Nosnoc.C68_elements_violated"], "note": "Nfe_list and max_iter_homotopy are filled in once and stay. Proved: all other attributes are what the user assigned, and after resetting these two the object behaves as a new one. C68_more_stages_violated: increasing N_stages on a used object makes every construction raise; C68_elements_violated: a change of N_finite_elements has no effect."},
 {"property": "C69", "status": "proved", "theorems": ["Nosnoc.C69_typeError_iff", "Nosnoc.C69_agrees", "Nosnoc.C69_int_for_float", "Nosnoc.C69_accepted"], "note": "Option type validation"},
 {"property": "C70", "status": "proved", "theorems": ["Nosnoc.C70_init_iff", "Nosnoc.C70_init_raises", "Nosnoc.C70_preprocess_iff", "Nosnoc.C70_inclusion_stewart", "Nosnoc.C70_non_switching"], "note": "Model validation accepts exactly consistent models"},
 {"property": "C71", "status": "partial", "theorems": ["Nosnoc.C71_reuse_partial", "Nosnoc.C71_other_stages_violated"], "note": "Proved for a given p_time_var_val, and for histories with one N_stages. C71_other_stages_violated: the default is stored with N_stages rows, so every construction with another N_stages raises."},
 {"property": "C72", "status": "proved", "theorems": ["Nosnoc.C72_accepts_iff", "Nosnoc.C72_values", "Nosnoc.C72_idempotent", "Nosnoc.C72_stored"], "note": "OCP defaults and validation"},
 {"property": "C73", "status": "proved", "theorems": ["Nosnoc.C73_field", "Nosnoc.C73_expression", "Nosnoc.C73_values_exist"], "note": "Auto-model reformulation preserves the vector field"},
 {"property": "C74", "status": "proved", "theorems": ["Nosnoc.C74_pairs", "Nosnoc.C74_names", "Nosnoc.C74_smooth", "Nosnoc.C74_nested"], "note": "Auto-model pairs one fresh alpha with each switching function"},
 {"property": "C75", "status": "proved", "theorems": ["Nosnoc.C75_components", "Nosnoc.C75_smooth", "Nosnoc.C75_atomic"], "note": "Additive decomposition is sound"},
 {"property": "C76", "status": "partial", "theorems": ["Nosnoc.C76_filippov_model_partial", "Nosnoc.C76_general_model_partial", "Nosnoc.C76_general_partial", "Nosnoc.C76_general_exists", "Nosnoc.C76_filippov_partial", "Nosnoc.C76_product_violated", "Nosnoc.C76_doubled_violated"], "note": "Proved for the branch for general inclusions, and for the Filippov branch if each additive component has one outermost nonsmooth node and equal switching functions are one shared node. C76_product_violated: a product of two nonsmooth terms is accepted and gives a wrong vector field. C76_doubled_violated: two components with the same switching function built from different nodes are counted twice. C76_filippov_model_partial and C76_general_model_partial state the same for the entries of the returned NosnocModel itself."},
 {"property": "C77", "status": "partial", "theorems": ["Nosnoc.C77_general_partial", "Nosnoc.C77_filippov_partial", "Nosnoc.C77_several_violated", "Nosnoc.C77_parameter_violated", "Nosnoc.C77_control_violated"], "note": "Exact conditions proved for both branches. C77_several_violated: general inclusions with two switching functions never pass preprocessing; C77_parameter_violated: p is not handed to the model; C77_control_violated: switching functions of the control are rejected."},
 {"property": "C78", "status": "proved", "theorems": ["Nosnoc.PyVal.C78_flatten_leaves", "Nosnoc.PyVal.C78_increment_shape", "Nosnoc.PyVal.C78_flatten_increment", "Nosnoc.PyVal.C78_flatten_layer", "Nosnoc.PyVal.C78_flatten_layer_flat", "Nosnoc.PyVal.C78_flatten_layer_deep", "Nosnoc.PyVal.C78_flatten_outer_two"], "note": "Nested index-list utilities"},
 {"property": "C79", "status": "proved", "theorems": ["Nosnoc.C79_w_init", "Nosnoc.C79_w_init_needs_external"], "note": "External guesses of the simulation loop reach the solver"},
 {"property": "C80", "status": "partial", "theorems": ["Nosnoc.C80_single_object_partial", "Nosnoc.C80_other_object_violated"], "note": "nlp_max_iter is stored in the same shared dictionary. Proved when it is only set on one options object; C80_other_object_violated: a value set on one object is used for all others."},
 {"property": "C81", "status": "partial", "theorems": ["Nosnoc.C81_alone_partial", "Nosnoc.C81_seen", "Nosnoc.C81_shared_model_violated", "Nosnoc.C81_new_solver_violated", "Nosnoc.C81_usable"], "note": "Proved for solvers that share neither model nor options object with others. C81_shared_model_violated: set x0 on one solver changes the initial state of another one with the same model; C81_new_solver_violated: creating a solver resets the parameter values of the others with the same model."},
 {"property": "C82", "status": "partial", "theorems": ["Nosnoc.C82_general_partial", "Nosnoc.C82_second_violated", "Nosnoc.C82_first_violated", "Nosnoc.C82_filippov_violated"], "note": "The lists c, F, S, alpha of the object accumulate and are shared with the returned models. Proved: the vector field of the general branch stays right. C82_second_violated: the second model never passes preprocessing; C82_first_violated: the second call breaks the first model; C82_filippov_violated: the second call doubles the vector field."},
 {"property": "C83", "status": "proved", "theorems": ["Nosnoc.C83_feasible_iff", "Nosnoc.C83_feasible_iff_boolean"], "note": "The NLP is the discretised problem, neither more nor less"},
 {"property": "C84", "status": "proved", "theorems": ["Nosnoc.C84_closed", "Nosnoc.C84_feasible"], "note": "The NLP is closed"},
 {"property": "C85", "status": "proved", "theorems": ["Nosnoc.C85_active_minimal", "Nosnoc.C85_mode_constant", "Nosnoc.C85_rhs", "Nosnoc.C85_step"], "note": "One mode per finite element"},
 {"property": "C86", "status": "partial", "theorems": ["Nosnoc.C86_minimal_at_start", "Nosnoc.C86_switch_on_surface_partial", "Nosnoc.C86_switching_function_zero_partial", "Nosnoc.C86_step_partial", "Nosnoc.C86_gauss_violated"], "note": "Proved for schemes whose last stage is the end point, for SUM_LAMBDAS, and at boundaries of control stages. C86_gauss_violated: with COMPLEMENT_ALL and a scheme without right boundary point an exactly feasible point changes its mode where the switching function is -1/2."},
 {"property": "C87", "status": "proved", "theorems": ["Nosnoc.C87_success_is_feasible", "Nosnoc.C87_simulation"], "note": "SUCCESS means the returned solution solves the discretised problem"},
 {"property": "C88", "status": "partial", "theorems": ["Nosnoc.C88_print_partial", "Nosnoc.C88_no_errors_partial", "Nosnoc.C88_guess_above_violated"], "note": "Proved: print returns, flags exactly the variables with inconsistent bounds or with a guess below the lower bound, and counts them. C88_guess_above_violated: a guess above the upper bound is never flagged (the code compares ubw > ubw); the print ends with errors: 0."},
 {"property": "C89", "status": "partial", "theorems": ["Nosnoc.C89_dump_returns", "Nosnoc.C89_dump_partial", "Nosnoc.C89_step_several_systems_violated"], "note": "Violated in Step mode with several switching systems (C89_step_several_systems_violated: wrong initial multipliers in p0, and no point satisfies the dumped problem). Otherwise all MPCC modes, BOOLEAN up to the values of the binary variables. The objective part excludes elastic modes with objective_scaling_direct, where the objective is divided by the relaxation parameter, which is 0 in p0. Pickling itself is not modelled."},
 {"property": "C90", "status": "partial", "theorems": ["Nosnoc.C90_rk4_guess_partial", "Nosnoc.C90_times", "Nosnoc.C90_integral_violated", "Nosnoc.C90_other_schemes_violated"], "note": "Proved for Stewart mode, Radau, DIFFERENTIAL_LIFT_X, no algebraic states, first control stage. C90_integral_violated: with INTEGRAL the stored points include a leading 0, so every guess is that of the point before (n_s = 1: all guesses are x0). C90_other_schemes_violated: with DIFFERENTIAL and n_s >= 2, and with Gauss-Legendre, every solve raises."},
 {"property": "C91", "status": "partial", "theorems": ["Nosnoc.C91_rootfinder", "Nosnoc.C91_solve_rootfinder", "Nosnoc.C91_solve_returns", "Nosnoc.C91_consistent_guess_partial", "Nosnoc.C91_guess_violated", "Nosnoc.C91_success_is_feasible"], "note": "C91_rootfinder: with rootfinder_for_initial_z=True (a root finder that returns zeros). C91_solve_rootfinder, C91_solve_returns, C91_success_is_feasible: the same for a whole solve; every NLP call gets these multipliers, and SUCCESS of an exact NLP solver means feasibility with them (without polishing; the last one without fix_active_set_fe0). C91_consistent_guess_partial: without it, if the guess is consistent. C91_guess_violated: without it and with the default guess z0 = 0 the multipliers of the wrong region are passed and the NLP has no feasible point for sigma < 1/2 although the consistent multipliers give one."},
 {"property": "C92", "status": "proved", "theorems": ["Nosnoc.C92_exact", "Nosnoc.C92_weights"], "note": "Exactness for piecewise constant systems, Stewart and Step, rbe schemes or SUM_LAMBDAS. The factor W is the sum of the weights of the scheme (C92_weights: exactly 1 for INTEGRAL, within 1e-11 for the tables). Nonnegative steps are a hypothesis (gamma_h <= 1 implies it)."},
 {"property": "C93", "status": "proved", "theorems": ["Nosnoc.C93_no_solution_lost"], "note": "Stewart mode, scheme whose last stage is the end point, no step equilibration by constraints, not BOOLEAN or FISCHER_BURMEISTER_IP_AUG. The example is a trajectory that crosses to the surface and slides, with the default options."},
 {"property": "C94", "status": "partial", "theorems": ["Nosnoc.C94_old_parameters", "Nosnoc.C94_violated"], "note": "C94_violated: c = p, p = 1 then -1: infeasible for sigma < 1 with FESD, feasible for sigma = 0 without. C94_old_parameters: the condition FESD imposes at a stage boundary. C93 is the positive part: trajectories whose regions also contain the boundary state with the old parameters are not lost."},
 {"property": "C95", "status": "partial", "theorems": ["Nosnoc.C95_step_to_stewart", "Nosnoc.C95_stewart_to_step_partial", "Nosnoc.C95_single_switching_partial", "Nosnoc.C95_objective", "Nosnoc.C95_violated", "Nosnoc.C95_filippov_step_partial"], "note": "C95_step_to_stewart is the full direction. Back: C95_stewart_to_step_partial (product form), C95_single_switching_partial (one switching function per subsystem), C95_filippov_step_partial (C93 for Step mode). C95_violated: sliding along the intersection of two surfaces is a Stewart solution; every Step solution from the same state ends elsewhere. Excluded: DIRECT, DIRECT_COMPLEMENTARITY, FISCHER_BURMEISTER_IP_AUG. C95_objective: same objective on the same trajectory."},
 {"property": "C96", "status": "partial", "theorems": ["Nosnoc.C96_nested_partial", "Nosnoc.C96_boolean_partial", "Nosnoc.C96_lower_bound_partial", "Nosnoc.C96_equality_modes", "Nosnoc.C96_violated"], "note": "Proved for the modes that bound products from above (SCHOLTES_INEQ, the elastic modes) and for BOOLEAN; C96_lower_bound_partial is the order of the optimal values. C96_equality_modes shows that in SCHOLTES_EQ and the FISCHER_BURMEISTER modes no point is feasible for two parameter values; C96_violated is a concrete exact solution lost by SCHOLTES_EQ."},
 {"property": "C97", "status": "proved", "theorems": ["Nosnoc.C97_residual", "Nosnoc.C97_selection", "Nosnoc.C97_velocity", "Nosnoc.C97_selection_start", "Nosnoc.C97_selection_end", "Nosnoc.C97_element"], "note": "C97_residual, C97_selection, C97_selection_start, C97_velocity, C97_element. Modes: SCHOLTES_*, ELASTIC_INEQ, ELASTIC_EQ, and FISCHER_BURMEISTER* when every pair is constrained separately (ExactMode); for the others see C34."},
 {"property": "C98", "status": "proved", "theorems": ["Nosnoc.C98_simulation", "Nosnoc.C98_homotopy", "Nosnoc.C98_simulation_step", "Nosnoc.C98_one_element_infeasible"], "note": "C98_simulation (Stewart), C98_simulation_step (Step), C98_homotopy (every sigma). C98_one_element_infeasible shows that two elements are needed."},
 {"property": "C99", "status": "proved", "theorems": ["Nosnoc.C99_simulation_exact"], "note": "C99_simulation_exact."},
 {"property": "C100", "status": "partial", "theorems": ["Nosnoc.C100_feasible_succeeds_partial", "Nosnoc.C100_one_switch", "Nosnoc.C100_simulation"], "note": "C100_feasible_succeeds_partial: without polishing, which fixes further variables (C101 shows that polishing can turn a feasible problem into a failure); with fix_active_set_fe0 the coefficients it fixes must vanish at the feasible points (C56 shows that this is needed). C100_one_switch, C100_simulation: simulations with one switching function, with or without fix_active_set_fe0."},
 {"property": "C101", "status": "partial", "theorems": ["Nosnoc.C101_polishing_succeeds_partial", "Nosnoc.C101_polishing_violated"], "note": "C101_polishing_violated: a concrete model on which polishing always turns success into failure. C101_polishing_succeeds_partial: if the last homotopy solution is exact and its multipliers are zero, one or further than 10 comp_tol from both, polishing succeeds."},
 {"property": "C102", "status": "proved", "theorems": ["Nosnoc.C102_renumbering", "Nosnoc.C102_renumbering_boolean", "Nosnoc.C102_accepted_iff", "Nosnoc.C102_correspondence", "Nosnoc.C102_initial_multipliers"], "note": "C102_renumbering, C102_accepted_iff, C102_renumbering_boolean (points up to the values of the binary variables), C102_correspondence (the renaming is a bijection), C102_initial_multipliers."},
 {"property": "C103", "status": "proved", "theorems": ["Nosnoc.C103_regions_only", "Nosnoc.C103_symmetric", "Nosnoc.C103_objective", "Nosnoc.C103_rescaling"], "note": "C103_regions_only, C103_symmetric, C103_objective, C103_rescaling (both directions). Hypotheses: end points are collocation points or standard RK, modes of C95."},
 {"property": "C104", "status": "proved", "theorems": ["Nosnoc.C104_timings", "Nosnoc.C104_simulation"], "note": "C104_timings, C104_simulation."},
 {"property": "C105", "status": "partial", "theorems": ["Nosnoc.C105_plot_iterates_violated", "Nosnoc.C105_key_error_violated", "Nosnoc.C105_no_iterates_partial"], "note": "C105_plot_iterates_violated (all problems, all nonempty lists), C105_key_error_violated (the exception); C105_no_iterates_partial."},
 {"property": "C106", "status": "partial", "theorems": ["Nosnoc.C106_colored_line_partial", "Nosnoc.C106_equal_times_violated", "Nosnoc.C106_ragged", "Nosnoc.C106_scatter"], "note": "C106_colored_line_partial (two different times), C106_scatter, C106_ragged (missing coordinates raise ValueError); C106_equal_times_violated."},
 {"property": "C107", "status": "partial", "theorems": ["Nosnoc.C107_call_violated", "Nosnoc.C107_step", "Nosnoc.C107_region_not_root_violated", "Nosnoc.C107_close_regions_violated", "Nosnoc.C107_far_regions_partial"], "note": "C107_call_violated (every call raises), C107_region_not_root_violated, C107_close_regions_violated (the equations), C107_far_regions_partial (selection right if the indicator functions differ by at least 1), C107_step."},
 {"property": "C108", "status": "proved", "theorems": ["Nosnoc.C108_accuracy", "Nosnoc.C108_default_budget", "Nosnoc.C108_simulation"], "note": "Without polishing (with polishing the result is exact, C99).  Elastic modes are covered by C97 only: the last slack is not bounded by the schedule."},
 {"property": "C109", "status": "proved", "theorems": ["Nosnoc.C109_clock_element", "Nosnoc.C109_integral_element", "Nosnoc.C109_reported"], "note": "In Step mode with F the sign matrices have to describe a partition (the weights of C25 sum to one exactly because of this).  Integrals are stated for INTEGRAL only."},
 {"property": "C110", "status": "proved", "theorems": ["Nosnoc.C110_convergence", "Nosnoc.C110_refinement"], "note": "The order proved is the stage order n_s, not the higher order of the end points (superconvergence 2 n_s or 2 n_s - 1).  Right-hand sides without switches only."},
 {"property": "C111", "status": "proved", "theorems": ["Nosnoc.C111_switched", "Nosnoc.C111_refinement"], "note": "The regions and the reference solution refer to the reported grid: that the solution itself switches at the reported switching times is an assumption on it, not a conclusion."},
 {"property": "C112", "status": "proved", "theorems": ["Nosnoc.C112_value", "Nosnoc.C112_certificate"], "note": "In Step mode with user-given alpha the sizes of alpha are assumed to agree with c (CasADi would fail or broadcast otherwise)."},
 {"property": "C113", "status": "partial", "theorems": ["Nosnoc.C113_negative_partial", "Nosnoc.C113_sign_violated"], "note": "Violated: `mu00_stewart_fun` returns min g, the switching equations need -min g; proved that the negative of the returned value is the only one that fits."},
 {"property": "C114", "status": "proved", "theorems": ["Nosnoc.C114_order", "Nosnoc.C114_last_wins", "Nosnoc.C114_whole_guess", "Nosnoc.C114_history"], "note": "Arrays are values (the aliasing of `model.x0` and `prob.w0` with the caller's arrays is not modelled)."},
 {"property": "C115", "status": "proved", "theorems": ["Nosnoc.C115_earlier_solves", "Nosnoc.C115_last_settings_decide"], "note": "RK4_SMOOTHENED is not covered; ALL_XCURRENT_WOPT_PREV starts from the previous solution by design."},
 {"property": "C116", "status": "proved", "theorems": ["Nosnoc.C116_smooth", "Nosnoc.C116_switched"], "note": "Systems without algebraic and global variables and without local speed of time; the solution has to be smooth on every element (for switched systems: follow one region per element)."},
 {"property": "C117", "status": "proved", "theorems": ["Nosnoc.C117_crossing", "Nosnoc.C117_sliding", "Nosnoc.C117_leaving"], "note": "With FESD and polishing. The slopes are multiplied by the sum W of the weights of the scheme (1 for INTEGRAL, otherwise 1 up to 1e-11, the rounding of the Butcher tables)."},
 {"property": "C118", "status": "proved", "theorems": ["Nosnoc.C118_crossing", "Nosnoc.C118_sliding"], "note": "Without polishing, the shipped setting. Scholtes modes, LINEAR update with the automatic budget. W: as in C117."},
 {"property": "C119", "status": "proved", "theorems": ["Nosnoc.C119_split", "Nosnoc.C119_join"], "note": "Specification Spec/Continue.lean (Joined). W: jump problem, 1 + 2 steps with p_values, echoing NLP solver."},
 {"property": "C120", "status": "proved", "theorems": ["Nosnoc.C120_results_after_error", "Nosnoc.C120_short_guesses"], "note": "W: jump problem with two guesses for three steps."},
 {"property": "C121", "status": "proved", "theorems": ["Nosnoc.C121_linear_element", "Nosnoc.C121_quadratic_element", "Nosnoc.C121_reported", "Nosnoc.C121_simulation", "Nosnoc.C121_quadratic_table"], "note": "Specification Spec/Invariant.lean (AlongField, linFun, quadFun, GaussPoints). W: pair of opposite states, any number of steps and elements, Radau and Gauss."},
 {"property": "C122", "status": "proved", "theorems": ["Nosnoc.C122_linear_element", "Nosnoc.C122_convex_element", "Nosnoc.C122_reported", "Nosnoc.C122_simulation"], "note": "Specification Spec/Invariant.lean (Descends, ConvexWith). W: first state of the pair, any number of steps; exp(-x) with one implicit Euler step in both representations."},
 {"property": "C123", "status": "proved", "theorems": ["Nosnoc.C123_element", "Nosnoc.C123_reported", "Nosnoc.C123_simulation"], "note": "Specification Spec/Invariant.lean (Lyapunov). W: x' = -sign x from 1/2, any number of steps, default options with polishing, x\u00b2."},
 {"property": "C124", "status": "partial", "theorems": ["Nosnoc.C124_run_again_partial", "Nosnoc.C124_cpu_rows_violated"], "note": "C124_run_again_partial: all entries except cpu_nlp, which is replaced by that of the last run (C124_cpu_rows_violated: jump problem, two runs of two steps)."},
 {"property": "C125", "status": "partial", "theorems": ["Nosnoc.C125_reuse_partial", "Nosnoc.C125_stored", "Nosnoc.C125_other_model_violated"], "note": "C125_reuse_partial: the object was only used with models of the same dimensions (otherwise false: C125_other_model_violated)."},
 {"property": "C126", "status": "proved", "theorems": ["Nosnoc.C126_relabelling", "Nosnoc.C126_relabelling_boolean", "Nosnoc.C126_accepted_iff", "Nosnoc.C126_correspondence", "Nosnoc.C126_initial_multipliers"], "note": "Models given by F (C102: order of the regions). Models given by f_x and alpha refer to alpha by position in the user's expression."},
 {"property": "C127", "status": "proved", "theorems": ["Nosnoc.C127_split", "Nosnoc.C127_part", "Nosnoc.C127_tail_optimal", "Nosnoc.C127_tail_optimal_plain", "Nosnoc.C127_restart_multipliers"], "note": "Limits that are properties of the code: a free control grid with FESD is tied to the horizon by one constraint on the total time; time freezing has a clock relaxed relative to the start; in BOOLEAN mode the complementarity is by big-M indicator rows (C76)."},
 {"property": "C128", "status": "proved", "theorems": ["Nosnoc.C128_chain", "Nosnoc.C128_simulation"], "note": "The simulation theorem assumes constant p_values (with changing values the multipliers at a restart differ from those before, see C94), no algebraic variables (initial multipliers are computed with z0, see C91) and an equidistant control grid."},
 {"property": "C129", "status": "proved", "theorems": ["Nosnoc.C129_stable", "Nosnoc.C129_unique"], "note": "Models, modes and options as in C99 (piecewise constant systems, polishing). Without the one-sided Lipschitz condition solutions of the differential inclusion are not unique and neither are results."},
 {"property": "C130", "status": "proved", "theorems": ["Nosnoc.C130_stable", "Nosnoc.C130_unique", "Nosnoc.C130_no_fesd"], "note": "Smooth systems without algebraic variables, speed of time off; for switched systems with exact complementarity see C129."},
 {"property": "C131", "status": "proved", "theorems": ["Nosnoc.C131_crossing"], "note": "One subsystem with one switching function and constant parameters; with polishing (exact complementarity). The trajectory crosses once up to the time T; gamma_h = 1 (elements of length zero) is covered."},
 {"property": "C132", "status": "proved", "theorems": ["Nosnoc.C132_simulated", "Nosnoc.C132_no_trajectory_lost", "Nosnoc.C132_exact_point_is_trajectory"], "note": "Stewart mode, schemes whose last stage is the end point, no algebraic variables. no_trajectory_lost also without path complementarities, time freezing, path constraints at stages, and step equilibration by constraints, which may exclude trajectories on purpose."},
 {"property": "C133", "status": "proved", "theorems": ["Nosnoc.C133_oscillator"], "note": "Model with use_g_Stewart=False, use_fesd=True, with polishing (then success means exact complementarity); the order proved is n_s, not the superconvergence order."},
 {"property": "C134", "status": "proved", "theorems": ["Nosnoc.C134_crossing"], "note": "The switching function of a mixed element may be up to the square root of the tolerance on the wrong side; this is the accuracy the relaxed complementarity conditions allow."},
 {"property": "C135", "status": "proved", "theorems": ["Nosnoc.C135_problem", "Nosnoc.C135_calls", "Nosnoc.C135_simulation", "Nosnoc.C135_rk4", "Nosnoc.C135_oscillator"], "note": "identity of the NLP and of everything observable, for all call sequences; RK4_SMOOTHENED excluded (the code raises)"},
 {"property": "C136", "status": "proved", "theorems": ["Nosnoc.C136_oscillator"], "note": "Model with use_g_Stewart=False (C135 carries it over to use_g_Stewart=True), use_fesd=True, without polishing, Scholtes modes; the order proved is n_s, not the superconvergence order, and the tolerance enters with its square root."},
 {"property": "C137", "status": "proved", "theorems": ["Nosnoc.C137_no_trajectory_lost", "Nosnoc.C137_exact_point_is_trajectory", "Nosnoc.C137_one_switch", "Nosnoc.C137_simulated"], "note": "Step mode; the scheme's last point is the end of the element, no user algebraic variables; simulations with one subsystem (finding C08: with several, the initial multipliers are permuted)."},
 {"property": "C138", "status": "proved", "theorems": ["Nosnoc.C138_crossings", "Nosnoc.C138_crossings_unpolished"], "note": "Any number of transversal crossings between two regions; one switching function, equidistant grid, exact NLP solver and successful runs assumed."},
 {"property": "C139", "status": "proved", "theorems": ["Nosnoc.C139_sliding"], "note": "Proved for affine surfaces and all schemes and representations, for runs in which every step is an exact solution of its NLP; the example simulates the shipped sliding system with any number of steps."},
 {"property": "C140", "status": "partial", "theorems": ["Nosnoc.C140_all_returned", "Nosnoc.C140_determined_violated"], "note": "C140_determined_violated refutes that the results are determined by the problem; C140_all_returned shows for all data that each of the three solutions is returned for some exact NLP solver. C129 is the positive counterpart."},
 {"property": "C141", "status": "proved", "theorems": ["Nosnoc.C141_crossings_sliding"], "note": "All trajectories with m > 0 crossings followed by an entry into a sliding mode (C138 and C139 are the cases without sliding and without crossings). The trajectory is described until the time Te; leaving the sliding mode is not covered."}
]}
