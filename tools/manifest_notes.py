"""Remarks for MANIFEST.json."""
NOTES = {
    'C92': 'Exactness for piecewise constant systems, Stewart and Step, rbe schemes or SUM_LAMBDAS. The factor W is the sum of the weights of the scheme (C92_weights: exactly 1 for INTEGRAL, within 1e-11 for the tables). Nonnegative steps are a hypothesis (gamma_h <= 1 implies it).',
    'C93': 'Stewart mode, scheme whose last stage is the end point, no step equilibration by constraints, not BOOLEAN or FISCHER_BURMEISTER_IP_AUG. The example is a trajectory that crosses to the surface and slides, with the default options.',
    'C141': 'All trajectories with m > 0 crossings followed by an entry into a sliding mode (C138 and C139 are the cases without sliding and without crossings). The trajectory is described until the time Te; leaving the sliding mode is not covered.',
    'C140': 'C140_determined_violated refutes that the results are determined by the problem; C140_all_returned shows for all data that each of the three solutions is returned for some exact NLP solver. C129 is the positive counterpart.',
    'C139': 'Proved for affine surfaces and all schemes and representations, for runs in which every step is an exact solution of its NLP; the example simulates the shipped sliding system with any number of steps.',
    'C138': 'Any number of transversal crossings between two regions; one switching function, equidistant grid, exact NLP solver and successful runs assumed.',
    'C137': "Step mode; the scheme's last point is the end of the element, no user algebraic variables; simulations with one subsystem (finding C08: with several, the initial multipliers are permuted).",
    'C136': 'Model with use_g_Stewart=False (C135 carries it over to use_g_Stewart=True), use_fesd=True, without polishing, Scholtes modes; the order proved is n_s, not the superconvergence order, and the tolerance enters with its square root.',
    'C135': 'identity of the NLP and of everything observable, for all call sequences; RK4_SMOOTHENED excluded (the code raises)',
    'C134': 'The switching function of a mixed element may be up to the square root of the tolerance on the wrong side; this is the accuracy the relaxed complementarity conditions allow.',
    'C133': 'Model with use_g_Stewart=False, use_fesd=True, with polishing (then success means exact complementarity); the order proved is n_s, not the superconvergence order.',
    'C132': 'Stewart mode, schemes whose last stage is the end point, no algebraic variables. no_trajectory_lost also without path complementarities, time freezing, path constraints at stages, and step equilibration by constraints, which may exclude trajectories on purpose.',
    'C131': 'One subsystem with one switching function and constant parameters; with polishing (exact complementarity). The trajectory crosses once up to the time T; gamma_h = 1 (elements of length zero) is covered.',
    'C130': 'Smooth systems without algebraic variables, speed of time off; for switched systems with exact complementarity see C129.',
    'C129': 'Models, modes and options as in C99 (piecewise constant systems, polishing). Without the one-sided Lipschitz condition solutions of the differential inclusion are not unique and neither are results.',
    'C128': 'The simulation theorem assumes constant p_values (with changing values the multipliers at a restart differ from those before, see C94), no algebraic variables (initial multipliers are computed with z0, see C91) and an equidistant control grid.',
    'C127': 'Limits that are properties of the code: a free control grid with FESD is tied to the horizon by one constraint on the total time; time freezing has a clock relaxed relative to the start; in BOOLEAN mode the complementarity is by big-M indicator rows (C76).',
    'C126': "Models given by F (C102: order of the regions). Models given by f_x and alpha refer to alpha by position in the user's expression.",
    'C125': 'C125_reuse_partial: the object was only used with models of the same dimensions (otherwise false: C125_other_model_violated).',
    'C124': 'C124_run_again_partial: all entries except cpu_nlp, which is replaced by that of the last run (C124_cpu_rows_violated: jump problem, two runs of two steps).',
    'C123': "Specification Spec/Invariant.lean (Lyapunov). W: x' = -sign x from 1/2, any number of steps, default options with polishing, x².",
    'C122': 'Specification Spec/Invariant.lean (Descends, ConvexWith). W: first state of the pair, any number of steps; exp(-x) with one implicit Euler step in both representations.',
    'C121': 'Specification Spec/Invariant.lean (AlongField, linFun, quadFun, GaussPoints). W: pair of opposite states, any number of steps and elements, Radau and Gauss.',
    'C120': 'W: jump problem with two guesses for three steps.',
    'C119': 'Specification Spec/Continue.lean (Joined). W: jump problem, 1 + 2 steps with p_values, echoing NLP solver.',
    'C118': 'Without polishing, the shipped setting. Scholtes modes, LINEAR update with the automatic budget. W: as in C117.',
    'C117': 'With FESD and polishing. The slopes are multiplied by the sum W of the weights of the scheme (1 for INTEGRAL, otherwise 1 up to 1e-11, the rounding of the Butcher tables).',
    'C116': 'Systems without algebraic and global variables and without local speed of time; the solution has to be smooth on every element (for switched systems: follow one region per element).',
    'C115': 'RK4_SMOOTHENED is not covered; ALL_XCURRENT_WOPT_PREV starts from the previous solution by design.',
    'C114': "Arrays are values (the aliasing of `model.x0` and `prob.w0` with the caller's arrays is not modelled).",
    'C113': 'Violated: `mu00_stewart_fun` returns min g, the switching equations need -min g; proved that the negative of the returned value is the only one that fits.',
    'C112': 'In Step mode with user-given alpha the sizes of alpha are assumed to agree with c (CasADi would fail or broadcast otherwise).',
    'C111': 'The regions and the reference solution refer to the reported grid: that the solution itself switches at the reported switching times is an assumption on it, not a conclusion.',
    'C110': 'The order proved is the stage order n_s, not the higher order of the end points (superconvergence 2 n_s or 2 n_s - 1).  Right-hand sides without switches only.',
    'C109': 'In Step mode with F the sign matrices have to describe a partition (the weights of C25 sum to one exactly because of this).  Integrals are stated for INTEGRAL only.',
    'C108': 'Without polishing (with polishing the result is exact, C99).  Elastic modes are covered by C97 only: the last slack is not bounded by the schedule.',
    'C107': 'C107_call_violated (every call raises), C107_region_not_root_violated, C107_close_regions_violated (the equations), C107_far_regions_partial (selection right if the indicator functions differ by at least 1), C107_step.',
    'C106': 'C106_colored_line_partial (two different times), C106_scatter, C106_ragged (missing coordinates raise ValueError); C106_equal_times_violated.',
    'C105': 'C105_plot_iterates_violated (all problems, all nonempty lists), C105_key_error_violated (the exception); C105_no_iterates_partial.',
    'C104': 'C104_timings, C104_simulation.',
    'C103': 'C103_regions_only, C103_symmetric, C103_objective, C103_rescaling (both directions). Hypotheses: end points are collocation points or standard RK, modes of C95.',
    'C102': 'C102_renumbering, C102_accepted_iff, C102_renumbering_boolean (points up to the values of the binary variables), C102_correspondence (the renaming is a bijection), C102_initial_multipliers.',
    'C101': 'C101_polishing_violated: a concrete model on which polishing always turns success into failure. C101_polishing_succeeds_partial: if the last homotopy solution is exact and its multipliers are zero, one or further than 10 comp_tol from both, polishing succeeds.',
    'C100': 'C100_feasible_succeeds_partial: without polishing, which fixes further variables (C101 shows that polishing can turn a feasible problem into a failure); with fix_active_set_fe0 the coefficients it fixes must vanish at the feasible points (C56 shows that this is needed). C100_one_switch, C100_simulation: simulations with one switching function, with or without fix_active_set_fe0.',
    'C99': 'C99_simulation_exact.',
    'C98': 'C98_simulation (Stewart), C98_simulation_step (Step), C98_homotopy (every sigma). C98_one_element_infeasible shows that two elements are needed.',
    'C97': 'C97_residual, C97_selection, C97_selection_start, C97_velocity, C97_element. Modes: SCHOLTES_*, ELASTIC_INEQ, ELASTIC_EQ, and FISCHER_BURMEISTER* when every pair is constrained separately (ExactMode); for the others see C34.',
    'C96': 'Proved for the modes that bound products from above (SCHOLTES_INEQ, the elastic modes) and for BOOLEAN; C96_lower_bound_partial is the order of the optimal values. C96_equality_modes shows that in SCHOLTES_EQ and the FISCHER_BURMEISTER modes no point is feasible for two parameter values; C96_violated is a concrete exact solution lost by SCHOLTES_EQ.',
    'C95': 'C95_step_to_stewart is the full direction. Back: C95_stewart_to_step_partial (product form), C95_single_switching_partial (one switching function per subsystem), C95_filippov_step_partial (C93 for Step mode). C95_violated: sliding along the intersection of two surfaces is a Stewart solution; every Step solution from the same state ends elsewhere. Excluded: DIRECT, DIRECT_COMPLEMENTARITY, FISCHER_BURMEISTER_IP_AUG. C95_objective: same objective on the same trajectory.',
    'C94': 'C94_violated: c = p, p = 1 then -1: infeasible for sigma < 1 with FESD, feasible for sigma = 0 without. C94_old_parameters: the condition FESD imposes at a stage boundary. C93 is the positive part: trajectories whose regions also contain the boundary state with the old parameters are not lost.',
    'C91': 'C91_rootfinder: with rootfinder_for_initial_z=True (a root finder that returns zeros). C91_solve_rootfinder, C91_solve_returns, C91_success_is_feasible: the same for a whole solve; every NLP call gets these multipliers, and SUCCESS of an exact NLP solver means feasibility with them (without polishing; the last one without fix_active_set_fe0). C91_consistent_guess_partial: without it, if the guess is consistent. C91_guess_violated: without it and with the default guess z0 = 0 the multipliers of the wrong region are passed and the NLP has no feasible point for sigma < 1/2 although the consistent multipliers give one.',
    'C90': 'Proved for Stewart mode, Radau, DIFFERENTIAL_LIFT_X, no algebraic states, first control stage. C90_integral_violated: with INTEGRAL the stored points include a leading 0, so every guess is that of the point before (n_s = 1: all guesses are x0). C90_other_schemes_violated: with DIFFERENTIAL and n_s >= 2, and with Gauss-Legendre, every solve raises.',
    'C88': 'Proved: print returns, flags exactly the variables with inconsistent bounds or with a guess below the lower bound, and counts them. C88_guess_above_violated: a guess above the upper bound is never flagged (the code compares ubw > ubw); the print ends with errors: 0.',
    'C89': 'Violated in Step mode with several switching systems (C89_step_several_systems_violated: wrong initial multipliers in p0, and no point satisfies the dumped problem). Otherwise all MPCC modes, BOOLEAN up to the values of the binary variables. The objective part excludes elastic modes with objective_scaling_direct, where the objective is divided by the relaxation parameter, which is 0 in p0. Pickling itself is not modelled.',
    'C86': 'Proved for schemes whose last stage is the end point, for SUM_LAMBDAS, and at boundaries of control stages. C86_gauss_violated: with COMPLEMENT_ALL and a scheme without right boundary point an exactly feasible point changes its mode where the switching function is -1/2.',
    'C12': 'Proved with FESD if the control grid is equidistant or there is more than one stage. C12_total_time_violated: with one stage and a non-equidistant control grid nothing fixes the sum of the steps.',
    'C61': 'Extraction is proved for systems with equally many regions and Nfe_list of the right length; C61_ragged_systems_violated: systems with different numbers of regions make the extraction raise; C61_long_nfe_list_violated: so does an Nfe_list longer than N_stages.',
    'C76': 'Proved for the branch for general inclusions, and for the Filippov branch if each additive component has one outermost nonsmooth node and equal switching functions are one shared node. C76_product_violated: a product of two nonsmooth terms is accepted and gives a wrong vector field. C76_doubled_violated: two components with the same switching function built from different nodes are counted twice. C76_filippov_model_partial and C76_general_model_partial state the same for the entries of the returned NosnocModel itself.',
    'C77': 'Exact conditions proved for both branches. C77_several_violated: general inclusions with two switching functions never pass preprocessing; C77_parameter_violated: p is not handed to the model; C77_control_violated: switching functions of the control are rejected.',
    'C82': 'The lists c, F, S, alpha of the object accumulate and are shared with the returned models. Proved: the vector field of the general branch stays right. C82_second_violated: the second model never passes preprocessing; C82_first_violated: the second call breaks the first model; C82_filippov_violated: the second call doubles the vector field.',
    'C67': 'The tolerances are class attributes shared by all options objects. Proved: the value for the first solver of a process, for histories in which all options objects have the same comp_tol, and after the user has set it; it never changes for an existing solver. C67_other_object_violated: the second of two options objects gets the tolerance of the first.',
    'C80': 'nlp_max_iter is stored in the same shared dictionary. Proved when it is only set on one options object; C80_other_object_violated: a value set on one object is used for all others.',
    'C68': 'Nfe_list and max_iter_homotopy are filled in once and stay. Proved: all other attributes are what the user assigned, and after resetting these two the object behaves as a new one. C68_more_stages_violated: increasing N_stages on a used object makes every construction raise; C68_elements_violated: a change of N_finite_elements has no effect.',
    'C71': 'Proved for a given p_time_var_val, and for histories with one N_stages. C71_other_stages_violated: the default is stored with N_stages rows, so every construction with another N_stages raises.',
    'C81': 'Proved for solvers that share neither model nor options object with others. C81_shared_model_violated: set x0 on one solver changes the initial state of another one with the same model; C81_new_solver_violated: creating a solver resets the parameter values of the others with the same model.',
    'C63': 'All steps run and True is returned is proved (C63_all_steps_partial). stop_on_failure compares a Status with a string, so it never stops: C63_no_effect_violated (both flag values behave the same), C63_stop_on_failure_violated (every step fails and run still returns True).',
    'C65': 'The shift by the total time of the previous steps is proved; what the switch times of one step are is C60.',
    'C55': 'Proved for states, controls and global variables, including that a wrong shape raises and that the states are written although a warning is raised. Theta is proved for one switching system; C55_theta_several_systems_violated: with several systems the documented shape is rejected and an accepted shape writes the same row to every system.',
    'C56': 'What is fixed, and that nothing else changes, is proved for every solve. That no solution is lost is proved in every mode for points complementary to the initial multipliers, and for all feasible points with FESD and signed multipliers or Fischer-Burmeister functions with COMPLEMENT_ALL; C56_without_fesd_violated: without FESD every NLP call of a problem whose step crosses the switching surface is feasible before fixing and infeasible after.',
    'C50': 'Proved: without polishing the reported cost is the absolute value of the objective at w_sol. C50_negative_objective_violated: a negative objective is reported with the wrong sign. C50_polishing_violated: after polishing the cost is that of the unpolished solution.',
    'C51': 'SUCCESS iff accepted status of the last NLP solve is proved. C51_residual_violated: SUCCESS is reported with a complementarity residual of 1; C51_unsolvable_violated: the same for every NLP solver that accepts feasible points only and finds them whenever they exist, on an optimal control problem without solution in mode ELASTIC_INEQ; what does hold about the residual is C51_residual_partial.',
    'C57': 'What polishing fixes, keeps and returns is proved, with the exact condition under which it runs through. C57_speed_of_time_violated: it raises for every problem with speed-of-time variables. C57_negative_multiplier_violated: a multiplier of -1 is fixed to 0.',
    'C08': 'Proved for Stewart mode and for at most one switching system. C08_step_several_systems_violated: in Step mode with several systems the numeric initial multipliers are interleaved per system while the symbolic parameter lists all negative parts first, and an NLP that is feasible in truth becomes infeasible.',
    'C29': 'Proved for all elements but the last of each control stage. C29_last_element_violated: the last element has no multipliers of its own at its end, the switching equations at the end state are imposed on the multipliers of the last stage point. C29_infeasible_violated: with the midpoint rule this makes the problem infeasible for a drift that stays in one region.',
    'C23': 'Stewart conditions proved for all models; region selection proved for sign matrices without zeros. C23_zeros_violated: with zeros in S (an accepted, covering, non-overlapping matrix) a feasible point can select the wrong region.',
    'C21': 'Weights proved for the differential representations. For INTEGRAL the weight of the element start is dropped: the exact sum of the weights is proved, and C21_radau1_violated shows that with Radau and n_s = 1 a cost of 1 per unit time is halved.',
    'C44': 'What LEAST_SQUARES does is proved, and that it is equivalent for equations and refuses the inequality modes. C44_refusal_violated: a path constraint with lower bound 0 and infinite upper bound is not refused but squared.',
    'C32': 'Meaning of the cross complementarity rows proved; C32_free_multipliers_violated shows that FB and two-sided elastic modes with SUM_LAMBDAS leave the multipliers free in sign, so sigma = 0 does not force each product to vanish.',
    'C33': 'SUM_LAMBDAS implies COMPLEMENT_ALL is proved; C33_gauss_violated shows the converse fails for schemes without right boundary point, because SUM_LAMBDAS also includes the end multiplier of the element itself.',
    'C34': 'Residual certificate proved where it holds; the violated theorems show where a small residual does not certify complementarity.',
    'C35': 'Stage and global complementarities proved. C35_ctrl_violated: control complementarities are only imposed when a stage has exactly N_finite_elements elements, so with Nfe_list they can be dropped silently.',
    'C37': 'Ends of elements proved. C37_stage_violated: with a right boundary point and g_path_at_stg the last stage of non-final elements is skipped.',
    'C41': 'Meaning of the rows proved; the violated theorems show DIRECT_COMPLEMENTARITY is one-sided with SCHOLTES_INEQ and HEURISTIC_DELTA_H_COMP is vacuous or infeasible.',
    'C31': 'Proved for all modes but BOOLEAN; for BOOLEAN proved with binary b, and C31_boolean_relaxed_violated shows that the library leaves b continuous in [0, 1].',
    'C18': 'Equivalence proved up to the state bounds at interior stages; C18_state_bounds_violated shows that with bounds the code differs (DIFFERENTIAL does not bound stage states).',
    'C07': 'Violated by the code: GLOBAL mode never builds a problem (proved). LOCAL and NONE are proved correct.',
}

PARTIAL = {}
NOT_APPLICABLE = {}
