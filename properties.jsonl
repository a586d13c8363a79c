{"id": "C01", "title": "Index lists partition the decision vector", "statement": "After construct_problem succeeds, the index lists of the problem (ind_x, ind_v, ind_theta, ind_lam, ind_mu, ind_alpha, ind_lambda_n, ind_lambda_p, ind_z, ind_h, ind_u, ind_sot, ind_v_global, ind_elastic, ind_bool) together contain every position of problem.w exactly once, and nothing else.", "quantifier": "all option combinations (pss_mode, irk_representation, scheme, mpcc_mode, use_fesd, LOCAL/NONE speed of time), all n_s, N_stages, Nfe_list, n_sys and dimensions", "why_tests_cant": "Tests can only build finitely many shapes; the claim ranges over unbounded sizes and a product of eight option enums.", "anchors": ["nosnoc/problem.py:NosnocFormulationObject.add_variable", "nosnoc/problem.py:FiniteElement.__init__", "nosnoc/problem.py:NosnocProblem._collect_finite_elements", "nosnoc/utils.py:increment_indices"]}
{"id": "C02", "title": "Index lists name the right variable", "statement": "problem.w[problem.ind_theta[k][i][j][s]] is exactly the vector of convex multipliers of system s at RK stage j of finite element i of control stage k; likewise for x, v, lambda, mu, alpha, lambda_n, lambda_p, z, the step sizes (ind_h in chronological order), controls, global variables, elastic slack and speed-of-time variables.", "quantifier": "all configurations as in C01 and all positions (k,i,j,s)", "why_tests_cant": "An off-by-one in index shifting shows only for particular shapes; correctness for all shapes needs induction over the construction.", "anchors": ["nosnoc/problem.py:FiniteElement.__init__", "nosnoc/problem.py:NosnocProblem.__collect_final_element", "nosnoc/utils.py:increment_indices"]}
{"id": "C03", "title": "Size of the decision vector", "statement": "len(problem.w) equals the closed formula: elastic slack + n_v_global + per control stage (n_u + local speed-of-time) + per finite element (one step size if FESD, n_s*(state/derivative variables + algebraic variables), boundary multipliers on every element but the last of each control stage when FESD is used with a scheme whose last node is not 1, and an end state where the last stage is not the end point) + boolean variables.", "quantifier": "all configurations and sizes", "why_tests_cant": "test_problem_dimensions checks 48 shapes with one control stage and one system.", "anchors": ["nosnoc/problem.py:FiniteElement.__init__", "nosnoc/problem.py:NosnocProblem.__create_primal_variables", "test/test_problem_dimensions.py"]}
{"id": "C04", "title": "Every variable gets its documented bounds and initial guess", "statement": "For each entry of problem.w the arrays lbw, ubw, w0 hold at the same position the bounds and guess documented for that variable: states [lbx,ubx] with guess x0, controls [lbu,ubu] with u_guess, user algebraics [lbz,ubz] with z0, step sizes [(1-gamma_h)h0,(1+gamma_h)h0] with guess h0, multipliers lower bounded by 0 in the SCHOLTES/ELASTIC_INEQ/ELASTIC_EQ modes and free otherwise, alpha upper bounded by 1, v_global, s_elastic and speed of time from the options.", "quantifier": "all configurations, all entries", "why_tests_cant": "Alignment of four parallel arrays must hold for every shape.", "anchors": ["nosnoc/problem.py:NosnocFormulationObject.add_variable", "nosnoc/problem.py:FiniteElement.add_step_size_variable", "nosnoc/problem.py:NosnocProblem._add_primal_vector"]}
{"id": "C05", "title": "Constraint arrays stay aligned", "statement": "problem.g, problem.lbg, problem.ubg always have equal length, and ind_comp lists exactly the positions of the complementarity constraints in problem.g, each once.", "quantifier": "all configurations and constraint histories", "why_tests_cant": "Invariant over arbitrary sequences of add_constraint/create_complementarity calls.", "anchors": ["nosnoc/problem.py:NosnocFormulationObject.add_constraint", "nosnoc/problem.py:NosnocFormulationObject.create_complementarity", "nosnoc/problem.py:NosnocProblem.add_fe_constraints"]}
{"id": "C06", "title": "Construction succeeds exactly on consistent data", "statement": "For preprocessed options and a preprocessed model/ocp, building the problem raises nothing when len(x0)=n_x, every Nfe_list entry is positive and covers all control stages, and the option combination is supported; and an x0 of the wrong length is rejected with an exception instead of producing a misaligned NLP.", "quantifier": "all configurations", "why_tests_cant": "Absence of exceptions for all shapes cannot be enumerated.", "anchors": ["nosnoc/problem.py:NosnocProblem.__init__", "nosnoc/problem.py:NosnocFormulationObject.add_variable"]}
{"id": "C07", "title": "Global speed-of-time mode is usable", "statement": "SpeedOfTimeVariableMode.GLOBAL adds one speed-of-time variable used across the whole problem, for every model and option set.", "quantifier": "all configurations with speed_of_time_variables = GLOBAL", "why_tests_cant": "No test constructs this mode; the claim is about every construction.", "anchors": ["nosnoc/problem.py:NosnocProblem.__create_primal_variables"]}
{"id": "C08", "title": "Parameter vector and parameter values agree", "statement": "The value vector the solver passes to the NLP assigns to every parameter symbol its own quantity: stage parameters p_k, sigma, tau, the initial multipliers lambda00 of each system (lambda for Stewart; lambda_n and lambda_p for Step) and x0.", "quantifier": "all pss modes, numbers of systems, dimensions and parameter values", "why_tests_cant": "Order mismatches only show for n_sys >= 2; the statement is for all n_sys.", "anchors": ["nosnoc/solver.py:NosnocSolverBase.setup_p_val", "nosnoc/problem.py:NosnocProblem.__create_primal_variables", "nosnoc/model.py:NosnocModel.preprocess_model", "nosnoc/problem.py:NosnocProblem.dump"]}
{"id": "C09", "title": "Parameter setters write exactly their slots", "statement": "set(\"p_global\", v) makes the global part of every control stage equal v and leaves the time-varying part unchanged; set(\"p_time_var\", V) makes the time-varying part of stage i equal V[i] and leaves the global part unchanged; the two commute, repeat idempotently, and the last write wins over any history of sets.", "quantifier": "all sequences of set calls, all numbers of stages and parameter dimensions", "why_tests_cant": "Frame properties over arbitrary call histories.", "anchors": ["nosnoc/solver.py:NosnocSolverBase.set", "nosnoc/model.py:NosnocModel.preprocess_model"]}
{"id": "C10", "title": "Step-size box and monotone time grid", "statement": "At any NLP point within bounds with FESD and 0<=gamma_h<=1, every reported time step lies in [(1-gamma_h)h0,(1+gamma_h)h0] with h0 = terminal_time/(N_stages*Nfe), so the reported t_grid is nondecreasing (strictly increasing for gamma_h<1).", "quantifier": "all bound-satisfying points, all configurations", "why_tests_cant": "Quantifies over all feasible points.", "anchors": ["nosnoc/problem.py:FiniteElement.__init__", "nosnoc/solver.py:get_results_from_primal_vector"]}
{"id": "C11", "title": "Equidistant control grid", "statement": "With FESD and equidistant_control_grid, every feasible point has t_grid_u[k] = k*terminal_time/N_stages for all k.", "quantifier": "all feasible points, all N_stages, Nfe_list", "why_tests_cant": "Quantifies over all feasible points and sizes.", "anchors": ["nosnoc/problem.py:NosnocProblem.__init__", "nosnoc/solver.py:get_results_from_primal_vector"]}
{"id": "C12", "title": "The horizon length is terminal_time", "statement": "Every feasible point of a FESD problem has t_grid[-1] = terminal_time.", "quantifier": "all FESD configurations and feasible points", "why_tests_cant": "Quantifies over all feasible points; the unconstrained corner (one stage, non-equidistant) is untested.", "anchors": ["nosnoc/problem.py:NosnocProblem.__init__"]}
{"id": "C13", "title": "Without FESD the reported grid is the discretisation grid", "statement": "With use_fesd=False the reported time_steps equal the constant step lengths terminal_time/(N_stages*Nfe_list[k]) that enter the Runge-Kutta equations of the corresponding elements; they sum to terminal_time and the control grid is equidistant.", "quantifier": "all N_stages, Nfe_list", "why_tests_cant": "Two independent code paths compute the step; agreement is for all shapes.", "anchors": ["nosnoc/problem.py:FiniteElement.__init__", "nosnoc/solver.py:get_results_from_primal_vector"]}
{"id": "C14", "title": "Time freezing pins physical time", "statement": "With time_freezing and an equidistant control grid, at every feasible point the physical clock at the end of control stage k is within time_freezing_tolerance of t(x0)+(k+1)*terminal_time/N_stages.", "quantifier": "all feasible points and configurations", "why_tests_cant": "Quantifies over all feasible points.", "anchors": ["nosnoc/problem.py:NosnocProblem.__init__"]}
{"id": "C15", "title": "Collocation coefficients are exact", "statement": "For every n_s and distinct nodes, the B, C, D coefficients returned by generate_butcher_tableu_integral satisfy, for every polynomial p of degree <= n_s with nodes t_0=0,t_1..t_ns: sum_j D[j] p(t_j) = p(1), sum_j C[j,r] p(t_j) = p'(t_r), sum_j B[j] p(t_j) = integral of p over [0,1].", "quantifier": "all n_s, all distinct node vectors, all polynomials of degree <= n_s", "why_tests_cant": "Unbounded in n_s and over all polynomials.", "anchors": ["nosnoc/rk_utils.py:generate_butcher_tableu_integral"]}
{"id": "C16", "title": "Stiffly accurate schemes need no end state", "statement": "If the last collocation node is 1, then D selects the last stage and the end-of-element state used by the next element, the path constraint and the terminal conditions is the state the scheme defines, in all three representations, although no continuity constraint is added for INTEGRAL and DIFFERENTIAL_LIFT_X.", "quantifier": "all n_s, nodes and feasible points", "why_tests_cant": "Needs an algebraic identity for all n_s.", "anchors": ["nosnoc/rk_utils.py:generate_butcher_tableu_integral", "nosnoc/problem.py:FiniteElement.forward_simulation", "nosnoc/nosnoc_opts.py:NosnocOpts.preprocess"]}
{"id": "C17", "title": "Runge-Kutta equations hold at every feasible point", "statement": "At every feasible point of an EXACT problem, in each element the stage derivatives satisfy the Runge-Kutta equations of the configured tableau with the user right-hand side evaluated at that stage (state, multipliers, control of the stage, parameters of the stage, global variables, speed of time), and the end state is x_prev + h*sum b_j k_j (DIFFERENTIAL, LIFT_X) or the collocation polynomial at 1 (INTEGRAL), where x_prev is the end state of the previous element (x0 for the first).", "quantifier": "all configurations, feasible points, elements and stages", "why_tests_cant": "Continuity across elements and stages for every shape.", "anchors": ["nosnoc/problem.py:FiniteElement.forward_simulation", "nosnoc/problem.py:FiniteElement.X_fe", "nosnoc/problem.py:FiniteElement.rk_stage_z"]}
{"id": "C18", "title": "DIFFERENTIAL and DIFFERENTIAL_LIFT_X describe the same trajectories", "statement": "For the same tableau, the two representations admit exactly the same stage derivatives, algebraic variables, step sizes and end states.", "quantifier": "all tableaus (stiffly accurate when the end point is explicit), sizes and points", "why_tests_cant": "Equality of two solution sets.", "anchors": ["nosnoc/problem.py:FiniteElement.X_fe", "nosnoc/problem.py:FiniteElement.forward_simulation"]}
{"id": "C19", "title": "INTEGRAL and DIFFERENTIAL describe the same trajectories", "statement": "For the collocation tableau of the same nodes, the INTEGRAL equations hold iff the DIFFERENTIAL equations hold for the corresponding stage derivatives, with the same stage states and end state.", "quantifier": "all n_s, distinct nodes, step sizes, right-hand sides", "why_tests_cant": "Equality of two solution sets for all n_s.", "anchors": ["nosnoc/problem.py:FiniteElement.forward_simulation", "nosnoc/rk_utils.py:generate_butcher_tableu_integral"]}
{"id": "C20", "title": "Butcher tableaus are valid collocation methods", "statement": "For both families and every n_s in 1..9, generate_butcher_tableu returns tables of matching shape, increasing nodes in (0,1], positive weights, row sums c, quadrature order conditions up to the returned order and stage order n_s, all to 1e-11; the matrices are regular, so slopes are determined by the stage values; Radau tables are stiffly accurate exactly and end at node 1, Gauss tables do not.", "quantifier": "the whole table (18 tableaus) and all order conditions", "why_tests_cant": "No test inspects the coefficients.", "anchors": ["nosnoc/rk_utils.py:generate_butcher_tableu"]}
{"id": "C21", "title": "The running cost is the quadrature of f_q over the horizon", "statement": "The stage cost added by each element equals h * sum_j b_j * q_j with weights summing to 1, so that a constant integrand 1 costs exactly the elapsed (scaled) time.", "quantifier": "all representations, schemes, n_s and points", "why_tests_cant": "A weight dropped for one (scheme,n_s) pair is invisible to the tested pairs.", "anchors": ["nosnoc/problem.py:FiniteElement.forward_simulation", "nosnoc/rk_utils.py:generate_butcher_tableu_integral"]}
{"id": "C22", "title": "rk4 integrates one step per grid entry", "statement": "rk4 and rk4_on_timegrid return one state per grid node starting with x0; rk4 equals rk4_on_timegrid on the constant grid; integration over a concatenated grid is the continuation from the last state; linear invariants of f are preserved exactly; a constant field is integrated exactly.", "quantifier": "all fields f, grids and initial states", "why_tests_cant": "Universal over vector fields.", "anchors": ["nosnoc/rk_utils.py:rk4", "nosnoc/rk_utils.py:rk4_on_timegrid"]}
{"id": "C23", "title": "Stewart representation selects the active region", "statement": "In PssMode.STEWART with given c and S, at a point strictly inside region i the algebraic equations, bounds and complementarity at one stage have exactly one solution: theta = e_i, so the right-hand side is the i-th column of F.", "quantifier": "all sign matrices, switching values, dimensions", "why_tests_cant": "Universal over S, c and numbers of regions.", "anchors": ["nosnoc/model.py:NosnocModel.preprocess_model"]}
{"id": "C24", "title": "Step representation selects the active region", "statement": "In PssMode.STEP at a point strictly inside region i (of systems with pairwise contradicting rows of S), every solution of the stage equations has alpha_k = 1 for c_k>0 and 0 for c_k<0 on the components used, and the right-hand side is the i-th column of F.", "quantifier": "all sign matrices with entries in {-1,0,1}, switching values, dimensions", "why_tests_cant": "Universal over S, c.", "anchors": ["nosnoc/model.py:NosnocModel.preprocess_model"]}
{"id": "C25", "title": "Feasible dynamics are Filippov combinations", "statement": "At any point satisfying the stage equations and the nonnegativity bounds, in Stewart mode the multipliers of each system are nonnegative and sum to 1; in Step mode with the full sign matrix the region weights are nonnegative and sum to 1.", "quantifier": "all points, dimensions, systems", "why_tests_cant": "Universal over points; partition of unity needs induction over the number of switching functions.", "anchors": ["nosnoc/model.py:NosnocModel.preprocess_model"]}
{"id": "C26", "title": "Initial multipliers solve the initial switching conditions", "statement": "The lambda00 computed from x0 is nonnegative, satisfies the switching equations for suitable mu (Stewart) or exactly (Step), and is complementary to the multipliers of the active region.", "quantifier": "all switching values and dimensions", "why_tests_cant": "Universal over x0.", "anchors": ["nosnoc/model.py:NosnocModel.compute_lambda00", "nosnoc/model.py:NosnocModel.preprocess_model"]}
{"id": "C27", "title": "Smoothed multipliers agree with the Step weights", "statement": "For S with entries in {-1,0,1} the smoothed region weights equal the Step weights evaluated at the smoothed steps, lie in (0,1], sum to 1 for full sign matrices, and the smoothed minimum used for mu lies between the minimum and maximum of g.", "quantifier": "all S, c, smoothing parameters > 0", "why_tests_cant": "Universal over S and c.", "anchors": ["nosnoc/model.py:NosnocModel.add_smooth_step_representation"]}
{"id": "C28", "title": "Stage arguments are bound in the right order", "statement": "The algebraic vector handed to the model functions at stage j binds each of theta, lambda, mu, alpha, lambda_n, lambda_p and user z of that stage to the variable of the same meaning.", "quantifier": "all configurations and stages", "why_tests_cant": "Positional binding for all sizes.", "anchors": ["nosnoc/problem.py:FiniteElement.rk_stage_z", "nosnoc/model.py:NosnocModel.preprocess_model"]}
{"id": "C29", "title": "Boundary-point switching equations are consistent", "statement": "With FESD and a scheme without explicit end point, the switching equations added at the element end involve multipliers belonging to that end point.", "quantifier": "all such configurations, all elements", "why_tests_cant": "Depends on which element of the stage is looked at and on reads of index lists of varying length.", "anchors": ["nosnoc/problem.py:FiniteElement.forward_simulation", "nosnoc/problem.py:FiniteElement.__init__"]}
{"id": "C30", "title": "Each MPCC mode encodes its relaxed complementarity", "statement": "create_complementarity([x_1..x_m], y, sigma, ..) constrains exactly: SCHOLTES_INEQ (sum x)y<=sigma, SCHOLTES_EQ (sum x)y=sigma, ELASTIC_INEQ/EQ the same with the slack, ELASTIC_TWO_SIDED -s<=(sum x)y<=s, FISCHER_BURMEISTER sum of smoothed FB functions = 0, BOOLEAN the big-M pair; componentwise.", "quantifier": "all modes, list lengths, vector lengths, points", "why_tests_cant": "Universal over points and sizes.", "anchors": ["nosnoc/problem.py:NosnocFormulationObject.create_complementarity"]}
{"id": "C31", "title": "At sigma=0 the relaxations enforce complementarity", "statement": "With nonnegative arguments and sigma = 0 (slack = 0; binary boolean variables), each supported mode forces x_i*y = 0 for every pair; relaxations are nested: a feasible point for sigma stays feasible for a larger sigma in the INEQ modes.", "quantifier": "all points", "why_tests_cant": "Universal over points.", "anchors": ["nosnoc/problem.py:NosnocFormulationObject.create_complementarity"]}
{"id": "C32", "title": "No switch inside a finite element", "statement": "With FESD, at every feasible point with exact complementarity, if some stage of an element has theta_i > 0 then lambda_i = 0 at all stages of this element and at the end of the previous element (the initial lambda00 for the first).", "quantifier": "all configurations, feasible points, elements, stages", "why_tests_cant": "The defining FESD guarantee; universal over points.", "anchors": ["nosnoc/problem.py:FiniteElement.create_complementarity_constraints", "nosnoc/problem.py:FiniteElement.get_Lambdas_incl_last_prev_fe"]}
{"id": "C33", "title": "The two cross-complementarity modes are equivalent at sigma=0", "statement": "For nonnegative multipliers and sigma=0, the feasible sets of COMPLEMENT_ALL_STAGE_VALUES_WITH_EACH_OTHER and SUM_LAMBDAS_COMPLEMENT_WITH_EVERY_THETA coincide; for sigma>0 SUM implies ALL, and ALL at sigma implies SUM at (n_s+1)*sigma.", "quantifier": "all configurations and points", "why_tests_cant": "Equality of two solution sets.", "anchors": ["nosnoc/problem.py:FiniteElement.create_complementarity_constraints"]}
{"id": "C34", "title": "comp_res certifies complementarity", "statement": "If problem.comp_res(w,p) < tol at a point within bounds, all the stage complementarity products lie in [0,tol).", "quantifier": "all configurations and points", "why_tests_cant": "Universal over points and modes.", "anchors": ["nosnoc/problem.py:FiniteElement.get_complementarity_vector", "nosnoc/problem.py:NosnocProblem.__init__"]}
{"id": "C35", "title": "Path complementarities are enforced where they live", "statement": "Stage-dependent path complementarities are imposed at every RK stage, control-dependent ones once per control stage, global ones once.", "quantifier": "all Nfe_list, configurations", "why_tests_cant": "Depends on Nfe_list entries against another option.", "anchors": ["nosnoc/problem.py:FiniteElement.create_complementarity_constraints", "nosnoc/problem.py:NosnocProblem.create_global_compl_constraints"]}
{"id": "C36", "title": "Path complementarity classification", "statement": "Each row of g_path_comp goes to exactly one category (stage if it depends on x or z, else control if on u or p_time_var, else global); order inside a category is preserved; a matrix whose width is not 2 is rejected.", "quantifier": "all rows and dependency patterns", "why_tests_cant": "Universal over lists of rows.", "anchors": ["nosnoc/ocp.py:NosnocOcp.preprocess_ocp"]}
{"id": "C37", "title": "Path constraints are enforced at the documented points", "statement": "g_path holds within [lbg,ubg] at the end of each control stage always, at the end of every finite element if g_path_at_fe, and at every integrator stage if g_path_at_stg.", "quantifier": "all configurations and feasible points", "why_tests_cant": "Universal over points; depends on scheme and element position.", "anchors": ["nosnoc/problem.py:FiniteElement.forward_simulation", "nosnoc/nosnoc_opts.py:NosnocOpts"]}
{"id": "C38", "title": "Terminal constraint and cost act on the final state", "statement": "g_terminal and f_terminal are evaluated at the final reported state x_out with the parameters of the last stage, and every feasible point satisfies g_terminal(x_out)=0.", "quantifier": "all configurations and feasible points", "why_tests_cant": "Universal over shapes and points.", "anchors": ["nosnoc/problem.py:NosnocProblem.__init__"]}
{"id": "C39", "title": "Heuristic step equilibration penalises exactly non-uniform steps", "statement": "HEURISTIC_MEAN adds rho_h*(h-h0)^2 per element, HEURISTIC_DELTA adds rho_h*(h_i-h_{i-1})^2 per non-first element of a stage; for rho_h>0 the penalty is nonnegative and zero iff all steps of each control stage are equal to h0 (mean) or to each other (delta).", "quantifier": "all configurations and points", "why_tests_cant": "Universal over points and sizes.", "anchors": ["nosnoc/problem.py:FiniteElement.step_equilibration"]}
{"id": "C40", "title": "DIRECT step equilibration: steps only change at switches", "statement": "With StepEquilibrationMode.DIRECT every feasible point has h_i = h_{i-1} within a control stage unless some switching indicator of the pair of elements vanishes.", "quantifier": "all configurations and feasible points", "why_tests_cant": "Universal over points.", "anchors": ["nosnoc/problem.py:FiniteElement.step_equilibration"]}
{"id": "C41", "title": "DIRECT_COMPLEMENTARITY and HEURISTIC_DELTA_H_COMP enforce equilibrated steps", "statement": "With these modes and sigma=0, h_i = h_{i-1} unless a switching indicator vanishes (resp. always), for each MPCC mode.", "quantifier": "all modes and feasible points", "why_tests_cant": "Universal over points and modes.", "anchors": ["nosnoc/problem.py:FiniteElement.step_equilibration", "nosnoc/problem.py:NosnocFormulationObject.create_complementarity"]}
{"id": "C42", "title": "L2 step equilibration adds a nonnegative penalty inactive at switches", "statement": "L2_RELAXED and L2_RELAXED_SCALED add rho_h*nu*(dh)^2 (resp. with tanh(nu/sigma)), where nu is the product of the switching indicators; at points with nonnegative multipliers the term is nonnegative and it vanishes when an indicator vanishes or dh=0.", "quantifier": "all configurations and points", "why_tests_cant": "Universal over points.", "anchors": ["nosnoc/problem.py:FiniteElement.step_equilibration"]}
{"id": "C43", "title": "Elastic modes: slack bounded and penalised", "statement": "In ELASTIC modes there is exactly one slack in [s_elastic_min,s_elastic_max], the objective is cost + s/sigma (direct scaling) or sigma*cost + s, so for sigma>0 both rank points identically; in other modes no slack exists.", "quantifier": "all configurations, points and sigma>0", "why_tests_cant": "Universal over points.", "anchors": ["nosnoc/problem.py:NosnocProblem.__init__"]}
{"id": "C44", "title": "LEAST_SQUARES keeps the problem equivalent or refuses it", "statement": "With ConstraintHandling.LEAST_SQUARES the objective is the original cost plus the sum of squared constraints, no constraints remain, and problems with inequality constraints are refused with an exception.", "quantifier": "all constraint lists and bounds", "why_tests_cant": "Universal over bounds.", "anchors": ["nosnoc/problem.py:NosnocProblem.__init__"]}
{"id": "C45", "title": "Elapsed-cost bookkeeping: the objective is the sum of its documented parts", "statement": "The EXACT, non-elastic objective is the sum of the element costs in all stages plus the terminal cost; nothing is counted twice or dropped.", "quantifier": "all configurations and points", "why_tests_cant": "Universal over shapes.", "anchors": ["nosnoc/problem.py:NosnocProblem.__init__"]}
{"id": "C46", "title": "Homotopy loop terminates and follows its schedule", "statement": "solve() performs at least one and at most max_iter_homotopy NLP solves (plus polishing), the k-th with sigma given by the update rule from sigma_0; it stops at the first solve with residual < comp_tol or sigma <= sigma_N, and only then or when the budget is used up.", "quantifier": "all NLP solver behaviours (oracles), options", "why_tests_cant": "Universal over the behaviours of the external NLP solver.", "anchors": ["nosnoc/solver.py:NosnocSolver.solve"]}
{"id": "C47", "title": "Homotopy parameters decrease and stay positive", "statement": "For 0<slope<1 the LINEAR rule gives sigma_k = slope^k*sigma_0, strictly decreasing and positive; the SUPERLINEAR rule never goes below sigma_N and is strictly decreasing while sigma > sigma_N; tau = min(sigma^1.5, sigma) is in (0,sigma].", "quantifier": "all iterations k and option values", "why_tests_cant": "Universal over k and reals.", "anchors": ["nosnoc/solver.py:NosnocSolverBase.homotopy_sigma_update", "nosnoc/solver.py:NosnocSolver.solve"]}
{"id": "C48", "title": "The default iteration budget reaches the tolerance", "statement": "With max_iter_homotopy=0 (automatic), LINEAR rule, 0<slope<1, 0<comp_tol<=sigma_0, the budget is at least 1 and the last scheduled sigma is at most comp_tol/sqrt(slope), and at least comp_tol*sqrt(slope).", "quantifier": "all real option values", "why_tests_cant": "Universal over reals.", "anchors": ["nosnoc/nosnoc_opts.py:NosnocOpts.preprocess", "nosnoc/solver.py:NosnocSolver.solve"]}
{"id": "C49", "title": "Results are those of the last NLP solve", "statement": "Without polishing, w_sol, status and cost_val come from the last NLP solve; w_all is the initial guess followed by every NLP solution in order; per-iteration statistics are filled for executed iterations and None for the rest.", "quantifier": "all oracles and options", "why_tests_cant": "Universal over oracle behaviours.", "anchors": ["nosnoc/solver.py:NosnocSolver.solve"]}
{"id": "C50", "title": "Reported cost is the objective value", "statement": "results[\"cost_val\"] is the objective value at results[\"w_sol\"].", "quantifier": "all oracles, including negative objectives and polishing", "why_tests_cant": "Universal over oracle behaviours.", "anchors": ["nosnoc/solver.py:NosnocSolver.solve", "nosnoc/solver.py:NosnocSolverBase.polish_solution"]}
{"id": "C51", "title": "Status SUCCESS means solved", "statement": "results[\"status\"] is SUCCESS iff the last NLP solve ended in an accepted IPOPT status, and SUCCESS implies the complementarity residual met comp_tol.", "quantifier": "all oracles", "why_tests_cant": "Universal over oracle behaviours.", "anchors": ["nosnoc/solver.py:NosnocSolver.solve", "nosnoc/utils.py:check_ipopt_success"]}
{"id": "C52", "title": "Warm starting along the homotopy", "statement": "The first NLP starts from the initialised guess (with fixed entries overwritten when fix_active_set_fe0), NLP k+1 starts from the solution of NLP k, and all NLPs in one solve() use the same bounds and the current parameters.", "quantifier": "all oracles and options", "why_tests_cant": "Universal over oracle behaviours.", "anchors": ["nosnoc/solver.py:NosnocSolver.solve"]}
{"id": "C53", "title": "solve() leaves the stored problem intact", "statement": "solve() never changes bounds, constraint bounds, parameters or x0; the stored guess changes only in the state entries (ALL_XCURRENT_*), not at all (EXTERNAL), or becomes the solution (ALL_XCURRENT_WOPT_PREV); hence with ALL_XCURRENT_W0_START or EXTERNAL repeated solves issue the same NLP sequence for a deterministic solver.", "quantifier": "all oracles, histories of set/solve calls", "why_tests_cant": "Universal over call histories.", "anchors": ["nosnoc/solver.py:NosnocSolver.solve", "nosnoc/solver.py:NosnocSolverBase.initialize"]}
{"id": "C54", "title": "Initialisation writes x0 into every state guess", "statement": "With ALL_XCURRENT_* strategies, after initialize() every state entry of the guess equals the current x0 and every other entry is unchanged; with EXTERNAL nothing changes, so values given by set() are the ones used.", "quantifier": "all shapes, guesses", "why_tests_cant": "Universal over shapes.", "anchors": ["nosnoc/solver.py:NosnocSolverBase.initialize", "nosnoc/solver.py:NosnocSolverBase.set"]}
{"id": "C55", "title": "set(\"x\"|\"u\"|\"theta\"|\"v_global\") writes exactly the addressed guesses", "statement": "After set(\"x\", V) with one row per control stage (or per element) every state guess of stage k (or element e) equals its row and no other guess entry changes; analogous for u, theta, v_global; wrong row counts are rejected without modification.", "quantifier": "all shapes and values", "why_tests_cant": "Universal over shapes.", "anchors": ["nosnoc/solver.py:NosnocSolverBase.set"]}
{"id": "C56", "title": "Active-set fixing on the first element", "statement": "With fix_active_set_fe0 in Stewart mode exactly the multipliers theta_i of the first element with lambda00_i > 10*comp_tol are fixed to 0 in the bounds of this solve; all other bounds and the stored bounds are unchanged; any point with exact complementarity that is feasible for the original problem satisfies the fixed bounds.", "quantifier": "all shapes, lambda00 values", "why_tests_cant": "Universal over values.", "anchors": ["nosnoc/solver.py:NosnocSolver.solve"]}
{"id": "C57", "title": "Polishing only fixes multipliers that are numerically at 0 or 1", "statement": "polish_solution fixes to 0 (1) exactly complementarity multipliers whose value is within 10*comp_tol of 0 (1) and never touches states, controls, steps, global or user algebraic variables; it works for every supported problem.", "quantifier": "all guesses and problems", "why_tests_cant": "Universal over values and shapes.", "anchors": ["nosnoc/solver.py:NosnocSolverBase.polish_solution"]}
{"id": "C58", "title": "Results are aligned in time", "statement": "x_traj, t_grid have one entry per element boundary (sum(Nfe_list)+1), x_traj[0]=x0 and x_traj[n] is the state at the end of the n-th element, t_grid[0]=0, t_grid[n] the sum of the first n steps; u_traj has N_stages entries and t_grid_u[k] is the start time of control stage k; theta_list/lambda_list/alpha_list have one entry per element, belonging to the last RK point of this element; x_out is the last entry of x_traj.", "quantifier": "all shapes and solution vectors", "why_tests_cant": "Universal over shapes.", "anchors": ["nosnoc/solver.py:get_results_from_primal_vector", "nosnoc/utils.py:get_cont_algebraic_indices"]}
{"id": "C59", "title": "Switch detection reports exactly the element boundaries with a mode change", "statement": "An element boundary is reported as a switch iff some multiplier changes by more than 0.1 between the two adjacent elements.", "quantifier": "all solution vectors", "why_tests_cant": "Universal over values and shapes.", "anchors": ["nosnoc/solver.py:get_results_from_primal_vector"]}
{"id": "C60", "title": "switch_times are points of t_grid", "statement": "Each reported switch time is the time (t_grid value) of the corresponding element boundary.", "quantifier": "all solution vectors, numbers of elements", "why_tests_cant": "Tests use two elements, where the discrepancy cannot show.", "anchors": ["nosnoc/solver.py:get_results_from_primal_vector", "nosnoc/helpers.py:NosnocSimLooper.run"]}
{"id": "C61", "title": "Results can be extracted for every model", "statement": "get_results_from_primal_vector returns for every supported model and solution vector.", "quantifier": "all models, including several systems with different numbers of regions", "why_tests_cant": "Universal over shapes.", "anchors": ["nosnoc/solver.py:get_results_from_primal_vector"]}
{"id": "C62", "title": "Simulation loop chains states and time", "statement": "After run(), X_sim starts with x0, has 1+sum of elements entries, step i+1 starts from the last state of step i (this is the x0 used in its NLP), time_steps is the concatenation of the step results, t_grid its running sum, and there is one status, cost and solution per step.", "quantifier": "all Nsim, all solver behaviours", "why_tests_cant": "Universal over numbers of steps and behaviours.", "anchors": ["nosnoc/helpers.py:NosnocSimLooper.run", "nosnoc/helpers.py:NosnocSimLooper.get_results"]}
{"id": "C63", "title": "stop_on_failure stops the loop", "statement": "run(stop_on_failure=True) stops after the first failing step and returns False; otherwise all Nsim steps run and it returns True.", "quantifier": "all solver behaviours, Nsim", "why_tests_cant": "Universal over behaviours; no test exercises failure.", "anchors": ["nosnoc/helpers.py:NosnocSimLooper.run"]}
{"id": "C64", "title": "The looper only accepts pure simulation problems", "statement": "NosnocSimLooper raises unless n_u=0, N_stages=1 and no ocp was given, and raises on p_values of the wrong shape; with p_values step i uses row i.", "quantifier": "all problems and shapes", "why_tests_cant": "Universal over configurations.", "anchors": ["nosnoc/helpers.py:NosnocSimLooper.__init__", "nosnoc/problem.py:NosnocProblem.is_sim_problem"]}
{"id": "C65", "title": "Simulated switch times are global times", "statement": "The switch times of step i are shifted by the total time of the previous steps.", "quantifier": "all histories", "why_tests_cant": "Universal over Nsim and results.", "anchors": ["nosnoc/helpers.py:NosnocSimLooper.run"]}
{"id": "C66", "title": "Option preprocessing is idempotent and fills defaults consistently", "statement": "preprocess() called again on the same options changes nothing; Nfe_list defaults to N_finite_elements per stage, max_iter_homotopy and the tableau are set, right_boundary_point_explicit holds iff the last node is 1 (Radau).", "quantifier": "all option values", "why_tests_cant": "Universal over option values.", "anchors": ["nosnoc/nosnoc_opts.py:NosnocOpts.preprocess"]}
{"id": "C67", "title": "IPOPT tolerance follows comp_tol of the same options object", "statement": "For any options object whose tol_ipopt the user has not set, the solver uses tol = 0.01*comp_tol of that object, whatever other option objects exist.", "quantifier": "all histories of creating and preprocessing option objects in one process", "why_tests_cant": "Universal over histories; each unit test sees one history.", "anchors": ["nosnoc/nosnoc_opts.py:NosnocOpts.tol_ipopt", "nosnoc/nosnoc_opts.py:NosnocOpts.preprocess"]}
{"id": "C68", "title": "Options can be changed and reused", "statement": "After changing N_stages or N_finite_elements on a used options object, the next construction uses the new discretisation.", "quantifier": "all histories of changes and constructions", "why_tests_cant": "Universal over histories.", "anchors": ["nosnoc/nosnoc_opts.py:NosnocOpts.preprocess"]}
{"id": "C69", "title": "Option type validation", "statement": "preprocess() raises TypeError iff some option value is not an instance of its annotated type (bool counts as int, int does not count as float, terminal_time accepts both).", "quantifier": "all assignments of Python values to options", "why_tests_cant": "Universal over assignments.", "anchors": ["nosnoc/utils.py:validate", "nosnoc/nosnoc_opts.py:NosnocOpts"]}
{"id": "C70", "title": "Model validation accepts exactly consistent models", "statement": "NosnocModel raises unless exactly one of F or (f_x and alpha) is given and, with F, exactly one of (c and S) or g_Stewart; preprocessing raises on dimension mismatches of z0/lbz/ubz, S/F, c/S, g_Stewart/F, c/alpha and parameter values, on non-switching systems and on Stewart mode with general inclusions.", "quantifier": "all combinations of given data and dimensions", "why_tests_cant": "Universal over dimensions.", "anchors": ["nosnoc/model.py:NosnocModel.__init__", "nosnoc/model.py:NosnocModel.preprocess_model"]}
{"id": "C71", "title": "A model object can be reused with other options", "statement": "A model whose p_time_var_val was left at its default can be used to construct solvers with different N_stages.", "quantifier": "all histories of constructions", "why_tests_cant": "Universal over histories.", "anchors": ["nosnoc/model.py:NosnocModel.preprocess_model"]}
{"id": "C72", "title": "OCP defaults and validation", "statement": "preprocess_ocp fills missing bounds with -inf/+inf (g_path: 0/0), guesses with 0, keeps given ones, is idempotent, and raises iff a given vector has the wrong length.", "quantifier": "all dimensions and given/omitted patterns", "why_tests_cant": "Universal over dimensions.", "anchors": ["nosnoc/ocp.py:NosnocOcp.preprocess_ocp"]}
{"id": "C73", "title": "Auto-model reformulation preserves the vector field", "statement": "For every expression built from smooth operators and sign/max/min, the reformulated right-hand side with each alpha equal to the step of its switching function evaluates to the original, wherever no switching function is zero (for max/min also where it is zero).", "quantifier": "all expressions and points", "why_tests_cant": "Universal over expression trees.", "anchors": ["nosnoc/auto_model.py:NosnocAutoModel._rebuild_nonlin"]}
{"id": "C74", "title": "Auto-model pairs one fresh alpha with each switching function", "statement": "The numbers of alpha variables and switching functions agree, names are distinct, each nonsmooth node outside other nonsmooth nodes contributes exactly one, and the rebuilt expression is smooth unless nonsmooth nodes are nested.", "quantifier": "all expressions", "why_tests_cant": "Universal over expression trees.", "anchors": ["nosnoc/auto_model.py:NosnocAutoModel._rebuild_nonlin", "nosnoc/auto_model.py:NosnocAutoModel._find_matching_expr_nonlin"]}
{"id": "C75", "title": "Additive decomposition is sound", "statement": "The components returned by _find_nonlinear_components sum to the expression; _check_smooth is true iff no sign/max/min occurs.", "quantifier": "all expressions and points", "why_tests_cant": "Universal over expression trees.", "anchors": ["nosnoc/auto_model.py:NosnocAutoModel._find_nonlinear_components", "nosnoc/auto_model.py:NosnocAutoModel._check_smooth"]}
{"id": "C76", "title": "reformulate() yields an equivalent model on every branch", "statement": "Whenever reformulate() returns a model, the Filippov/Step dynamics of that model agree with the original vector field off the switching surfaces.", "quantifier": "all expressions", "why_tests_cant": "Universal over expression trees; the linear branch is untested.", "anchors": ["nosnoc/auto_model.py:NosnocAutoModel.reformulate", "nosnoc/auto_model.py:NosnocAutoModel._reformulate_linear", "nosnoc/auto_model.py:NosnocAutoModel._rebuild_additive_component"]}
{"id": "C77", "title": "Auto models with several switching functions can be solved", "statement": "A model returned by reformulate() with any number of switching functions passes model preprocessing.", "quantifier": "all numbers of switching functions", "why_tests_cant": "Universal over counts; tests use one.", "anchors": ["nosnoc/auto_model.py:NosnocAutoModel.reformulate", "nosnoc/model.py:NosnocModel.preprocess_model"]}
{"id": "C78", "title": "Nested index-list utilities", "statement": "flatten returns the integers of a nested list in order; increment_indices keeps the nesting shape and adds inc to each integer; flatten commutes with increment_indices; flatten_layer removes one level.", "quantifier": "all nested lists", "why_tests_cant": "Universal over nested lists.", "anchors": ["nosnoc/utils.py:flatten", "nosnoc/utils.py:increment_indices", "nosnoc/utils.py:flatten_layer", "nosnoc/utils.py:flatten_outer_layers"]}
{"id": "C79", "title": "External guesses of the simulation loop reach the solver", "statement": "With NosnocSimLooper(..., w_init=ws), the first NLP call of step i starts at ws[i] for every i (EXTERNAL initialisation, fix_active_set_fe0 off); with any other initialisation strategy run() raises.", "quantifier": "all simulation problems, guesses, numbers of steps and solver behaviours", "why_tests_cant": "Universal over guesses, steps and answers of the NLP solver.", "anchors": ["nosnoc/helpers.py:NosnocSimLooper.run", "nosnoc/solver.py:NosnocSolver.set"]}
{"id": "C80", "title": "nlp_max_iter belongs to one options object", "statement": "A solver limits IPOPT to the nlp_max_iter of the options object it was created with (500 unless set on that object), whatever is set on other options objects; changing it later does not affect existing solvers.", "quantifier": "all histories of creating options objects, setting nlp_max_iter and creating solvers in one process", "why_tests_cant": "Universal over histories; each unit test sees one history.", "anchors": ["nosnoc/nosnoc_opts.py:NosnocOpts.nlp_max_iter", "nosnoc/nosnoc_opts.py:NosnocOpts.opts_casadi_nlp", "nosnoc/solver.py:NosnocSolver.__init__"]}
{"id": "C81", "title": "Solvers do not interfere", "statement": "Whatever is done with other solvers (creation, set, solve) does not change what the methods of an existing solver do; every created solver stays usable.", "quantifier": "all histories of operations in one process, all answers of the NLP solver", "why_tests_cant": "Universal over histories of several objects that hold references to each other.", "anchors": ["nosnoc/solver.py:NosnocSolverBase.__init__", "nosnoc/solver.py:NosnocSolverBase.set", "nosnoc/model.py:NosnocModel.preprocess_model"]}
{"id": "C82", "title": "reformulate() can be called repeatedly", "statement": "Calling reformulate() again on the same NosnocAutoModel returns a model equivalent to the first one, and leaves the model returned before unchanged and usable.", "quantifier": "all expressions and histories of calls", "why_tests_cant": "Universal over histories of calls on an object; tests call it once.", "anchors": ["nosnoc/auto_model.py:NosnocAutoModel.reformulate", "nosnoc/auto_model.py:NosnocAutoModel._reformulate_linear", "nosnoc/auto_model.py:NosnocAutoModel._reformulate_nonlin"]}
{"id": "C83", "title": "The NLP is the discretised problem, neither more nor less", "statement": "The points that satisfy all bounds and constraints of the generated NLP are exactly the points that satisfy the discretised optimal control problem as documented: the Runge-Kutta equations on every element, continuity, the (relaxed) complementarity conditions, the switching equations, the grid constraints, the path and terminal constraints and the bounds of the user. No constraint is missing and none is added. In BOOLEAN mode the statement holds after choosing the binary variables.", "quantifier": "all accepted models, ocps and options with explicit constraints, all values of the variables and parameters", "why_tests_cant": "Missing or spurious constraints show only for particular option combinations and points; the set of points is a continuum.", "anchors": ["nosnoc/problem.py:NosnocProblem", "nosnoc/problem.py:FiniteElement", "nosnoc/problem.py:NosnocFormulationObject"]}
{"id": "C84", "title": "The NLP is closed", "statement": "All constraints, the cost and the complementarity residual of the generated NLP depend only on its decision variables and parameters, so feasibility and objective are determined by the values of w and p.", "quantifier": "all accepted models, ocps and options, all values", "why_tests_cant": "A dangling symbol appears only for particular combinations of options.", "anchors": ["nosnoc/problem.py:NosnocProblem.__init__", "nosnoc/model.py:NosnocModel.preprocess_model"]}
{"id": "C85", "title": "One mode per finite element", "statement": "With FESD and exact complementarity every finite element stays in one mode: if at some stage one region is strictly preferred (smallest indicator / sign of the switching function), the multipliers select that region at all stages of the element, and the element follows the vector field of that region.", "quantifier": "all accepted models, exact feasible points, elements, stages", "why_tests_cant": "A statement about all exactly feasible points, a continuum that no solver run reaches exactly.", "anchors": ["nosnoc/problem.py:FiniteElement.create_complementarity_constraints", "nosnoc/problem.py:FiniteElement.forward_simulation"]}
{"id": "C86", "title": "Modes change only on the switching surface", "statement": "With FESD and exact complementarity a change of mode between two successive elements happens on the switching surface: at the common boundary the indicators of both regions coincide, the switching functions that distinguish them are zero.", "quantifier": "all accepted models, exact feasible points, successive elements", "why_tests_cant": "A statement about all exactly feasible points and all schemes.", "anchors": ["nosnoc/problem.py:FiniteElement.create_complementarity_constraints", "nosnoc/problem.py:FiniteElement.Lambda"]}
{"id": "C87", "title": "SUCCESS means the returned solution solves the discretised problem", "statement": "If the NLP solver only reports success for points that satisfy the bounds and constraints it was given, then every solve that reports SUCCESS returns a point that satisfies the discretised optimal control problem: the reported trajectories, controls, multipliers and steps obey the dynamics, path, terminal and complementarity constraints, with the relaxation parameter of the last homotopy iteration (0 after polishing) and with the initial state and parameters the user set. In a simulation this holds for every step, and each step starts where the previous one ended.", "quantifier": "all accepted models and options, all histories of API calls, all NLP solvers that do not lie about feasibility", "why_tests_cant": "A test sees one model, one solver and one history; the claim is about what the status guarantees for all of them.", "anchors": ["nosnoc/solver.py:NosnocSolver.solve", "nosnoc/solver.py:NosnocSolver.polish_solution", "nosnoc/helpers.py:NosnocSimLooper.run", "nosnoc/utils.py:check_ipopt_success"]}
{"id": "C88", "title": "print reports every inconsistent bound and every guess outside its bounds", "statement": "problem.print() returns for every problem and shows one line per decision variable with its guess and bounds and one line per constraint. A variable is flagged exactly if its bounds are inconsistent or its initial guess lies outside of them, and the error count at the end is the number of flagged variables; errors: 0 means the guess satisfies all bounds.", "quantifier": "all accepted models and options, all guesses the user can set", "why_tests_cant": "A test prints a few problems whose guess is fine; the claim is that no bad guess is missed.", "anchors": ["nosnoc/problem.py:NosnocProblem.print"]}
{"id": "C89", "title": "A dumped problem is the discretised problem at zero relaxation", "statement": "problem.dump(file) stores functions f and g, bounds, guess and parameter values p0 that together describe the discretised problem: w is feasible for the dump with p0 exactly if it solves the discretised optimal control problem with relaxation parameters 0 and the current initial state and parameters, and f(w, p0) is its objective.", "quantifier": "all accepted models and options, all API histories before the dump, all w", "why_tests_cant": "Equivalence of two feasible sets over all points.", "anchors": ["nosnoc/problem.py:NosnocProblem.dump", "nosnoc/model.py:NosnocModel.compute_lambda00"]}
{"id": "C90", "title": "RK4_SMOOTHENED starts from the trajectory of the smoothed system", "statement": "With initialization_strategy RK4_SMOOTHENED, solve() starts from a guess whose state at every stage point is the state of the smoothed system at the time of that stage point (classical RK4 from stage point to stage point, starting at x0), with multipliers evaluated at that state; all other guesses stay as the user set them.", "quantifier": "all accepted models, schemes, numbers of stages and elements, all API histories", "why_tests_cant": "Values of all guesses for all grids and models; a wrong time offset still gives a converging solver.", "anchors": ["nosnoc/solver.py:NosnocSolverBase.initialize", "nosnoc/rk_utils.py:rk4_on_timegrid", "nosnoc/model.py:NosnocModel.add_smooth_step_representation"]}
{"id": "C91", "title": "Initial multipliers belong to a consistent initial point", "statement": "When a model has algebraic variables z with equations g_z, the initial multipliers that solve() passes to the NLP are those of the discontinuous system at x0 and at a value of z that satisfies g_z there, whatever guess z0 the user supplied; so a problem whose initial value problem has a solution is not made infeasible by the guess.", "quantifier": "all accepted models with algebraic variables, all guesses z0, all x0 and parameters, all API histories, all NLP and root-finder behaviours", "why_tests_cant": "Depends on every combination of algebraic equations, guess and switching function; with a lucky guess, or without z in the switching functions, nothing is visible.", "anchors": ["nosnoc/model.py:NosnocModel.compute_lambda00", "nosnoc/model.py:NosnocModel.preprocess_model", "nosnoc/nosnoc_opts.py:rootfinder_for_initial_z"]}
{"id": "C92", "title": "For piecewise constant systems FESD is exact", "statement": "If the vector fields do not depend on the state (they may depend on controls and parameters) and the switching functions are affine in the state, then every feasible point of the FESD discretisation with exact complementarity is an exact solution of the discontinuous system, not an approximation: there is a continuous trajectory through the initial state and through the end state of every finite element at the time given by the step lengths, whose derivative inside every element belongs to the Filippov set of the user's system (times the speed of time).", "quantifier": "all piecewise constant models with full sign matrices, all controls and parameters, grids, numbers of stages and elements, schemes and representations, both discontinuity representations, all feasible points", "why_tests_cant": "An inclusion for every time in every element of every feasible point; a test compares a few end states with a tolerance.", "anchors": ["nosnoc/problem.py:FiniteElement.create_complementarity_constraints", "nosnoc/problem.py:FiniteElement.forward_simulation", "nosnoc/rk_utils.py:generate_butcher_tableu"]}
{"id": "C93", "title": "FESD loses no solution of a piecewise constant system", "statement": "Conversely, every polygonal Filippov solution of a piecewise constant system (crossing or sliding, with one straight segment per finite element) whose segment lengths fit the step boxes and stage lengths, and which respects bounds, path and terminal constraints, is a feasible point of the generated problem with exact complementarity, with these controls, parameters, steps and states and with the initial multipliers that solve() computes.", "quantifier": "all piecewise constant models in Stewart mode with full sign matrices, all such trajectories, grids, Radau schemes and representations", "why_tests_cant": "Existence of a feasible point for every trajectory; a missing solution only shows as a solver failure.", "anchors": ["nosnoc/problem.py:FiniteElement", "nosnoc/problem.py:NosnocProblem.__init__", "nosnoc/model.py:NosnocModel.compute_lambda00"]}
{"id": "C94", "title": "Switching functions may depend on time-varying parameters", "statement": "If a time-varying parameter enters a switching function and its jump at the beginning of a control stage changes the mode of the system, FESD still has the corresponding trajectory: switching on FESD does not make a solvable discretised problem infeasible.", "quantifier": "all models with time-varying parameters in switching functions, all parameter values, all grids", "why_tests_cant": "Depends on parameter values of neighbouring control stages; with constant parameters nothing is visible.", "anchors": ["nosnoc/problem.py:FiniteElement.create_complementarity_constraints", "nosnoc/problem.py:FiniteElement.get_Lambdas_incl_last_prev_fe", "nosnoc/model.py:NosnocModel.preprocess_model"]}
{"id": "C95", "title": "The two representations of the discontinuity describe the same trajectories", "statement": "Changing pss_mode does not change which trajectories are solutions: if a model is accepted in both modes, a feasible point with exact complementarity of the problem in Step mode and one of the problem in Stewart mode exist for the same initial state, controls, parameters, step lengths and states. Every Step solution is a Stewart solution whose convex coefficients are the products of the step functions, with the initial multipliers that solve() computes corresponding to each other. The converse holds when the convex coefficients are such products, in particular always with one switching function per subsystem; where switching surfaces intersect, Stewart mode has solutions that Step mode does not have.", "quantifier": "all models with sign matrices without zeros that cover the space, all initial states, controls, parameters, grids, schemes and representations, with and without FESD, all feasible points", "why_tests_cant": "Existence of a point of another optimisation problem for every feasible point; solving both problems numerically compares two of many solutions.", "anchors": ["nosnoc/model.py:NosnocModel.preprocess_model", "nosnoc/nosnoc_types.py:PssMode", "nosnoc/problem.py:FiniteElement.create_complementarity_constraints"]}
{"id": "C96", "title": "The relaxed problems of the homotopy contain the exact solutions", "statement": "Every solution of the problem with exact complementarity is a feasible point of every problem that the homotopy solves on the way, and each iteration's problem contains that of the next: a point feasible for some homotopy parameter stays feasible for every larger one. The optimal values of the iterations therefore never exceed the optimal value of the exact problem and do not decrease as the parameter shrinks. This holds in the modes that bound the products from above; the modes that fix the products at the parameter (SCHOLTES_EQ, FISCHER_BURMEISTER) have disjoint feasible sets for different parameters and lose every exact solution.", "quantifier": "all models, options, grids, cross complementarity modes, parameter values sigma <= sigma', all points", "why_tests_cant": "Inclusion of feasible sets and order of optimal values of all problems of a homotopy; a run solves a few of them locally.", "anchors": ["nosnoc/solver.py:NosnocSolver.solve", "nosnoc/problem.py:NosnocProblem.create_complementarity", "nosnoc/nosnoc_opts.py:NosnocOpts.mpcc_mode", "nosnoc/nosnoc_types.py:MpccMode"]}
{"id": "C97", "title": "The complementarity residual bounds the error of the selected dynamics", "statement": "In the modes that keep the multipliers nonnegative, at every feasible point of a relaxed problem of the homotopy: the reported complementarity residual is at most the relaxation of the mode (sigma for the Scholtes modes, the elastic slack for the elastic modes, sigma^2/2 for Fischer-Burmeister). If the residual is at most eps and the state at a stage, or with FESD at the beginning of the element, lies in a region with all switching functions that define the region at least delta away from zero, then the coefficient of this region is at least 1 - C eps/delta at that stage (with FESD: at all stages of the element), the velocity differs from the vector field of the region by at most C eps/delta times the largest difference of vector fields, and for piecewise constant systems the state at the end of the element differs from the exact motion by at most the step length times that. C is half the number of other regions in Stewart mode and the number of switching functions of the region in Step mode.", "quantifier": "all models with sign matrices that cover the space, all feasible points with nonnegative initial multipliers, all eps, all delta > 0, all regions, stages and elements, both pss modes, with and without FESD, both cross complementarity modes", "why_tests_cant": "A quantitative bound that must hold at every feasible point and for every distance from the switching surface.", "anchors": ["nosnoc/problem.py:FiniteElement.create_complementarity_constraints", "nosnoc/problem.py:FiniteElement.get_complementarity_vector", "nosnoc/problem.py:NosnocProblem.comp_res", "nosnoc/solver.py:NosnocSolver.solve"]}
{"id": "C98", "title": "Simulations with one switching function are never infeasible", "statement": "For a piecewise constant system with one switching function, simulated with FESD, a scheme whose last stage is the end point, gamma_h = 1 and at least two finite elements per control stage, and without state bounds, path or terminal constraints: from every initial state, for all controls and global variables within their bounds and all parameter values (the switching function depending on the same parameters in all stages) the generated problem has a solution with exact complementarity, in Stewart and in Step mode; in the modes that bound products from above so has every problem of the homotopy. With one element per stage this is false.", "quantifier": "all models of this class, all initial states, controls, parameters, numbers of stages, element counts >= 2, schemes and representations", "why_tests_cant": "Existence of a feasible point for every initial state and control.", "anchors": ["nosnoc/problem.py:NosnocProblem.__init__", "nosnoc/problem.py:FiniteElement", "nosnoc/nosnoc_opts.py:NosnocOpts.gamma_h", "nosnoc/helpers.py:NosnocSimLooper"]}
{"id": "C99", "title": "Successful simulations of piecewise constant systems are exact solutions over the whole horizon", "statement": "Simulate a piecewise constant system with FESD and polishing, with an NLP solver whose accepted points satisfy its constraints exactly. If every step reports SUCCESS, there is one continuous Filippov solution of the original system over the whole simulation, through all steps and with the parameters of each step, whose samples at the reported time grid are the reported states.", "quantifier": "all piecewise constant models (any number of regions and switching systems in Stewart mode), initial states, parameter sequences, numbers of steps, schemes, representations and element counts", "why_tests_cant": "Ranges over all models, all solver outputs and all numbers of steps.", "anchors": ["nosnoc/helpers.py:NosnocSimLooper.run", "nosnoc/solver.py:NosnocSolver.solve", "nosnoc/solver.py:NosnocSolver.polish_solution", "nosnoc/problem.py:NosnocProblem.__init__"]}
{"id": "C100", "title": "A complete NLP solver makes solve succeed on feasible problems", "statement": "If the NLP solver returns an accepted status whenever the NLP it is given has a feasible point, and the problem with the values currently set has a feasible point for every homotopy parameter of the schedule, then solve reports SUCCESS. In particular every step of every simulation of a piecewise constant system with one switching function (two or more elements per step, product relaxation) succeeds, from every initial state.", "quantifier": "all problems, reachable solver states, complete oracles; all simulations of the class of C98", "why_tests_cant": "Ranges over all solver states and all NLP solvers with the stated contract.", "anchors": ["nosnoc/solver.py:NosnocSolver.solve", "nosnoc/solver.py:NosnocSolverBase.initialize", "nosnoc/helpers.py:NosnocSimLooper.run"]}
{"id": "C101", "title": "Polishing keeps success", "statement": "Switching polishing on does not turn a solve that succeeds into one that fails. This is false: multipliers of inactive constraints smaller than ten times comp_tol are fixed to zero, although their exact values may be that small, and the last NLP is then infeasible. It holds when the last homotopy solution is exact and its multipliers are zero, one or well away from both.", "quantifier": "all problems, reachable solver states and complete NLP solvers", "why_tests_cant": "Ranges over all models and all NLP solvers with the stated contract; the failure needs a model close to a switch.", "anchors": ["nosnoc/solver.py:NosnocSolver.polish_solution", "nosnoc/solver.py:NosnocSolver.solve", "nosnoc/solver.py:get_results_from_primal_vector"]}
{"id": "C102", "title": "The order of the regions does not matter", "statement": "Listing the regions of any subsystem in another order (columns of F, rows of S, entries of g_Stewart permuted together) yields a model that is accepted iff the original is, and the same problem up to the numbering of the convex coefficients and multipliers: points correspond one to one, with the same feasibility, the same objective and the corresponding initial multipliers. This holds in every representation and MPCC mode, at every relaxation parameter.", "quantifier": "all models, options with exact constraint handling, renumberings of the regions of every subsystem, and points", "why_tests_cant": "Ranges over all models, permutations and points.", "anchors": ["nosnoc/model.py:NosnocModel.preprocess_model", "nosnoc/problem.py:NosnocProblem"]}
{"id": "C103", "title": "Only the regions matter, not the functions that describe them", "statement": "Exact solutions (feasible with relaxation parameter zero, initial multipliers as computed by the solver) depend on the regions only: two models with the same vector fields, whose switching functions (or indicator functions) describe the same regions, have the same exact trajectories with the same convex coefficients, and the same objective unless step equilibration penalises with the multipliers. In particular, multiplying switching functions by positive factors, constant or state-dependent, is accepted iff the original is and changes no exact trajectory. For FESD the last point of an element must be a collocation point; direct step equilibration is excluded.", "quantifier": "all pairs of models with the same regions, all positive factors, options with exact constraint handling, and exact solutions", "why_tests_cant": "Ranges over all models, factors and solutions.", "anchors": ["nosnoc/model.py:NosnocModel.preprocess_model", "nosnoc/problem.py:FiniteElement", "nosnoc/problem.py:NosnocProblem"]}
{"id": "C104", "title": "plot_timings shows the CPU times", "statement": "plot_timings of an array (steps x homotopy iterations) draws one bar per entry, as high as the entry, standing on the bars of the earlier iterations of the same step, and a line at the mean total per step. For the cpu_nlp entry of simulation results the bars of a step are the CPU times of its NLP solves (0 for iterations not executed) and reach their total.", "quantifier": "all arrays; all simulations that return, for every NLP solver", "why_tests_cant": "Ranges over all arrays and simulations; figures are not inspected by tests.", "anchors": ["nosnoc/plot_utils.py:plot_timings", "nosnoc/helpers.py:NosnocSimLooper.get_results"]}
{"id": "C105", "title": "plot_iterates draws the iterates", "statement": "For a Stewart problem and iterates of the right length (e.g. the entry w_all of the results), plot_iterates draws the multipliers, convex coefficients and states of every iterate.", "quantifier": "all problems and lists of iterates", "why_tests_cant": "The failure concerns every problem and every nonempty list of iterates.", "anchors": ["nosnoc/plot_utils.py:plot_iterates", "nosnoc/solver.py:get_results_from_primal_vector"]}
{"id": "C106", "title": "3D plots show all points", "statement": "plot_colored_line_3d joins every point to the next by one segment coloured by the normalised time of its first point (between 0 and 1), and marks all points; scatter_3d draws every point and numbers them from 1 if asked to.", "quantifier": "all lists of points and times", "why_tests_cant": "Ranges over all data; figures are not inspected by tests.", "anchors": ["nosnoc/plot_utils.py:plot_colored_line_3d", "nosnoc/plot_utils.py:_plot_color_hack_3d", "nosnoc/plot_utils.py:scatter_3d"]}
{"id": "C107", "title": "The vector field function evaluates the Filippov right-hand side", "statement": "For a Stewart problem, the function returned by create_function_calculate_vector_field(sigma, p, v) can be called with a state and a control and returns the (smoothed) right-hand side; inside a region, with sigma = 0, the convex coefficient of this region is 1.", "quantifier": "all accepted Stewart models, states, controls, parameters, smoothing parameters and root finder behaviours", "why_tests_cant": "The failure concerns every model and argument; the wrong coefficients concern every point.", "anchors": ["nosnoc/solver.py:NosnocSolverBase.create_function_calculate_vector_field"]}
{"id": "C108", "title": "SUCCESS bounds the error of the reported trajectory", "statement": "If the NLP solver only accepts points that satisfy their constraints, and solve() (or a step of a simulation) reports SUCCESS, then the reported trajectory of a piecewise constant system follows the regions it lies in up to a known tolerance eps: over every finite element whose reported start (or end) state lies in a region with distance at least delta to the others, the reported state moves by the reported step length times the vector field of this region, with an error of at most step length * constant * eps/delta. eps is at most the last homotopy parameter, and it is below comp_tol, or the schedule reached sigma_N, or the budget was used up. With the automatic budget and the LINEAR update, eps is at most max(comp_tol/sqrt(slope), sigma_N), always.", "quantifier": "all piecewise constant models, options with FESD in the Scholtes and Fischer-Burmeister modes, all reachable solver objects, initial states, parameters, exact NLP solvers, numbers of homotopy iterations, elements, regions and distances delta", "why_tests_cant": "A test compares one trajectory with one reference solution; the bound relates the options to the error for every model, initial state and NLP solver, and the constant does not depend on the run.", "anchors": ["nosnoc/solver.py: NosnocSolver.solve", "nosnoc/nosnoc_opts.py: NosnocOpts.preprocess (max_iter_homotopy)", "nosnoc/problem.py: NosnocProblem (comp_res)", "nosnoc/helpers.py: NosnocSimLooper.run"]}
{"id": "C109", "title": "Clock states show the reported time, and integrals of polynomials of the time are exact", "statement": "If component c of the right-hand side is 1 in all regions (a clock state), then after every SUCCESS with an exact NLP solver the reported state component c at reported time t is x0[c] + t: exactly with the INTEGRAL representation, up to the relative rounding error 1e-11 of the stored Butcher tables with the other representations. With INTEGRAL and n_s stages, a state whose derivative in all regions is a polynomial of degree less than n_s of the clock is, at every reported time, exactly its initial value plus the integral of the polynomial up to this time. This holds in all modes of the discontinuity model, with or without FESD, whatever the step lengths and the convex coefficients are.", "quantifier": "all models with such rows (switched rows and constraints arbitrary), all options except BOOLEAN and local speed of time, both discontinuity models, all reachable solver objects, exact NLP solvers, initial states, polynomials, numbers of stages and elements", "why_tests_cant": "A test sees one trajectory computed to finite accuracy; that the clock agrees with the reported grid for every step pattern the solver may choose is a statement about all feasible points.", "anchors": ["nosnoc/problem.py: FiniteElement.forward_simulation", "nosnoc/rk_utils.py: generate_butcher_tableu_integral, generate_butcher_tableu", "nosnoc/solver.py: get_results_from_primal_vector", "nosnoc/model.py: NosnocModel.preprocess_model"]}
{"id": "C110", "title": "Trajectories of smooth systems converge with the order of the number of stages", "statement": "For a system whose right-hand side is the same in all regions and Lipschitz continuous in the state, there are a step length H0 and a constant C, depending only on the scheme, n_s, the representation, the Lipschitz constant, a bound on the derivatives of the solution and a time T, such that: whenever solve() reports SUCCESS with an exact NLP solver and all reported steps are at most H <= H0, every reported state at a time t <= T differs from the solution of the differential equation (with the reported controls and the set parameters) by at most C (initial difference + H^n_s + table rounding). Table rounding is 0 for INTEGRAL and 1e-11 otherwise. In terms of the options, with q elements in every control stage, H may be taken as (1+gamma_h) T/(N q) with FESD and T/(N q) without, so refining the grid makes the reported trajectory converge.", "quantifier": "all models with unswitched Lipschitz right-hand side without algebraic variables, all grids (numbers of control stages and of elements), with and without FESD, all schemes, numbers of stages and representations the code offers, both discontinuity models, all reachable solver objects, parameters, initial states and exact NLP solvers", "why_tests_cant": "Convergence is a statement about all step lengths at once with one constant; tests measure an order on a few grids for one system.", "anchors": ["nosnoc/problem.py: FiniteElement.forward_simulation, FiniteElement.step_equilibration", "nosnoc/rk_utils.py: generate_butcher_tableu, generate_butcher_tableu_integral", "nosnoc/solver.py: get_results_from_primal_vector", "nosnoc/nosnoc_opts.py: NosnocOpts.preprocess"]}
{"id": "C111", "title": "Trajectories that pass through regions one after the other converge with the order of the number of stages", "statement": "For a switched system with FESD there are a step length H0 and a constant C, depending only on the scheme, n_s, the representation, a Lipschitz constant of the vector fields, a bound on derivatives and a time T, such that: whenever solve() reports SUCCESS with an exact NLP solver, the reported steps are at most H <= H0, and each of the first N reported elements begins (or, when the scheme has its right boundary as last stage, ends) at a reported state that lies in some region with distance delta to the others, then each of the first N reported states differs from the solution that follows these regions over the same elements by at most C (initial difference + H^n_s + kappa (eps/delta) M + table rounding), where eps is the reported complementarity tolerance (zero with polishing; with the LINEAR update and automatic budget at most max(comp_tol/sqrt(slope), sigma_N)), M bounds the difference of two vector fields and kappa counts the regions. In particular the stage order is not lost by switches, which fall on element boundaries.", "quantifier": "all models with Lipschitz vector fields without algebraic variables, all grids, all sequences of regions, all schemes, numbers of stages and representations the code offers, both discontinuity models (Step with one subsystem), Scholtes and Fischer-Burmeister modes, all reachable solver objects, parameters, initial states and exact NLP solvers", "why_tests_cant": "One constant has to serve for all grids, region sequences and tolerances at once; tests measure an order on a few grids for one system.", "anchors": ["nosnoc/problem.py: FiniteElement.forward_simulation, FiniteElement.create_complementarity_constraints, FiniteElement.step_equilibration", "nosnoc/rk_utils.py: generate_butcher_tableu, generate_butcher_tableu_integral", "nosnoc/solver.py: NosnocSolver.solve, get_results_from_primal_vector", "nosnoc/nosnoc_opts.py: NosnocOpts.preprocess"]}
{"id": "C112", "title": "The residual function of a preprocessed model certifies complementarity of a stage", "statement": "For a preprocessed model, std_compl_res_fun(z, p) evaluated at the algebraic variables of a stage is the sum over the subsystems of |lambda' theta| (Stewart) or lambda_n' alpha + lambda_p' (1 - alpha) (Step). At every point within the bounds of the NLP it is nonnegative, it bounds each single complementarity product of the stage, and it is zero exactly if all of them are zero. In Step mode with user-given alpha, its entries have the sizes of the switching functions.", "quantifier": "all models, options with sign-constrained multipliers, control stages, elements, stages, parameter values and points within the bounds", "why_tests_cant": "A test evaluates the function at a few points; that a zero certifies complementarity, for any number of subsystems and regions, is a statement about all points.", "anchors": ["nosnoc/model.py: NosnocModel.preprocess_model (std_compl_res_fun)", "nosnoc/problem.py: FiniteElement"]}
{"id": "C113", "title": "The initial multipliers and the initial mu satisfy the switching equations", "statement": "In Stewart mode lambda00_fun and mu00_stewart_fun of the preprocessed model return, for the initial state, values with g = lambda - mu for every region of every subsystem (the switching equations imposed at every stage). Violated: mu00_stewart_fun returns min g, while the switching equations need mu = -min g.", "quantifier": "all models in Stewart mode, states, algebraic values and parameters", "why_tests_cant": "The equation has to hold for all models and states; the library never evaluates mu00_stewart_fun, so no test sees it.", "anchors": ["nosnoc/model.py: NosnocModel.preprocess_model (mu00_stewart_fun, lambda00_fun, g_switching)"]}
{"id": "C114", "title": "set() calls for different fields commute, and the last call for a field wins", "statement": "For every reachable solver object: set(f, v) and set(g, w) for different fields (neither being the whole guess 'w') give the same object in either order, and whether each is accepted, and with which exception it is rejected, does not depend on the other. A set(f, v) that is carried out makes all earlier calls for f void, including calls that failed half-way. set('w', v) makes all earlier calls for x, u, v_global and theta void. Hence after any two sequences of accepted calls that give every field the same last value the solver objects are the same.", "quantifier": "all models, options and solver objects reachable by set() and solve(), all fields, all array values of any shape, all sequences of calls of any length", "why_tests_cant": "It quantifies over all call histories and array shapes; tests try one order.", "anchors": ["nosnoc/solver.py: NosnocSolverBase.set", "nosnoc/problem.py: NosnocProblem index lists"]}
{"id": "C115", "title": "Earlier solves do not influence later ones unless the strategy says so", "statement": "With initialization_strategy EXTERNAL or ALL_XCURRENT_W0_START and an NLP solver whose answer depends on the call only, the result of solve() after any history of set(), solve() and solve() with root finder, including failing ones, is the result of solve() after the set() calls of that history alone. With C114: it is decided by the last accepted value of every field.", "quantifier": "all models, options with these strategies, reachable solver objects, histories of any length, NLP solvers without memory", "why_tests_cant": "It is a statement about all histories; a test compares two.", "anchors": ["nosnoc/solver.py: NosnocSolver.solve, NosnocSolverBase.initialize, NosnocSolverBase.set"]}
{"id": "C116", "title": "Simulations converge over the whole simulated time", "statement": "Fix a scheme, a number of stages n and a representation, a Lipschitz constant and a bound on derivatives. There are a step length H0 and a constant C such that every simulation (any number of steps, any step length, any number of finite elements, with parameters that change between steps) whose steps are all reported as SUCCESS by an NLP solver whose accepted points satisfy their constraints, and whose longest possible finite element D is at most H0, returns states X_sim that differ from the solution of the differential equation at the times t_grid by at most C * D^n up to the given time; the constant does not grow with the number of steps. With FESD the same holds for trajectories of switched systems that pass through regions one after the other, with an additional error proportional to the complementarity tolerance over the distance to the switching surfaces (zero with polishing).", "quantifier": "all smooth or switched models with these bounds, all options, initial states, numbers of steps, elements and step lengths, parameter rows", "why_tests_cant": "It is an asymptotic statement over all systems and grids; a test observes the order on one.", "anchors": ["nosnoc/helpers.py: NosnocSimLooper", "nosnoc/solver.py: NosnocSolver.solve", "nosnoc/problem.py: FiniteElement.forward_simulation", "nosnoc/rk_utils.py: generate_butcher_tableu, generate_butcher_tableu_integral"]}
{"id": "C117", "title": "The shipped simplest examples return their analytic solutions", "statement": "solve_simplest_example on a scalar model with slope a below and b above zero, with FESD and polishing, an equidistant grid and an NLP solver whose accepted points satisfy their constraints: if all steps are reported as SUCCESS, t_grid runs from 0 to Tsim, and X_sim is the analytic solution at the times in t_grid. For a, b > 0 (switch) that is x0 + a t up to the switching time -x0/a and then b (t - switching time); for b < 0 < a (sliding) it reaches zero and stays there; the switching time is one of the grid points whenever it is at most Tsim. For a < 0 < b from zero (spontaneous switch, many solutions) the result stays at zero up to some grid point and then leaves with one of the two slopes.", "quantifier": "all slopes, initial states, simulation times, numbers of steps and of finite elements, schemes, numbers of stages, both DCS representations, all exact NLP solvers", "why_tests_cant": "The tests compare the returned states for a few parameter values, up to a tolerance, for what IPOPT happened to find; here every accepted solution for every slope, time and grid size is the analytic one.", "anchors": ["examples/simplest/simplest_example.py: get_simplest_model_sliding, get_simplest_model_switch, solve_simplest_example", "examples/simplest/different_switch_cases.py", "test/simple_sim_test.py", "nosnoc/helpers.py: NosnocSimLooper"]}
{"id": "C118", "title": "The shipped simplest examples without polishing are accurate up to the tolerance", "statement": "solve_simplest_example on a scalar model with slope a below and b above zero, with FESD and without polishing (as shipped), a Scholtes mode, the automatic number of homotopy iterations, a scheme whose last point is the end of the element, an equidistant grid and an NLP solver whose accepted points satisfy their constraints: if all steps are reported as SUCCESS, t_grid runs from 0 to Tsim, and the n-th state in X_sim differs from the analytic solution at the n-th time in t_grid by at most n times 4 |a-b| max(a,b) / min(a,b)^2 * tol for a, b > 0 (switch) and n + 1 times 2 |a-b| / min(a,-b) * tol for b < 0 < a (sliding), where tol is the larger of comp_tol / sqrt(slope) and sigma_N. The bound does not depend on the step length or on how close the grid points get to the surface.", "quantifier": "all slopes, initial states, simulation times, numbers of steps and of finite elements, schemes with this property, numbers of stages, both DCS representations, all exact NLP solvers", "why_tests_cant": "The tests compare the returned states for a few parameter values for what IPOPT happened to find; the bound holds for every accepted solution of the relaxed problems, for every slope, time and grid size.", "anchors": ["examples/simplest/simplest_example.py: get_simplest_model_sliding, get_simplest_model_switch, solve_simplest_example, get_default_options", "test/simple_sim_test.py", "nosnoc/helpers.py: NosnocSimLooper", "nosnoc/solver.py: NosnocSolver.solve", "nosnoc/problem.py: cross complementarities"]}
{"id": "C119", "title": "A simulation can be interrupted and continued", "statement": "A NosnocSimLooper of N1 + N2 steps whose run returns gives the same as two loopers: one of N1 steps with the first N1 rows of p_values and w_init, and one of N2 steps with the remaining rows, started on the same solver object at the last state of X_sim of the first. Both run calls return; every entry of the result dictionary of the long simulation is that of the first part followed by that of the second (X_sim without repeating the shared state, t_grid and switch_times of the second shifted by the duration of the first); the solver object, including its guess and the NLP calls it has made, ends up the same. Conversely, if both parts return, the long simulation returns with this dictionary.", "quantifier": "all simulation problems, options, solver objects with any history of calls, numbers of steps N1 and N2 including 0, p_values, w_init, initial states, NLP solvers, stop_on_failure on or off", "why_tests_cant": "A test can only compare some splits for some problems with one NLP solver; that the looper keeps no state between steps other than the solver object and the current state must hold for every history and every split.", "anchors": ["nosnoc/helpers.py: NosnocSimLooper.__init__, run, get_results", "nosnoc/solver.py: NosnocSolver.set, solve"]}
{"id": "C120", "title": "A simulation that raises keeps the results of the completed steps", "statement": "If run raises an exception (from set, from solve or because w_init has too few entries), a number k < Nsim of steps were completed, and get_results gives the dictionary of a simulation of exactly these k steps; only cpu_nlp has Nsim rows, those of the steps not completed being zero. With k < Nsim valid guesses in w_init and EXTERNAL initialisation, run makes k steps and raises IndexError.", "quantifier": "all simulation problems, options, solver objects with any history of calls, numbers of steps, p_values, w_init, initial states, NLP solvers, points of failure", "why_tests_cant": "The exception may come at any step and from any call inside it; a test fixes one.", "anchors": ["nosnoc/helpers.py: NosnocSimLooper.run, get_results"]}
{"id": "C121", "title": "Conserved quantities are conserved", "statement": "If a linear function of the state is conserved by every vector field of the model (in every region, or for every alpha if f_x is given), then every result reported as SUCCESS, with any homotopy parameter left at the end, has the same value of the function at all states of x_traj as at x0, and a simulation all of whose steps are SUCCESS at all states of X_sim. This holds for all Runge-Kutta tables, representations, MPCC and FESD modes. With INTEGRAL and Gauss-Legendre points it also holds for quadratic functions; with DIFFERENTIAL and DIFFERENTIAL_LIFT_X quadratic functions change in every element by no more than 1e-11 times the square of the step length times the sizes of the stage slopes (rounding of the tables).", "quantifier": "all models with a conserved linear or quadratic function (any number of subsystems), options (other than the BOOLEAN mode), solver objects with any history, NLP solvers whose accepted points satisfy their constraints exactly, numbers of simulation steps", "why_tests_cant": "A test sees the drift on one trajectory of one model with one solver's rounding; conservation is a statement about every model with a conserved quantity and every point the NLP solver may accept.", "anchors": ["nosnoc/problem.py: FiniteElement.forward_simulation, FiniteElement.w", "nosnoc/rk_utils.py: generate_butcher_tableu, generate_butcher_tableu_integral", "nosnoc/helpers.py: NosnocSimLooper.run", "nosnoc/solver.py: NosnocSolver.solve"]}
{"id": "C122", "title": "Quantities that no vector field increases do not increase", "statement": "If a linear function of the state does not increase under any of the vector fields of the model, then it does not increase from any state of x_traj of a SUCCESS to a later one, nor along X_sim of a simulation whose steps are all SUCCESS, even if the homotopy ends with a positive parameter and the complementarities hold only approximately. With one stage at the end of the element (implicit Euler) the same holds for every convex function.", "quantifier": "all models given by F with such a function, options with sign-constrained multipliers and nonnegative weights (all shipped tables), gamma_h at most 1, without speed of time per stage; solver objects with any history, NLP solvers whose accepted points satisfy their constraints exactly, numbers of steps", "why_tests_cant": "Every feasible point of the relaxed problem is meant, also those with several regions active in the interior of one region; a solver run shows one.", "anchors": ["nosnoc/problem.py: FiniteElement.forward_simulation, FiniteElement.create_complementarity_constraints", "nosnoc/helpers.py: NosnocSimLooper.run", "nosnoc/solver.py: NosnocSolver.solve"]}
{"id": "C123", "title": "Convex Lyapunov functions of the switched system decrease", "statement": "With polishing, a convex function of the state that does not increase along any velocity of the Filippov set of the model (a vector field outside its own region does not count) does not increase along x_traj of any SUCCESS, nor along X_sim of a simulation whose steps are all SUCCESS: with implicit Euler for all models, and with any shipped table for piecewise constant models.", "quantifier": "all models given by F with a convex Lyapunov function, FESD with cross complementarities in Stewart's or (sign matrices) the step representation, polishing, initial states, solver objects with any history, NLP solvers whose accepted points satisfy their constraints exactly, numbers of steps", "why_tests_cant": "Stability of the numerical solution is a statement about all models with a Lyapunov function and all initial states.", "anchors": ["nosnoc/solver.py: NosnocSolver.solve, NosnocSolver.polish_solution", "nosnoc/problem.py: FiniteElement.create_complementarity_constraints, FiniteElement.step_equilibration", "nosnoc/helpers.py: NosnocSimLooper.run"]}
{"id": "C124", "title": "run can be called again on the same looper", "statement": "Calling run again on a NosnocSimLooper, after a run that returned or raised and after any use of the solver object in between, simulates Nsim further steps: it does what a new looper with the same p_values and w_init does that is created on the same solver object at the last state of X_sim. It raises exactly if that one raises; otherwise every entry of get_results is the previous entry followed by that of the new looper, with its times shifted by the previous duration.", "quantifier": "all simulation problems, options, solver objects with any history, numbers of steps, p_values, w_init, NLP solvers, any number of earlier run calls with any outcome", "why_tests_cant": "The number and outcome of the earlier run calls and what was done with the solver object in between are unbounded.", "anchors": ["nosnoc/helpers.py: NosnocSimLooper.run, get_results"]}
{"id": "C125", "title": "An ocp object can be used again", "statement": "Whatever operations have happened in the process, creating a solver from a NosnocOcp object that was used before does the same as with a new NosnocOcp with the same arguments; a successful construction stores the completed bounds and guesses in the object and changes nothing else of it.", "quantifier": "all histories of operations (objects created, options changed, solvers created, set, solved, with any exceptions), all options, models and ocp objects", "why_tests_cant": "The object is mutable and shared, so the answer depends on the whole history of the process, which is unbounded.", "anchors": ["nosnoc/ocp.py: NosnocOcp.preprocess_ocp", "nosnoc/problem.py: NosnocProblem.__init__", "nosnoc/solver.py: construct_problem"]}
{"id": "C126", "title": "The order of subsystems and switching functions does not matter", "statement": "If the entries of F, c, S (or g_Stewart) are listed in another order, and within every subsystem the switching functions (entries of c[s] with the columns of S[s]), the model is accepted iff the original one is, and the generated problem is the same up to the corresponding renaming of theta, lambda, mu, alpha, lambda_n, lambda_p: same feasible points, same objective.", "quantifier": "all models given by F, all options (both representations, all MPCC, cross complementarity and step equilibration modes), all ocps, all permutations", "why_tests_cant": "The correspondence has to hold at every point of the variable space and for every permutation, number of subsystems and of switching functions.", "anchors": ["nosnoc/model.py: NosnocModel.preprocess_model", "nosnoc/problem.py: FiniteElement, NosnocProblem"]}
{"id": "C127", "title": "A horizon can be split, and tails of optimal solutions are optimal", "statement": "A problem with a+b control stages accepts a point iff the problem with the first a stages (without terminal cost and terminal constraints) accepts its head and the problem with the last b stages, started at the state at the end of the head, accepts its tail; the objective is the sum of the two objectives. If the point is optimal for the whole horizon then its tail is optimal for the rest of the horizon from the state reached (with the shared variables v_global, s_elastic and the initial parameter values held, if there are any). The initial multipliers which a restart computes from the state reached are those at the end of the head.", "quantifier": "all models, ocps, schemes, stage counts, splits, values of the parameters (with p_global the same in all stages), all points; equidistant control grid or no FESD, no time freezing, all MPCC modes but BOOLEAN", "why_tests_cant": "Ranges over all points and all splits; optimality of the tail quantifies over every competing trajectory.", "anchors": ["nosnoc/problem.py: NosnocProblem.__init__, __create_control_stage, FiniteElement", "nosnoc/helpers.py: NosnocSimLooper.run"]}
{"id": "C128", "title": "A simulation solves the problem over the whole simulated time", "statement": "The states and step lengths returned by a simulation with NosnocSimLooper (exact NLP solver, polishing, all steps reported as SUCCESS) are those of one exact feasible point of the problem with Nsim control stages over the total simulated time, for the same model, parameters and initial state; that problem is accepted. In general, points of the one-stage problem that follow each other (state, multipliers, shared values) are exactly the points of the N-stage problem with the same parameters in all stages.", "quantifier": "all models without algebraic and global variables, all numbers of simulation steps and finite elements, all schemes, both representations (STEP with one subsystem, see C08), Scholtes and Fischer-Burmeister modes with FESD; the correspondence of points for all MPCC modes but BOOLEAN", "why_tests_cant": "Ranges over all runs of the loop and all numbers of steps; the initial multipliers recomputed at every restart must be those with which the step before ended.", "anchors": ["nosnoc/helpers.py: NosnocSimLooper.run", "nosnoc/problem.py: NosnocProblem.__init__, __create_control_stage", "nosnoc/solver.py: NosnocSolver.solve, set"]}
{"id": "C129", "title": "Simulation results do not depend on guesses, NLP solver, numbers of steps and finite elements", "statement": "For a piecewise constant system whose Filippov right-hand side is one-sided Lipschitz (constant K), two simulations with polishing and exact NLP solvers that report SUCCESS for every step return, at every time that is a grid point of both, states whose distance is at most exp(K t) times the distance of the initial states; from the same initial state they return the same states. The simulations may differ in everything else: guesses, NLP solver, options, number of steps and finite elements.", "quantifier": "all piecewise constant one-sided Lipschitz systems, all pairs of successful simulations with schemes of the same sum of weights (all INTEGRAL schemes), all common grid times", "why_tests_cant": "Quantifies over all pairs of runs, NLP solvers and discretisations.", "anchors": ["nosnoc/helpers.py: NosnocSimLooper.run, get_results", "nosnoc/problem.py: FiniteElement", "nosnoc/solver.py: NosnocSolver.solve"]}
{"id": "C130", "title": "For smooth systems the reported states are determined by initial state, controls, parameters and step lengths", "statement": "Consider a model whose right-hand side is the same in all regions and Lipschitz continuous. Fix the scheme, n_s and the representation. If two solves (two solver objects, possibly with different objectives, guesses, NLP solvers, complementarity modes and other options) report SUCCESS on the same grid with the same step lengths, controls, global variables and parameters, and the steps are small enough, then at every grid time t the two reported states differ by at most exp(C t) times the difference of the initial states, with C depending on the scheme and the Lipschitz constant only. From the same initial state they report the same trajectory. Without FESD, and without controls and global variables, the trajectory is thus determined by the initial state, the parameters and the grid alone.", "quantifier": "all smooth Lipschitz models, all pairs of successful solves on all grids, all initial states, options, guesses and NLP solvers whose accepted points satisfy their constraints", "why_tests_cant": "A test compares two runs of one problem; the constants must be uniform over all problems, grids and NLP solver answers.", "anchors": ["nosnoc/problem.py: FiniteElement.forward_simulation, FiniteElement.create_complementarity_constraints", "nosnoc/solver.py: NosnocSolver.solve", "nosnoc/rk_utils.py"]}
{"id": "C131", "title": "Simulations converge across a switch, and find the switching time, with the order of the scheme", "statement": "Consider a system with one switching function and two regions, whose vector fields are Lipschitz continuous, and a trajectory that crosses the switching surface transversally at a time ts. Fix the scheme, n_s and the representation. There are H0 > 0 and C such that for every simulation with FESD and polishing all steps of which are reported as SUCCESS (any number of steps and finite elements, any NLP solver, any guesses), with longest finite element Delta <= H0: with err the sum of the difference in the initial state, Delta^n_s and the rounding of the Butcher tables, if err <= H0, then up to the given time every state in X_sim differs from the trajectory at its time in t_grid by at most C err, there is a grid point whose time differs from ts by at most C err unless the simulation ends before, all elements before it begin and end on the one side of the surface and all elements after it on the other side. Nothing is assumed about the computed states: that the switch is taken, taken once, and not taken back follows.", "quantifier": "all models with one switching function and two regions with the given Lipschitz constant, all transversal crossings with the given constants, all successful simulations with sufficiently short elements, all numbers of steps and elements, all NLP solvers whose accepted points satisfy their constraints", "why_tests_cant": "A test measures the error on a few grids for one trajectory; the constants must be uniform over all systems, crossings, grids and NLP solver answers, and the number and place of detected switches is chosen by the solver.", "anchors": ["nosnoc/helpers.py: NosnocSimLooper.run", "nosnoc/solver.py: NosnocSolver.solve, NosnocSolver.polish_solution", "nosnoc/problem.py: FiniteElement.forward_simulation, FiniteElement.create_complementarity_constraints", "nosnoc/rk_utils.py", "README.md: high accuracy, switch detection"]}
{"id": "C132", "title": "The exact solutions of the generated problem are exactly the discrete trajectories within the regions", "statement": "Call discrete trajectory of a switched system (any vector fields and switching functions, Stewart representation) a sequence of steps of the chosen Runge-Kutta scheme, one per finite element, where every stage uses a convex combination of the vector fields of regions to whose closure all points of the element belong, with element lengths within the step bounds and filling the control stages, and respecting bounds, path and terminal constraints. Every discrete trajectory is a feasible point of the problem that NosnocProblem generates, with exact complementarity, the same controls, step lengths, states and weights, and the multipliers of the initial state that the solver computes; conversely every feasible point with exact complementarity is a discrete trajectory. So FESD neither loses trajectories of the system nor adds spurious ones. Whenever discrete trajectories fit together into a chain of steps (and, if the solution is polished, comp_tol tells their multipliers apart from 0 and 1), there is an NLP solver that answers only with solutions of the NLPs it is given, with which NosnocSimLooper.run reports every step as SUCCESS and returns exactly the states of the chain.", "quantifier": "all models in the Stewart representation without algebraic variables, all OCPs, options with a scheme whose last stage is the end of the element, all discrete trajectories and all feasible points, all chains of discrete trajectories", "why_tests_cant": "Tests solve a few problems; that no admissible trajectory is excluded by the constraints, and no inadmissible one admitted, is about all trajectories and all feasible points.", "anchors": ["nosnoc/problem.py: FiniteElement.forward_simulation, FiniteElement.create_complementarity_constraints, NosnocProblem.__create_control_stage, NosnocProblem.__init__", "nosnoc/model.py: NosnocModel.preprocess_model", "nosnoc/rk_utils.py: generate_butcher_tableu, generate_butcher_tableu_integral"]}
{"id": "C133", "title": "The shipped oscillator example with FESD converges to the exact solution and finds the switch with the order of the scheme", "statement": "solve_oscillator of examples/oscillator with polishing, for options as those of the integration order experiment with FESD (any admissible scheme, number of stages, elements and Runge-Kutta representation): there are H0 > 0 and C such that, if no element can be longer than D, D and err = D^n_s (plus the rounding of the Butcher tables where they are used) are at most H0, the NLP solver is exact and the steps are reported as successful, then the time grid runs from 0 to TSIM = pi/2, every reported state is within C*err of the exact solution at its time, the last one within C*err of the X_SOL that the example ships as reference, a grid point is within C*err of the exact switching time 1, and every element of positive length before it lies inside and every one after it outside the unit circle.", "quantifier": "all schemes, orders, numbers of elements and simulation steps, all exact NLP solvers, all successful runs", "why_tests_cant": "The order experiment fits a slope through a few step sizes; a bound on the error for all step sizes and all behaviours of the NLP solver is a statement about infinitely many runs.", "anchors": ["examples/oscillator/oscillator_example.py: get_oscillator_model, get_default_options, solve_oscillator, X_SOL, TSIM", "examples/oscillator/integration_order_experiment_oscillator.py: main", "nosnoc/helpers.py: NosnocSimLooper.run", "nosnoc/problem.py: NosnocProblem"]}
{"id": "C134", "title": "Without polishing, simulations across a transversal switch converge up to the tolerance and find its time", "statement": "Take a system with one switching function and two regions, simulated with FESD and a Scholtes mode in the shipped setting (no polishing, automatic number of homotopy iterations), all steps reported as SUCCESS. If the true trajectory crosses the switching surface transversally, then for small finite elements and a small tolerance the states in X_sim differ from the trajectory by at most a constant times err, where err is the sum of the initial difference, the n-th power of the longest possible element, the square root of the final complementarity tolerance and the table rounding. There are two positions N1 <= N2: before N1 every element begins and ends on the first side and after N2 on the second side, up to the square root of the tolerance, and the times of all positions between them are the true switching time up to the same error.", "quantifier": "all such systems, all crossings with given constants, all numbers of steps, elements and stages, all step lengths and tolerances below a threshold, all behaviours of the NLP solver that end in SUCCESS", "why_tests_cant": "a test compares one trajectory for a few step sizes and tolerances; the claim is a uniform error constant for all systems and runs, including those whose switch falls inside a relaxed element that mixes both vector fields", "anchors": ["nosnoc/helpers.py: NosnocSimLooper.run", "nosnoc/solver.py: NosnocSolver.solve", "nosnoc/problem.py: FiniteElement.forward_simulation, FiniteElement.create_complementarity_constraints", "nosnoc/nosnoc_opts.py: NosnocOpts.preprocess (max_iter_homotopy), comp_tol, sigma_N", "examples/simplest/simplest_example.py"]}
{"id": "C135", "title": "g_Stewart = -S c is the same model as S and c", "statement": "In Stewart's representation, NosnocModel(F=F, S=S, c=c, ...) and NosnocModel(F=F, g_Stewart=[-S[i] @ c[i] for all i], ...) lead to the same NLP (variables, bounds, guesses, constraints, objective, parameters, index lists). Every sequence of set() and solve() on the two solvers, and every simulation with NosnocSimLooper, hands the same NLPs to the NLP solver and returns or raises the same. In particular solve_oscillator(opts, use_g_Stewart=True) returns what solve_oscillator(opts) returns. The exception is RK4_SMOOTHENED, with which no solver can be constructed for g_Stewart.", "quantifier": "all models with sign matrices, options with pss_mode STEWART, optimal control problems, NLP solvers, sequences of calls and simulations", "why_tests_cant": "a test compares two runs on one model; the identity is about every model, every call history and every answer of the NLP solver", "anchors": ["nosnoc/model.py: NosnocModel.__init__, preprocess_model (n_c_sys, g_Stewart_list)", "nosnoc/problem.py: FiniteElement, FiniteElementZero", "examples/oscillator/oscillator_example.py: get_oscillator_model, solve_oscillator"]}
{"id": "C136", "title": "The shipped oscillator example, without polishing, converges to the exact solution and finds the switch up to the tolerance", "statement": "solve_oscillator of examples/oscillator without polishing, which is the shipped setting, with FESD on an equidistant grid and a Scholtes mode: there are H0 > 0 and C, depending only on the scheme, its number of stages and the representation, such that, if no element can be longer than D, tol is the largest complementarity residual a successful solve can end with (max of comp_tol / sqrt(slope) and sigma_N), D and err = D^n_s + sqrt(tol) (plus the rounding of the Butcher tables where they are used) are at most H0, the NLP solver is exact and the steps are reported as successful, then the time grid runs from 0 to TSIM = pi/2, every reported state is within C*err of the exact solution at its time, the last one within C*err of X_SOL, and there are grid points N1 <= N2, all grid points between which have times within C*err of the switching time 1, such that every element before N1 lies inside and every element after N2 outside the unit circle, up to sqrt(tol).", "quantifier": "all schemes, orders, tolerances, numbers of elements and simulation steps, all exact NLP solvers, all successful runs", "why_tests_cant": "The example is run for one number of steps, one tolerance and one NLP solver; the bound holds for all of them and for every answer an exact NLP solver may give.", "anchors": ["examples/oscillator/oscillator_example.py: get_oscillator_model, get_default_options, solve_oscillator, X_SOL, TSIM", "examples/oscillator/integration_order_experiment_oscillator.py: get_opts, run_benchmark", "nosnoc/helpers.py: NosnocSimLooper.run", "nosnoc/solver.py: NosnocSolver.solve", "nosnoc/problem.py: NosnocProblem"]}
{"id": "C137", "title": "In Step mode, the exact solutions of the NLP are the discrete trajectories with products of step functions as weights", "statement": "With pss_mode = STEP, every discrete trajectory (one step of the Runge-Kutta scheme per finite element, with the combination of the vector fields whose weights are the products of values of step functions; a step function is positive only if its switching function is nowhere negative at the beginning and the Runge-Kutta points of the element, and below 1 only if it is nowhere positive there) that fits on the grid and respects bounds, path and terminal constraints is a feasible point of the generated NLP with exact complementarity and with the initial multipliers the solver computes. Conversely every feasible point with exact complementarity is such a discrete trajectory. With one switching function per subsystem these are all discrete trajectories, whatever the convex weights. Every chain of such trajectories is the result of a simulation with some NLP solver that solves its NLPs.", "quantifier": "all models with arbitrary vector fields, switching functions and matrices S, all numbers of stages, elements and Runge-Kutta points, all schemes whose last point is the end, all three RK representations, all discrete trajectories and all feasible points; simulations: one subsystem, any number of steps, any chain", "why_tests_cant": "A test solves finitely many problems with one NLP solver; it cannot show that no trajectory is excluded by the Step equations and that none that is not a trajectory is admitted.", "anchors": ["nosnoc/problem.py: FiniteElement, NosnocProblem", "nosnoc/model.py: NosnocModel.preprocess_model, create_algebraic_equations", "nosnoc/solver.py: NosnocSolver.compute_lambda00, solve", "nosnoc/helpers.py: NosnocSimLooper"]}
{"id": "C138", "title": "Simulations through several switches converge to the exact trajectory and find all switching times", "statement": "Simulating a system with two regions (one switching function) whose exact trajectory crosses the switching surface transversally any number m of times, to and fro, with FESD on an equidistant grid: there are H0 > 0 and C, depending only on the scheme, the number m of crossings and the constants of the trajectory (bounds of derivatives, Lipschitz constants, crossing speed, distance between crossings), such that, if no element can be longer than D, D and err = initial error + D^n_s (plus the rounding of the Butcher tables where they are used, plus the square root of the largest complementarity residual a successful solve can end with when there is no polishing) are at most H0, the NLP solver is exact and all steps are reported as successful, then every reported state is within C*err of the exact trajectory at its time (within a margin of the end), and there are m grid points (without polishing: m pairs of grid points) whose times are within C*err of the m exact switching times, between which the reported states lie in the regions the exact trajectory passes through, in the same order (without polishing: up to the square root of the residual).", "quantifier": "all models with two regions, all numbers of crossings, all trajectories with the given constants, all schemes, orders and RK representations, numbers of elements and simulation steps, all exact NLP solvers, all successful runs, with and without polishing", "why_tests_cant": "A test simulates one trajectory with one grid and one NLP solver; it cannot show that no exact NLP solver can miss a switch, find an extra one or lose the order on any grid that is fine enough.", "anchors": ["nosnoc/helpers.py: NosnocSimLooper.run, get_results_from_primal_vector", "nosnoc/solver.py: NosnocSolver.solve, polish_solution", "nosnoc/problem.py: FiniteElement, NosnocProblem", "nosnoc/rk_utils.py: generate_butcher_tableu_integral"]}
{"id": "C139", "title": "Simulations converge when the trajectory enters a sliding mode, and find the entry time", "statement": "Let the exact trajectory of a system with one switching surface reach the surface from one side and then slide on it: both neighbouring vector fields push towards the surface with normal speed at least alpha, and the motion on the surface is Filippov's convex combination. Let the surface function be affine, and let every step of the simulation be reported as SUCCESS at an exact solution. If the step and the initial error are small, then the reported states are within a constant times (initial error + step^n_s + rounding of the Butcher tables where they are used) of the exact trajectory, before and after the entry. There is one reported index N1 such that all reported elements before it lie on the first side, the reported time at N1 differs from the exact entry time by at most the same constant times the error, and all reported states from N1 up to the horizon lie exactly on the surface.", "quantifier": "all models with one switching function and two regions, all such trajectories, all schemes, orders and RK representations, all step lengths, numbers of steps and finite elements, initial values, parameters, solver answers that are exact, and all horizons", "why_tests_cant": "A test runs one system with one step length. The order of convergence through the loss of smoothness at the entry, and that no simulation leaves the surface again at any step length, are statements about all systems and all step lengths.", "anchors": ["nosnoc/problem.py: FiniteElement.create_complementarity_constraints", "nosnoc/problem.py: FiniteElement.forward_simulation", "nosnoc/helpers.py: NosnocSimLooper.run", "nosnoc/solver.py: NosnocSolver.solve"]}
{"id": "C140", "title": "Where the exact solutions are not unique, the NLP solver decides which one a simulation returns", "statement": "The results of solve_simplest_example are determined by model, options and initial state when the NLP solver is exact. This is false for the shipped spontaneous switch model (slope -1 for x < 0 and 1 for x > 0, from 0): for every number of steps and every time, with and without polishing, each of the three solutions x = -t, x = 0 and x = t is returned, with SUCCESS in every step, for some exact NLP solver. Nothing in the results tells the user that there are others.", "quantifier": "all slopes a < 0 < b, all simulation times and numbers of steps, polishing on or off, all sufficiently small comp_tol (any comp_tol without polishing), all three solutions", "why_tests_cant": "A test runs one NLP solver with one initial guess and sees one of the solutions.", "anchors": ["examples/simplest/different_switch_cases.py: get_spontaneous_switch_model", "nosnoc/helpers.py: NosnocSimLooper.run", "nosnoc/solver.py: NosnocSolver.solve"]}
{"id": "C141", "title": "Simulations of trajectories that cross a switching surface several times and then slide along it converge", "statement": "For a system with one switching function, a simulation with FESD and polishing all steps of which are reported as SUCCESS follows a trajectory that crosses the (plane) switching surface any number of times and then enters a sliding mode: the states in X_sim differ from the exact ones by at most C * (initial difference + Delta^n_s + rounding of the Butcher tables), all crossing times and the time at which sliding begins are found with this error, the simulation is on the side of the trajectory between the switches, and from the entry on the states lie exactly on the surface.", "quantifier": "all schemes, stage counts and representations, all systems and trajectories with the given constants, all numbers m > 0 of crossings, all numbers of steps and finite elements below a step size that depends on the constants only, all exact NLP solvers", "why_tests_cant": "A test compares one simulation with one reference; the claim is about all systems, all step sizes and whatever solution the NLP solver returns.", "anchors": ["nosnoc/helpers.py: NosnocSimLooper.run", "nosnoc/problem.py: FiniteElement.forward_simulation", "nosnoc/problem.py: FiniteElement.create_complementarity_constraints", "nosnoc/solver.py: NosnocSolver.polish_solution"]}
