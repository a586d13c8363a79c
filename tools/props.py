# Generates /verif/properties.jsonl. Each entry: id, title, statement, quantifier, why_tests_cant, anchors
import json
P=[]
def p(id,title,statement,quantifier,why,anchors):
    P.append(dict(id=id,title=title,statement=statement,quantifier=quantifier,why_tests_cant=why,anchors=anchors))
PB='nosnoc/problem.py'; SO='nosnoc/solver.py'; MO='nosnoc/model.py'; OC='nosnoc/ocp.py'; OP='nosnoc/nosnoc_opts.py'; RK='nosnoc/rk_utils.py'; HE='nosnoc/helpers.py'; AM='nosnoc/auto_model.py'; UT='nosnoc/utils.py'
# ---- layout of the NLP
p('C01','Index lists partition the decision vector',
  'After construct_problem succeeds, the index lists of the problem (ind_x, ind_v, ind_theta, ind_lam, ind_mu, ind_alpha, ind_lambda_n, ind_lambda_p, ind_z, ind_h, ind_u, ind_sot, ind_v_global, ind_elastic, ind_bool) together contain every position of problem.w exactly once, and nothing else.',
  'all option combinations (pss_mode, irk_representation, scheme, mpcc_mode, use_fesd, LOCAL/NONE speed of time), all n_s, N_stages, Nfe_list, n_sys and dimensions',
  'Tests can only build finitely many shapes; the claim ranges over unbounded sizes and a product of eight option enums.',
  [PB+':NosnocFormulationObject.add_variable',PB+':FiniteElement.__init__',PB+':NosnocProblem._collect_finite_elements',UT+':increment_indices'])
p('C02','Index lists name the right variable',
  'problem.w[problem.ind_theta[k][i][j][s]] is exactly the vector of convex multipliers of system s at RK stage j of finite element i of control stage k; likewise for x, v, lambda, mu, alpha, lambda_n, lambda_p, z, the step sizes (ind_h in chronological order), controls, global variables, elastic slack and speed-of-time variables.',
  'all configurations as in C01 and all positions (k,i,j,s)',
  'An off-by-one in index shifting shows only for particular shapes; correctness for all shapes needs induction over the construction.',
  [PB+':FiniteElement.__init__',PB+':NosnocProblem.__collect_final_element',UT+':increment_indices'])
p('C03','Size of the decision vector',
  'len(problem.w) equals the closed formula: elastic slack + n_v_global + per control stage (n_u + local speed-of-time) + per finite element (one step size if FESD, n_s*(state/derivative variables + algebraic variables), boundary multipliers on every element but the last of each control stage when FESD is used with a scheme whose last node is not 1, and an end state where the last stage is not the end point) + boolean variables.',
  'all configurations and sizes',
  'test_problem_dimensions checks 48 shapes with one control stage and one system.',
  [PB+':FiniteElement.__init__',PB+':NosnocProblem.__create_primal_variables','test/test_problem_dimensions.py'])
p('C04','Every variable gets its documented bounds and initial guess',
  'For each entry of problem.w the arrays lbw, ubw, w0 hold at the same position the bounds and guess documented for that variable: states [lbx,ubx] with guess x0, controls [lbu,ubu] with u_guess, user algebraics [lbz,ubz] with z0, step sizes [(1-gamma_h)h0,(1+gamma_h)h0] with guess h0, multipliers lower bounded by 0 in the SCHOLTES/ELASTIC_INEQ/ELASTIC_EQ modes and free otherwise, alpha upper bounded by 1, v_global, s_elastic and speed of time from the options.',
  'all configurations, all entries',
  'Alignment of four parallel arrays must hold for every shape.',
  [PB+':NosnocFormulationObject.add_variable',PB+':FiniteElement.add_step_size_variable',PB+':NosnocProblem._add_primal_vector'])
p('C05','Constraint arrays stay aligned',
  'problem.g, problem.lbg, problem.ubg always have equal length, and ind_comp lists exactly the positions of the complementarity constraints in problem.g, each once.',
  'all configurations and constraint histories',
  'Invariant over arbitrary sequences of add_constraint/create_complementarity calls.',
  [PB+':NosnocFormulationObject.add_constraint',PB+':NosnocFormulationObject.create_complementarity',PB+':NosnocProblem.add_fe_constraints'])
p('C06','Construction succeeds exactly on consistent data',
  'For preprocessed options and a preprocessed model/ocp, building the problem raises nothing when len(x0)=n_x, every Nfe_list entry is positive and covers all control stages, and the option combination is supported; and an x0 of the wrong length is rejected with an exception instead of producing a misaligned NLP.',
  'all configurations',
  'Absence of exceptions for all shapes cannot be enumerated.',
  [PB+':NosnocProblem.__init__',PB+':NosnocFormulationObject.add_variable'])
p('C07','Global speed-of-time mode is usable',
  'SpeedOfTimeVariableMode.GLOBAL adds one speed-of-time variable used across the whole problem, for every model and option set.',
  'all configurations with speed_of_time_variables = GLOBAL',
  'No test constructs this mode; the claim is about every construction.',
  [PB+':NosnocProblem.__create_primal_variables'])
p('C08','Parameter vector and parameter values agree',
  'The value vector the solver passes to the NLP assigns to every parameter symbol its own quantity: stage parameters p_k, sigma, tau, the initial multipliers lambda00 of each system (lambda for Stewart; lambda_n and lambda_p for Step) and x0.',
  'all pss modes, numbers of systems, dimensions and parameter values',
  'Order mismatches only show for n_sys >= 2; the statement is for all n_sys.',
  [SO+':NosnocSolverBase.setup_p_val',PB+':NosnocProblem.__create_primal_variables',MO+':NosnocModel.preprocess_model',PB+':NosnocProblem.dump'])
p('C09','Parameter setters write exactly their slots',
  'set("p_global", v) makes the global part of every control stage equal v and leaves the time-varying part unchanged; set("p_time_var", V) makes the time-varying part of stage i equal V[i] and leaves the global part unchanged; the two commute, repeat idempotently, and the last write wins over any history of sets.',
  'all sequences of set calls, all numbers of stages and parameter dimensions',
  'Frame properties over arbitrary call histories.',
  [SO+':NosnocSolverBase.set',MO+':NosnocModel.preprocess_model'])
# ---- time grid
p('C10','Step-size box and monotone time grid',
  'At any NLP point within bounds with FESD and 0<=gamma_h<=1, every reported time step lies in [(1-gamma_h)h0,(1+gamma_h)h0] with h0 = terminal_time/(N_stages*Nfe), so the reported t_grid is nondecreasing (strictly increasing for gamma_h<1).',
  'all bound-satisfying points, all configurations',
  'Quantifies over all feasible points.',
  [PB+':FiniteElement.__init__',SO+':get_results_from_primal_vector'])
p('C11','Equidistant control grid',
  'With FESD and equidistant_control_grid, every feasible point has t_grid_u[k] = k*terminal_time/N_stages for all k.',
  'all feasible points, all N_stages, Nfe_list',
  'Quantifies over all feasible points and sizes.',
  [PB+':NosnocProblem.__init__',SO+':get_results_from_primal_vector'])
p('C12','The horizon length is terminal_time',
  'Every feasible point of a FESD problem has t_grid[-1] = terminal_time.',
  'all FESD configurations and feasible points',
  'Quantifies over all feasible points; the unconstrained corner (one stage, non-equidistant) is untested.',
  [PB+':NosnocProblem.__init__'])
p('C13','Without FESD the reported grid is the discretisation grid',
  'With use_fesd=False the reported time_steps equal the constant step lengths terminal_time/(N_stages*Nfe_list[k]) that enter the Runge-Kutta equations of the corresponding elements; they sum to terminal_time and the control grid is equidistant.',
  'all N_stages, Nfe_list',
  'Two independent code paths compute the step; agreement is for all shapes.',
  [PB+':FiniteElement.__init__',SO+':get_results_from_primal_vector'])
p('C14','Time freezing pins physical time',
  'With time_freezing and an equidistant control grid, at every feasible point the physical clock at the end of control stage k is within time_freezing_tolerance of t(x0)+(k+1)*terminal_time/N_stages.',
  'all feasible points and configurations',
  'Quantifies over all feasible points.',
  [PB+':NosnocProblem.__init__'])
# ---- discretisation
p('C15','Collocation coefficients are exact',
  'For every n_s and distinct nodes, the B, C, D coefficients returned by generate_butcher_tableu_integral satisfy, for every polynomial p of degree <= n_s with nodes t_0=0,t_1..t_ns: sum_j D[j] p(t_j) = p(1), sum_j C[j,r] p(t_j) = p\'(t_r), sum_j B[j] p(t_j) = integral of p over [0,1].',
  'all n_s, all distinct node vectors, all polynomials of degree <= n_s',
  'Unbounded in n_s and over all polynomials.',
  [RK+':generate_butcher_tableu_integral'])
p('C16','Stiffly accurate schemes need no end state',
  'If the last collocation node is 1, then D selects the last stage and the end-of-element state used by the next element, the path constraint and the terminal conditions is the state the scheme defines, in all three representations, although no continuity constraint is added for INTEGRAL and DIFFERENTIAL_LIFT_X.',
  'all n_s, nodes and feasible points',
  'Needs an algebraic identity for all n_s.',
  [RK+':generate_butcher_tableu_integral',PB+':FiniteElement.forward_simulation',OP+':NosnocOpts.preprocess'])
p('C17','Runge-Kutta equations hold at every feasible point',
  'At every feasible point of an EXACT problem, in each element the stage derivatives satisfy the Runge-Kutta equations of the configured tableau with the user right-hand side evaluated at that stage (state, multipliers, control of the stage, parameters of the stage, global variables, speed of time), and the end state is x_prev + h*sum b_j k_j (DIFFERENTIAL, LIFT_X) or the collocation polynomial at 1 (INTEGRAL), where x_prev is the end state of the previous element (x0 for the first).',
  'all configurations, feasible points, elements and stages',
  'Continuity across elements and stages for every shape.',
  [PB+':FiniteElement.forward_simulation',PB+':FiniteElement.X_fe',PB+':FiniteElement.rk_stage_z'])
p('C18','DIFFERENTIAL and DIFFERENTIAL_LIFT_X describe the same trajectories',
  'For the same tableau, the two representations admit exactly the same stage derivatives, algebraic variables, step sizes and end states.',
  'all tableaus (stiffly accurate when the end point is explicit), sizes and points',
  'Equality of two solution sets.',
  [PB+':FiniteElement.X_fe',PB+':FiniteElement.forward_simulation'])
p('C19','INTEGRAL and DIFFERENTIAL describe the same trajectories',
  'For the collocation tableau of the same nodes, the INTEGRAL equations hold iff the DIFFERENTIAL equations hold for the corresponding stage derivatives, with the same stage states and end state.',
  'all n_s, distinct nodes, step sizes, right-hand sides',
  'Equality of two solution sets for all n_s.',
  [PB+':FiniteElement.forward_simulation',RK+':generate_butcher_tableu_integral'])
p('C20','Butcher tableaus are valid collocation methods',
  'For both families and every n_s in 1..9, generate_butcher_tableu returns tables of matching shape, increasing nodes in (0,1], positive weights, row sums c, quadrature order conditions up to the returned order and stage order n_s, all to 1e-11; Radau tables are stiffly accurate exactly and end at node 1, Gauss tables do not.',
  'the whole table (18 tableaus) and all order conditions',
  'No test inspects the coefficients.',
  [RK+':generate_butcher_tableu'])
p('C21','The running cost is the quadrature of f_q over the horizon',
  'The stage cost added by each element equals h * sum_j b_j * q_j with weights summing to 1, so that a constant integrand 1 costs exactly the elapsed (scaled) time.',
  'all representations, schemes, n_s and points',
  'A weight dropped for one (scheme,n_s) pair is invisible to the tested pairs.',
  [PB+':FiniteElement.forward_simulation',RK+':generate_butcher_tableu_integral'])
p('C22','rk4 integrates one step per grid entry',
  'rk4 and rk4_on_timegrid return one state per grid node starting with x0; rk4 equals rk4_on_timegrid on the constant grid; integration over a concatenated grid is the continuation from the last state; linear invariants of f are preserved exactly; a constant field is integrated exactly.',
  'all fields f, grids and initial states',
  'Universal over vector fields.',
  [RK+':rk4',RK+':rk4_on_timegrid'])
# ---- DCS
p('C23','Stewart representation selects the active region',
  'In PssMode.STEWART with given c and S, at a point strictly inside region i the algebraic equations, bounds and complementarity at one stage have exactly one solution: theta = e_i, so the right-hand side is the i-th column of F.',
  'all sign matrices, switching values, dimensions',
  'Universal over S, c and numbers of regions.',
  [MO+':NosnocModel.preprocess_model'])
p('C24','Step representation selects the active region',
  'In PssMode.STEP at a point strictly inside region i (of systems with pairwise contradicting rows of S), every solution of the stage equations has alpha_k = 1 for c_k>0 and 0 for c_k<0 on the components used, and the right-hand side is the i-th column of F.',
  'all sign matrices with entries in {-1,0,1}, switching values, dimensions',
  'Universal over S, c.',
  [MO+':NosnocModel.preprocess_model'])
p('C25','Feasible dynamics are Filippov combinations',
  'At any point satisfying the stage equations and the nonnegativity bounds, in Stewart mode the multipliers of each system are nonnegative and sum to 1; in Step mode with the full sign matrix the region weights are nonnegative and sum to 1.',
  'all points, dimensions, systems',
  'Universal over points; partition of unity needs induction over the number of switching functions.',
  [MO+':NosnocModel.preprocess_model'])
p('C26','Initial multipliers solve the initial switching conditions',
  'The lambda00 computed from x0 is nonnegative, satisfies the switching equations for suitable mu (Stewart) or exactly (Step), and is complementary to the multipliers of the active region.',
  'all switching values and dimensions',
  'Universal over x0.',
  [MO+':NosnocModel.compute_lambda00',MO+':NosnocModel.preprocess_model'])
p('C27','Smoothed multipliers agree with the Step weights',
  'For S with entries in {-1,0,1} the smoothed region weights equal the Step weights evaluated at the smoothed steps, lie in (0,1], sum to 1 for full sign matrices, and the smoothed minimum used for mu lies between the minimum and maximum of g.',
  'all S, c, smoothing parameters > 0',
  'Universal over S and c.',
  [MO+':NosnocModel.add_smooth_step_representation'])
p('C28','Stage arguments are bound in the right order',
  'The algebraic vector handed to the model functions at stage j binds each of theta, lambda, mu, alpha, lambda_n, lambda_p and user z of that stage to the variable of the same meaning.',
  'all configurations and stages',
  'Positional binding for all sizes.',
  [PB+':FiniteElement.rk_stage_z',MO+':NosnocModel.preprocess_model'])
p('C29','Boundary-point switching equations are consistent',
  'With FESD and a scheme without explicit end point, the switching equations added at the element end involve multipliers belonging to that end point.',
  'all such configurations, all elements',
  'Depends on which element of the stage is looked at and on reads of index lists of varying length.',
  [PB+':FiniteElement.forward_simulation',PB+':FiniteElement.__init__'])
# ---- complementarity
p('C30','Each MPCC mode encodes its relaxed complementarity',
  'create_complementarity([x_1..x_m], y, sigma, ..) constrains exactly: SCHOLTES_INEQ (sum x)y<=sigma, SCHOLTES_EQ (sum x)y=sigma, ELASTIC_INEQ/EQ the same with the slack, ELASTIC_TWO_SIDED -s<=(sum x)y<=s, FISCHER_BURMEISTER sum of smoothed FB functions = 0, BOOLEAN the big-M pair; componentwise.',
  'all modes, list lengths, vector lengths, points',
  'Universal over points and sizes.',
  [PB+':NosnocFormulationObject.create_complementarity'])
p('C31','At sigma=0 the relaxations enforce complementarity',
  'With nonnegative arguments and sigma = 0 (slack = 0; binary boolean variables), each supported mode forces x_i*y = 0 for every pair; relaxations are nested: a feasible point for sigma stays feasible for a larger sigma in the INEQ modes.',
  'all points',
  'Universal over points.',
  [PB+':NosnocFormulationObject.create_complementarity'])
p('C32','No switch inside a finite element',
  'With FESD, at every feasible point with exact complementarity, if some stage of an element has theta_i > 0 then lambda_i = 0 at all stages of this element and at the end of the previous element (the initial lambda00 for the first).',
  'all configurations, feasible points, elements, stages',
  'The defining FESD guarantee; universal over points.',
  [PB+':FiniteElement.create_complementarity_constraints',PB+':FiniteElement.get_Lambdas_incl_last_prev_fe'])
p('C33','The two cross-complementarity modes are equivalent at sigma=0',
  'For nonnegative multipliers and sigma=0, the feasible sets of COMPLEMENT_ALL_STAGE_VALUES_WITH_EACH_OTHER and SUM_LAMBDAS_COMPLEMENT_WITH_EVERY_THETA coincide; for sigma>0 SUM implies ALL, and ALL at sigma implies SUM at (n_s+1)*sigma.',
  'all configurations and points',
  'Equality of two solution sets.',
  [PB+':FiniteElement.create_complementarity_constraints'])
p('C34','comp_res certifies complementarity',
  'If problem.comp_res(w,p) < tol at a point within bounds, all the stage complementarity products lie in [0,tol).',
  'all configurations and points',
  'Universal over points and modes.',
  [PB+':FiniteElement.get_complementarity_vector',PB+':NosnocProblem.__init__'])
p('C35','Path complementarities are enforced where they live',
  'Stage-dependent path complementarities are imposed at every RK stage, control-dependent ones once per control stage, global ones once.',
  'all Nfe_list, configurations',
  'Depends on Nfe_list entries against another option.',
  [PB+':FiniteElement.create_complementarity_constraints',PB+':NosnocProblem.create_global_compl_constraints'])
p('C36','Path complementarity classification',
  'Each row of g_path_comp goes to exactly one category (stage if it depends on x or z, else control if on u or p_time_var, else global); order inside a category is preserved; a matrix whose width is not 2 is rejected.',
  'all rows and dependency patterns',
  'Universal over lists of rows.',
  [OC+':NosnocOcp.preprocess_ocp'])
p('C37','Path constraints are enforced at the documented points',
  'g_path holds within [lbg,ubg] at the end of each control stage always, at the end of every finite element if g_path_at_fe, and at every integrator stage if g_path_at_stg.',
  'all configurations and feasible points',
  'Universal over points; depends on scheme and element position.',
  [PB+':FiniteElement.forward_simulation',OP+':NosnocOpts'])
p('C38','Terminal constraint and cost act on the final state',
  'g_terminal and f_terminal are evaluated at the final reported state x_out with the parameters of the last stage, and every feasible point satisfies g_terminal(x_out)=0.',
  'all configurations and feasible points',
  'Universal over shapes and points.',
  [PB+':NosnocProblem.__init__'])
# ---- step equilibration
p('C39','Heuristic step equilibration penalises exactly non-uniform steps',
  'HEURISTIC_MEAN adds rho_h*(h-h0)^2 per element, HEURISTIC_DELTA adds rho_h*(h_i-h_{i-1})^2 per non-first element of a stage; for rho_h>0 the penalty is nonnegative and zero iff all steps of each control stage are equal to h0 (mean) or to each other (delta).',
  'all configurations and points',
  'Universal over points and sizes.',
  [PB+':FiniteElement.step_equilibration'])
p('C40','DIRECT step equilibration: steps only change at switches',
  'With StepEquilibrationMode.DIRECT every feasible point has h_i = h_{i-1} within a control stage unless some switching indicator of the pair of elements vanishes.',
  'all configurations and feasible points',
  'Universal over points.',
  [PB+':FiniteElement.step_equilibration'])
p('C41','DIRECT_COMPLEMENTARITY and HEURISTIC_DELTA_H_COMP enforce equilibrated steps',
  'With these modes and sigma=0, h_i = h_{i-1} unless a switching indicator vanishes (resp. always), for each MPCC mode.',
  'all modes and feasible points',
  'Universal over points and modes.',
  [PB+':FiniteElement.step_equilibration',PB+':NosnocFormulationObject.create_complementarity'])
p('C42','L2 step equilibration adds a nonnegative penalty inactive at switches',
  'L2_RELAXED and L2_RELAXED_SCALED add rho_h*nu*(dh)^2 (resp. with tanh(nu/sigma)), where nu is the product of the switching indicators; at points with nonnegative multipliers the term is nonnegative and it vanishes when an indicator vanishes or dh=0.',
  'all configurations and points',
  'Universal over points.',
  [PB+':FiniteElement.step_equilibration'])
# ---- reformulations
p('C43','Elastic modes: slack bounded and penalised',
  'In ELASTIC modes there is exactly one slack in [s_elastic_min,s_elastic_max], the objective is cost + s/sigma (direct scaling) or sigma*cost + s, so for sigma>0 both rank points identically; in other modes no slack exists.',
  'all configurations, points and sigma>0',
  'Universal over points.',
  [PB+':NosnocProblem.__init__'])
p('C44','LEAST_SQUARES keeps the problem equivalent or refuses it',
  'With ConstraintHandling.LEAST_SQUARES the objective is the original cost plus the sum of squared constraints, no constraints remain, and problems with inequality constraints are refused with an exception.',
  'all constraint lists and bounds',
  'Universal over bounds.',
  [PB+':NosnocProblem.__init__'])
p('C45','Elapsed-cost bookkeeping: the objective is the sum of its documented parts',
  'The EXACT, non-elastic objective is the sum of the element costs in all stages plus the terminal cost; nothing is counted twice or dropped.',
  'all configurations and points',
  'Universal over shapes.',
  [PB+':NosnocProblem.__init__'])
# ---- solver
p('C46','Homotopy loop terminates and follows its schedule',
  'solve() performs at least one and at most max_iter_homotopy NLP solves (plus polishing), the k-th with sigma given by the update rule from sigma_0; it stops at the first solve with residual < comp_tol or sigma <= sigma_N, and only then or when the budget is used up.',
  'all NLP solver behaviours (oracles), options',
  'Universal over the behaviours of the external NLP solver.',
  [SO+':NosnocSolver.solve'])
p('C47','Homotopy parameters decrease and stay positive',
  'For 0<slope<1 the LINEAR rule gives sigma_k = slope^k*sigma_0, strictly decreasing and positive; the SUPERLINEAR rule never goes below sigma_N and is strictly decreasing while sigma > sigma_N; tau = min(sigma^1.5, sigma) is in (0,sigma].',
  'all iterations k and option values',
  'Universal over k and reals.',
  [SO+':NosnocSolverBase.homotopy_sigma_update',SO+':NosnocSolver.solve'])
p('C48','The default iteration budget reaches the tolerance',
  'With max_iter_homotopy=0 (automatic), LINEAR rule, 0<slope<1, 0<comp_tol<=sigma_0, the budget is at least 1 and the last scheduled sigma is at most comp_tol/sqrt(slope), and at least comp_tol*sqrt(slope).',
  'all real option values',
  'Universal over reals.',
  [OP+':NosnocOpts.preprocess',SO+':NosnocSolver.solve'])
p('C49','Results are those of the last NLP solve',
  'Without polishing, w_sol, status and cost_val come from the last NLP solve; w_all is the initial guess followed by every NLP solution in order; per-iteration statistics are filled for executed iterations and None for the rest.',
  'all oracles and options',
  'Universal over oracle behaviours.',
  [SO+':NosnocSolver.solve'])
p('C50','Reported cost is the objective value',
  'results["cost_val"] is the objective value at results["w_sol"].',
  'all oracles, including negative objectives and polishing',
  'Universal over oracle behaviours.',
  [SO+':NosnocSolver.solve',SO+':NosnocSolverBase.polish_solution'])
p('C51','Status SUCCESS means solved',
  'results["status"] is SUCCESS iff the last NLP solve ended in an accepted IPOPT status, and SUCCESS implies the complementarity residual met comp_tol.',
  'all oracles',
  'Universal over oracle behaviours.',
  [SO+':NosnocSolver.solve',UT+':check_ipopt_success'])
p('C52','Warm starting along the homotopy',
  'The first NLP starts from the initialised guess (with fixed entries overwritten when fix_active_set_fe0), NLP k+1 starts from the solution of NLP k, and all NLPs in one solve() use the same bounds and the current parameters.',
  'all oracles and options',
  'Universal over oracle behaviours.',
  [SO+':NosnocSolver.solve'])
p('C53','solve() leaves the stored problem intact',
  'solve() never changes bounds, constraint bounds, parameters or x0; the stored guess changes only in the state entries (ALL_XCURRENT_*), not at all (EXTERNAL), or becomes the solution (ALL_XCURRENT_WOPT_PREV); hence with ALL_XCURRENT_W0_START or EXTERNAL repeated solves issue the same NLP sequence for a deterministic solver.',
  'all oracles, histories of set/solve calls',
  'Universal over call histories.',
  [SO+':NosnocSolver.solve',SO+':NosnocSolverBase.initialize'])
p('C54','Initialisation writes x0 into every state guess',
  'With ALL_XCURRENT_* strategies, after initialize() every state entry of the guess equals the current x0 and every other entry is unchanged; with EXTERNAL nothing changes, so values given by set() are the ones used.',
  'all shapes, guesses',
  'Universal over shapes.',
  [SO+':NosnocSolverBase.initialize',SO+':NosnocSolverBase.set'])
p('C55','set("x"|"u"|"theta"|"v_global") writes exactly the addressed guesses',
  'After set("x", V) with one row per control stage (or per element) every state guess of stage k (or element e) equals its row and no other guess entry changes; analogous for u, theta, v_global; wrong row counts are rejected without modification.',
  'all shapes and values',
  'Universal over shapes.',
  [SO+':NosnocSolverBase.set'])
p('C56','Active-set fixing on the first element',
  'With fix_active_set_fe0 in Stewart mode exactly the multipliers theta_i of the first element with lambda00_i > 10*comp_tol are fixed to 0 in the bounds of this solve; all other bounds and the stored bounds are unchanged; any point with exact complementarity that is feasible for the original problem satisfies the fixed bounds.',
  'all shapes, lambda00 values',
  'Universal over values.',
  [SO+':NosnocSolver.solve'])
p('C57','Polishing only fixes multipliers that are numerically at 0 or 1',
  'polish_solution fixes to 0 (1) exactly complementarity multipliers whose value is within 10*comp_tol of 0 (1) and never touches states, controls, steps, global or user algebraic variables; it works for every supported problem.',
  'all guesses and problems',
  'Universal over values and shapes.',
  [SO+':NosnocSolverBase.polish_solution'])
# ---- results
p('C58','Results are aligned in time',
  'x_traj, t_grid have one entry per element boundary (sum(Nfe_list)+1), x_traj[0]=x0 and x_traj[n] is the state at the end of the n-th element, t_grid[0]=0, t_grid[n] the sum of the first n steps; u_traj has N_stages entries and t_grid_u[k] is the start time of control stage k; theta_list/lambda_list/alpha_list have one entry per element, belonging to the last RK point of this element; x_out is the last entry of x_traj.',
  'all shapes and solution vectors',
  'Universal over shapes.',
  [SO+':get_results_from_primal_vector',UT+':get_cont_algebraic_indices'])
p('C59','Switch detection reports exactly the element boundaries with a mode change',
  'An element boundary is reported as a switch iff some multiplier changes by more than 0.1 between the two adjacent elements.',
  'all solution vectors',
  'Universal over values and shapes.',
  [SO+':get_results_from_primal_vector'])
p('C60','switch_times are points of t_grid',
  'Each reported switch time is the time (t_grid value) of the corresponding element boundary.',
  'all solution vectors, numbers of elements',
  'Tests use two elements, where the discrepancy cannot show.',
  [SO+':get_results_from_primal_vector',HE+':NosnocSimLooper.run'])
p('C61','Results can be extracted for every model',
  'get_results_from_primal_vector returns for every supported model and solution vector.',
  'all models, including several systems with different numbers of regions',
  'Universal over shapes.',
  [SO+':get_results_from_primal_vector'])
# ---- sim looper
p('C62','Simulation loop chains states and time',
  'After run(), X_sim starts with x0, has 1+sum of elements entries, step i+1 starts from the last state of step i (this is the x0 used in its NLP), time_steps is the concatenation of the step results, t_grid its running sum, and there is one status, cost and solution per step.',
  'all Nsim, all solver behaviours',
  'Universal over numbers of steps and behaviours.',
  [HE+':NosnocSimLooper.run',HE+':NosnocSimLooper.get_results'])
p('C63','stop_on_failure stops the loop',
  'run(stop_on_failure=True) stops after the first failing step and returns False; otherwise all Nsim steps run and it returns True.',
  'all solver behaviours, Nsim',
  'Universal over behaviours; no test exercises failure.',
  [HE+':NosnocSimLooper.run'])
p('C64','The looper only accepts pure simulation problems',
  'NosnocSimLooper raises unless n_u=0, N_stages=1 and no ocp was given, and raises on p_values of the wrong shape; with p_values step i uses row i.',
  'all problems and shapes',
  'Universal over configurations.',
  [HE+':NosnocSimLooper.__init__',PB+':NosnocProblem.is_sim_problem'])
p('C65','Simulated switch times are global times',
  'The switch times of step i are shifted by the total time of the previous steps.',
  'all histories',
  'Universal over Nsim and results.',
  [HE+':NosnocSimLooper.run'])
# ---- opts
p('C66','Option preprocessing is idempotent and fills defaults consistently',
  'preprocess() called again on the same options changes nothing; Nfe_list defaults to N_finite_elements per stage, max_iter_homotopy and the tableau are set, right_boundary_point_explicit holds iff the last node is 1 (Radau).',
  'all option values',
  'Universal over option values.',
  [OP+':NosnocOpts.preprocess'])
p('C67','IPOPT tolerance follows comp_tol of the same options object',
  'For any options object whose tol_ipopt the user has not set, the solver uses tol = 0.01*comp_tol of that object, whatever other option objects exist.',
  'all histories of creating and preprocessing option objects in one process',
  'Universal over histories; each unit test sees one history.',
  [OP+':NosnocOpts.tol_ipopt',OP+':NosnocOpts.preprocess'])
p('C68','Options can be changed and reused',
  'After changing N_stages or N_finite_elements on a used options object, the next construction uses the new discretisation.',
  'all histories of changes and constructions',
  'Universal over histories.',
  [OP+':NosnocOpts.preprocess'])
p('C69','Option type validation',
  'preprocess() raises TypeError iff some option value is not an instance of its annotated type (bool counts as int, int does not count as float, terminal_time accepts both).',
  'all assignments of Python values to options',
  'Universal over assignments.',
  [UT+':validate',OP+':NosnocOpts'])
# ---- model
p('C70','Model validation accepts exactly consistent models',
  'NosnocModel raises unless exactly one of F or (f_x and alpha) is given and, with F, exactly one of (c and S) or g_Stewart; preprocessing raises on dimension mismatches of z0/lbz/ubz, S/F, c/S, g_Stewart/F, c/alpha and parameter values, on non-switching systems and on Stewart mode with general inclusions.',
  'all combinations of given data and dimensions',
  'Universal over dimensions.',
  [MO+':NosnocModel.__init__',MO+':NosnocModel.preprocess_model'])
p('C71','A model object can be reused with other options',
  'A model whose p_time_var_val was left at its default can be used to construct solvers with different N_stages.',
  'all histories of constructions',
  'Universal over histories.',
  [MO+':NosnocModel.preprocess_model'])
p('C72','OCP defaults and validation',
  'preprocess_ocp fills missing bounds with -inf/+inf (g_path: 0/0), guesses with 0, keeps given ones, is idempotent, and raises iff a given vector has the wrong length.',
  'all dimensions and given/omitted patterns',
  'Universal over dimensions.',
  [OC+':NosnocOcp.preprocess_ocp'])
# ---- auto model
p('C73','Auto-model reformulation preserves the vector field',
  'For every expression built from smooth operators and sign/max/min, the reformulated right-hand side with each alpha equal to the step of its switching function evaluates to the original, wherever no switching function is zero (for max/min also where it is zero).',
  'all expressions and points',
  'Universal over expression trees.',
  [AM+':NosnocAutoModel._rebuild_nonlin'])
p('C74','Auto-model pairs one fresh alpha with each switching function',
  'The numbers of alpha variables and switching functions agree, names are distinct, each nonsmooth node outside other nonsmooth nodes contributes exactly one, and the rebuilt expression is smooth unless nonsmooth nodes are nested.',
  'all expressions',
  'Universal over expression trees.',
  [AM+':NosnocAutoModel._rebuild_nonlin',AM+':NosnocAutoModel._find_matching_expr_nonlin'])
p('C75','Additive decomposition is sound',
  'The components returned by _find_nonlinear_components sum to the expression; _check_smooth is true iff no sign/max/min occurs.',
  'all expressions and points',
  'Universal over expression trees.',
  [AM+':NosnocAutoModel._find_nonlinear_components',AM+':NosnocAutoModel._check_smooth'])
p('C76','reformulate() yields an equivalent model on every branch',
  'Whenever reformulate() returns a model, the Filippov/Step dynamics of that model agree with the original vector field off the switching surfaces.',
  'all expressions',
  'Universal over expression trees; the linear branch is untested.',
  [AM+':NosnocAutoModel.reformulate',AM+':NosnocAutoModel._reformulate_linear',AM+':NosnocAutoModel._rebuild_additive_component'])
p('C77','Auto models with several switching functions can be solved',
  'A model returned by reformulate() with any number of switching functions passes model preprocessing.',
  'all numbers of switching functions',
  'Universal over counts; tests use one.',
  [AM+':NosnocAutoModel.reformulate',MO+':NosnocModel.preprocess_model'])
# ---- utils
p('C78','Nested index-list utilities',
  'flatten returns the integers of a nested list in order; increment_indices keeps the nesting shape and adds inc to each integer; flatten commutes with increment_indices; flatten_layer removes one level.',
  'all nested lists',
  'Universal over nested lists.',
  [UT+':flatten',UT+':increment_indices',UT+':flatten_layer',UT+':flatten_outer_layers'])
if __name__=='__main__':
    with open('/verif/properties.jsonl','w') as f:
        for x in P: f.write(json.dumps(x)+'\n')
    print(len(P))
