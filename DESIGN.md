# A machine-checked model of nosnoc_py

`/repo` (nosnoc_py) turns a Filippov/step ODE model plus options into a nonlinear
program (NLP, by the FESD discretisation), solves it by a homotopy of calls to IPOPT, and
post-processes the solution.  `/verif/lean` contains a shallow Lean 4 model of that
code, a separate specification, and theorems that tie the two together.
`properties.jsonl` lists the properties in English, `MANIFEST.json` maps each one to theorems,
`seeded/LOG.jsonl` records the wrong programs the theorems were tested against.

## 1. Trusted base

* Lean 4.33.0's kernel, and the Mathlib definitions that occur in statements (ℝ, EReal, List, Finset
  sums, Polynomial, integrals, `Real.tanh`, `Real.sqrt`, `Real.rpow`).
* Axioms: every theorem depends on a subset of `propext`, `Classical.choice`, `Quot.sound`
  (`tools/check_axioms.py` prints `#print axioms` for every theorem of the manifest and compares). No `sorry`, no added axioms, no `native_decide`/`bv_decide`,
  no `implemented_by`/`unsafe`.
* The reading of the Python source: every definition under `Verif/Model` cites the file and lines it
  models, and says where it simplifies.  The Butcher tables are generated from the literals of
  `rk_utils.py` by `tools/gen_tables.py`.
* The idealisations of section 2.

## 2. What the model idealises

| topic | model | consequence |
|---|---|---|
| numbers | floats are real numbers, `±np.inf` is `⊤/⊥ : EReal`, ints are ints | rounding, overflow and NaN are outside the model; the decimal literals of the tables are kept exactly, so C20 has explicit tolerances |
| CasADi expressions | an `SX` is its denotation `Env → ℝ` over the symbols of the problem | two expressions with the same value are the same; only the auto model, which inspects expressions, uses syntax trees |
| CasADi functions | list of input symbols + outputs; a call rebinds the symbols, a dimension mismatch is an error value | "free variable" errors of CasADi are outside the model: user functions are arbitrary real functions of exactly the declared arguments |
| `ca.which_depends` | a Boolean flag of the user's path complementarity; theorems that need it assume it is right (`Sound`) | |
| `ca.collocation_points` | parameter `colloc` of the model; theorems state what they need (distinct nonzero points, last point 1, …) | |
| IPOPT | an oracle: any function from the history of calls and the data of a call to a solution, a status and statistics | all statements about `solve` hold for every solver behaviour; C87 and C56 add the hypothesis that success implies feasibility for the problem passed in |
| exceptions | values of `PyErr` in `Except`; methods of mutable objects return the new object *and* the exception, since an exception does not undo earlier writes | messages are not modelled, the exception class is |
| mutable/shared objects | `Model/World.lean`: heap of options, models, ocps, solvers with references; class attributes are one shared dictionary | |
| Python integers as booleans, duck typing | `Model/Validate.lean` for the type check of options; elsewhere arguments have the annotated type | |
| time measurement | `cpu_time` is an arbitrary number supplied by the oracle | |

## 3. What is modelled

| source | model | left out |
|---|---|---|
| `nosnoc_types.py`, `dims.py` | `Model/Basic.lean` | |
| `nosnoc_opts.py` | `Model/Opts.lean` (values, `preprocess`), `Model/Validate.lean` (type check), `Model/World.lean` (shared dictionary, setters that write into it) | `__repr__`, `_assign` beyond the tolerances |
| `model.py` | `Model/Model.lean` (`__init__`, `preprocess_model`, `create_stage_vars`, `compute_lambda00`), `Model/Smooth.lean`, `Model/Root.lean` (`rootfinder_for_initial_z`), `Model/StageFuns.lean` (`std_compl_res_fun`, `mu00_stewart_fun`) | `__repr__`; `theta=` argument (marked "not meant to be used" at model.py:56; modelled as not given) |
| `ocp.py` | `Model/Ocp.lean` | |
| `rk_utils.py` | `Model/Rk.lean`, `Model/RkTables.lean` | |
| `problem.py` | `Model/Formulation.lean`, `Model/FiniteElement.lean`, `Model/Problem.lean`, `Model/Report.lean` (`print`, `dump`) | text formatting and pickling |
| `solver.py` | `Model/Solver.lean`, `Model/CompRes.lean`, `Model/Results.lean`, `Model/VectorField.lean` | console output |
| `helpers.py` | `Model/Looper.lean` | console output |
| `auto_model.py` | `Model/AutoModel.lean` | CasADi's simplification while building; see the header of the file |
| `utils.py` | `Model/Utils.lean`, `Model/Validate.lean` | printing helpers, JSON helper |
| `plot_utils.py` | `Model/Plot.lean`: the data handed to matplotlib | styles, labels, files; `plot_voronoi_2d` (scipy) |
| `examples/simplest/simplest_example.py` (models, `get_default_options`, `solve_simplest_example`), models of `different_switch_cases.py` | `Model/Examples.lean` | plotting left out |
| `examples/oscillator/oscillator_example.py` (model with `use_g_Stewart=False`, options, `solve_oscillator`), options of `integration_order_experiment_oscillator.py` | `Model/Oscillator.lean` | plotting and files left out; the g_Stewart variant is `oscillatorModelG` (C135) |
| the rest of `examples/`, `test/` | – | not modelled |

## 4. Layout and method

| directory | contents |
|---|---|
| `Verif/Model` | the model, function by function, with source citations |
| `Verif/Spec` | the specification vocabulary, independent of the model's helpers |
| `Verif/Proofs` | helper lemmas |
| `Verif/Props` | property theorems (`Cnn_…`); beside them `example`s showing that the hypotheses are met by a concrete non-trivial case |
| `Verif/Witness` | the concrete problems used in examples and counterexamples |
| `tools/` | generators (`gen_tables.py`, `gen_imports.py`, `gen_manifest.py`), notes for the manifest |

*Core idea for the NLP.*  Constructors only issue `add_variable` / `add_constraint` /
`create_complementarity` / `cost +=` calls.  The model executes those calls as folds
in `Except`, as the code does.  Helper lemmas (`Proofs/*`) compute a closed form of the resulting
object for arbitrary models, options, numbers of stages, elements, systems; layout properties follow
from the closed form by induction, and properties of feasible points from
"the problem is feasible at `env` ⇔ each issued call is satisfied at `env`"
(C83: ⇔ `FeasibleSpec`, the discretised optimal control problem in the user's terms).

*Core idea for `solve`.*  One homotopy is specified by `Spec/Solve.lean` (a sequence of calls and
solutions: warm start, bounds, parameters); `Proofs/SolveRun.lean` shows by induction over the loop
that the model performs one for every oracle.  Solver objects are quantified over by `Reachable`
(created, then any sequence of `set` and `solve` calls, whatever they raise).

*Vocabulary of statements.*  `Setup colloc o um uo po m oc P`: the construction from the user's
options `o`, model `um` and ocp `uo` succeeded, `n_s > 0`, and the user does not give both `F` and
`alpha`.  `SetupEx`: furthermore EXACT constraint handling and right dependence flags.  Variables of
the NLP are named by `Sym` (`.st1 .x k e j i` = component `i` of the state at stage `j` of finite element
`e` of control stage `k`, …), values by `env : Sym → ℝ`.

*Violated properties.*  Where the code does not do what a user relies on, the property is kept in full in
`properties.jsonl`; a `_violated` theorem proves the negation with a concrete witness (or for all models)
and a `_partial` theorem proves what does hold; status `partial`.

## 5. Per property

| id | what is modelled / stated | how it is proved |
|---|---|---|
| C01 | concatenation of all index lists of the problem | closed form of `w` and of each list; `List.Perm` with `range`, induction over stages, elements, points |
| C02 | each index list points at the symbols its name says | same closed form, `Forall₂` over the nested lists |
| C03 | length of `w` | counting lemma over the closed form |
| C04 | bounds and guess of every variable; which variables exist | closed form maps each symbol to its documented triple |
| C05 | lengths of `g, lbg, ubg`; `ind_comp` marks exactly the complementarity rows | invariant over the issued calls |
| C06 | construction returns iff the data are consistent | both directions through every check of the constructor |
| C07 | GLOBAL branch of `__create_primal_variables` | violated for all models: `add_variables` does not exist; LOCAL proved |
| C08 | `setup_p_val` vs. the symbolic `p` | list equality by system; violated for Step with several systems |
| C09 | setters of parameters over histories | refinement to an abstract record of parameters, induction over histories |
| C10, C11, C12, C13, C14 | step boxes, grid constraints, horizon, time freezing | consequences of C83; sums by induction; C12 violated for one non-equidistant stage |
| C15, C16, C19 | numpy polynomial routines, B, C, D coefficients | refinement to Mathlib `Polynomial`, uniqueness of interpolation, integrals |
| C17, C18, C28, C29 | `forward_simulation`, `X_fe`, `rk_stage_z` | binding lemmas + C83; C18 both directions by constructing the other point; C29 violated on the last element of a stage |
| C20 | the literal tables; weights with INTEGRAL (`C20_weights`) | kernel evaluation of rational inequalities over the whole (finite) table; a quadrature rule exact to degree 2n-2 has weights equal to integrals of squares; the matrix times an approximate inverse is near the identity, so it is regular (`C20_regular`) |
| C21 | running cost | weights sum; violated for INTEGRAL if `B_0 ≠ 0` |
| C22 | `rk4`, `rk4_on_timegrid` | induction over grids |
| C23, C24, C25 | Stewart and Step representation at a stage | real algebra over arbitrary sign matrices; C23 violated for matrices with zeros |
| C26 | `compute_lambda00` | minimum property |
| C27 | `add_smooth_step_representation` | folds in closed form; weights by induction over switching functions |
| C30, C31 | `create_complementarity`, all modes | case analysis, each mode against `Spec/Mpcc.lean` |
| C32, C33, C34 | cross complementarity, `comp_res` | sums of nonnegative products; violated where the multipliers are free in sign |
| C35, C36, C37, C38 | path complementarities, path and terminal constraints | C83 and its parts; C35, C37 violated as noted in the manifest |
| C39, C40, C41, C42 | `step_equilibration`, all modes | closed form of rows and costs; C41 violated |
| C43, C44, C45 | elastic slack, LEAST_SQUARES, objective | closed form of the cost |
| C46, C47, C48 | homotopy loop and parameters | induction over iterations; logarithms for C48 |
| C49, C50, C51 | results dictionary of `solve` | run lemma (`solve_run`); C50, C51 violated as noted |
| C52, C53, C54 | warm start, stored problem, initialisation | run lemma, frame lemmas |
| C55 | `set` of guesses | frame lemmas over fancy-index assignment |
| C56 | `fix_active_set_fe0` | exact set of fixed entries; no solution lost with FESD; violated without |
| C57 | `polish_solution` | run lemma of the polishing call; violated with speed-of-time variables |
| C58, C59, C60, C61 | `get_results_from_primal_vector` | list lemmas over nested indices |
| C62, C63, C64, C65, C79 | `NosnocSimLooper` | induction over steps |
| C66 | options preprocessing | idempotence by cases |
| C67, C68, C71, C80, C81 | shared dictionary, reuse of objects | world model, invariants over histories of operations |
| C69 | `validate` | table of annotations against classes of values |
| C70, C72 | model/ocp validation | both directions through the checks |
| C73–C77, C82 | `NosnocAutoModel` | structural induction over expression trees; state-passing model of the accumulating lists |
| C78 | nested lists | structural induction |
| C83 | whole problem constructor | feasible ⇔ `FeasibleSpec`, both directions |
| C84 | only declared symbols occur | induction over the issued calls |
| C85, C86 | exact feasible points with FESD | from C23, C32, C83; C86 violated for Gauss with COMPLEMENT_ALL |
| C87 | `solve` with an NLP solver that is honest about feasibility | from C52, C57, C83, C08 |
| C88 | `print` | exact characterisation of the flags; violated for guesses above the bound |
| C89 | `dump` | C83 at σ = τ = 0 (all MPCC modes); violated in Step mode with several systems (`C89_step_several_systems_violated`) |
| C90 | RK4_SMOOTHENED branch of `initialize` | closed form of the writes; violated for INTEGRAL, DIFFERENTIAL (n_s ≥ 2), Gauss |
| C91 | `compute_lambda00`, `initialize` and `solve` with and without `rootfinder_for_initial_z` (`Model/Root.lean`; root finder = oracle whose answers are zeros of the residual) | uniqueness of the multipliers; violated without the option: NLP infeasible for a model with `z` and no guess |
| C92 | Filippov set of the user's system and piecewise constant systems (`Spec/Filippov.lean`); no new model | every element is one straight segment with averaged convex multipliers (C17, C85); segments glued to a polygon; derivative by calculus.  `W` = sum of the scheme's weights is a factor: 1 for INTEGRAL, within 1e-11 of 1 for the tables (`C92_weights`) |
| C93 | polygonal solutions as data (`Spec/Path.lean`) | explicit point of the NLP (stage states on the segment, multipliers `g - min g`); all constraints of `FeasibleSpec` checked, then C83.  Needs a scheme whose last stage is the end point |
| C94 | no new model; witness with `c = p` | `C94_old_parameters`: what FESD demands at a stage boundary; violated: infeasible for `σ < 1` with FESD, feasible for `σ = 0` without; the positive part is C93 (`closedOld`) |
| C95 | same trajectory (`Spec/SamePath.lean`: equal values of all symbols except the multipliers) | Step to Stewart: `θ = regionWeight α`, `λ` from `λᵖ, λⁿ`, every constraint of `FeasibleSpec` transferred; Stewart to Step: `α` from the product form, `λᵖ, λⁿ` the parts of `c`; `C95_violated`: sliding along a corner; `C95_filippov_step_partial`: C93 for Step mode.  Step equilibration by constraints and FISCHER_BURMEISTER_IP_AUG excluded |
| C96 | same point with another homotopy parameter (`Spec/Relax.lean`: `withSigma`) | `FeasibleSpec` does not mention σ except in the relations of the pairs, which are monotone in σ for the inequality modes and BOOLEAN (`_partial`); `C96_lower_bound_partial` for the objective incl. the elastic penalty; `C96_equality_modes`, `C96_violated`: SCHOLTES_EQ and both FISCHER_BURMEISTER modes admit a point for at most one σ |
| C97 | `DeepIn`, `selConst`, `relaxTol` (`Spec/Relax.lean`); `compRes` is the modelled `comp_res` | bounds make multipliers nonnegative; products bounded by the residual (C34); gap of `-S c` between regions (Stewart), product of factors close to 1 (Step); convex combination close to one vertex; the step formula of C92 |
| C98 | `OneSwitch` (`Spec/OneSwitch.lean`): the class of models and options | explicit construction of the trajectory: follow the region of the initial state, cross or slide where the switching function vanishes (`Proofs/TwoPhase.lean`), distribute the phases over the elements, stage after stage (`Proofs/WellPosed.lean`); then C93 / C95. `C98_one_element_infeasible`: sharpness |
| C99 | the looper, solver and problem together | C87 gives an exactly feasible point of the sigma = 0 problem per step, C92 a Filippov solution per step, `glue` (`Props/ExactSim.lean`) joins them: the last state of a step is the first of the next |
| C100 | `Oracle.Complete` (`Spec/Honest.lean`) | a feasible point lies within the bounds of the last NLP call (`within_of_feasible`); C98 provides the points for simulations |
| C101 | `polish_solution` with complete NLP solvers | the last homotopy solution lies within the bounds of the polishing call (`polish_within`); for the violation, a model with the constant switching function 1e-8, whose multiplier 2e-8 is fixed to zero |
| C102 | models with renumbered regions (`UserModel.renumber`) and the renamed points (`renumberEnv`), both in Spec/Renumber | acceptance through the closed form of C70, feasibility and objective through `FeasibleSpec` and `objectiveSpec`: sums over regions are invariant under permutations, products over pairs by permutation of the list of pairs; the converse by applying the inverse renumbering |
| C103 | two models that differ in `c`, `S`, `g_Stewart` only (`SameRegions`), and rescaled models (`UserModel.rescale`), both in Spec/Regions | new multipliers are computed from the other model's switching functions at every stage; complementarity carries over because a multiplier vanishes exactly where its region is active; rescaling acceptance through C70, regions through dense sign matrices |
| C104 | `plot_utils.py` as the list of what is handed to matplotlib (`Model/Plot.lean`) | induction over the columns; C62 for simulations |
| C105 | `plot_iterates` up to the access of `mu_list` | violated for all problems and nonempty lists of iterates |
| C106 | `plot_colored_line_3d`, `scatter_3d` | closed form of the loops; violated when all times are equal; `C106_ragged`: fewer second coordinates than first ones raise ValueError at the first segment that cannot be drawn |
| C107 | `create_function_calculate_vector_field` with an arbitrary root finder (`Model/VectorField.lean`) | every call raises (no attribute `F_fun`); roots of the residual characterised by real algebra: the code has `lam² - theta²` where the Fischer-Burmeister function has `lam² + theta²` |
| C108 | the point behind a SUCCESS (C87) as a point of the last relaxed problem, its residual by the stopping rule of the homotopy and the automatic budget (C48), the error of an element by the residual (C97); specification `FollowsRegions` (Spec/Accuracy.lean) on the result dictionary | `C108_accuracy`, `C108_default_budget`, `C108_simulation` |
| C109 | the collocation polynomial of an element (C17) differs from the primitive of the polynomial by a constant, because both derivatives agree in the n_s points; the convex coefficients sum to one (Stewart) or the sign rows form a partition (Step), so that unswitched rows do not see them; induction over the reported trajectory; specification `UserModel.Unswitched`, `Clock`, `Integrates` (Spec/Clock.lean) | `C109_clock_element`, `C109_integral_element`, `C109_reported` |
| C110 | every stage equation system is a Runge-Kutta step with a tableau of stage order n_s (C17, C20); Taylor expansion of the solution, Lipschitz estimate of the stage errors, exponential accumulation by induction over the reported trajectory; step lengths from the variable bounds (C10, C13); specification `SmoothSolution`, `UserModel.Reference` (Spec/Converge.lean), hypotheses bundled in `SmoothRun` | `C110_convergence`, `C110_refinement` |
| C111 | within an element that begins or ends deep in a region the multipliers of all other regions are bounded by the residual over the distance (C97), so the stage slopes are those of the region's field up to kappa (eps/delta) M; perturbed Runge-Kutta estimate and the induction of C110; eps from the homotopy schedule as in C108; specification `SwitchedReference`, `Passes`, `JumpBound` (Spec/Switched.lean), hypotheses bundled in `SwitchedRun` | `C111_switched`, `C111_refinement` |
| C112 | `std_compl_res_fun` (model.py:260, 284, 297-298, 324) as a function of the stage variables; evaluated under the bindings of `zBind`; sign bounds of the variables make every product nonnegative | `C112_value`, `C112_certificate` |
| C113 | `mu00_stewart_fun` (model.py:326-327) beside `lambda00_fun`; the unique mu that fits the returned lambda is the negative of the returned value; witness with one switching function | `C113_negative_partial`, `C113_sign_violated` |
| C114 | every call of `set` as point writes in `x0`, parameter rows or guess positions (`applyW`, `pOf`); positions of different fields are disjoint because the index lists partition the vector (C01); a call that is carried out writes all positions of its field; sequences by induction (`sets_strip`, `sets_perm`); specification `sets`, `lastSet` (Spec/History.lean) | `C114_order`, `C114_last_wins`, `C114_whole_guess`, `C114_history` |
| C115 | simulation relation `Solver.Rel`: equal up to the record of NLP calls and the guesses that every initialisation overwrites; preserved by `set`, `solve`, `solveRoot`; related objects have the same result of `solve` | `C115_earlier_solves`, `C115_last_settings_decide` |
| C116 | the elements of all steps in one sequence (C87 for simulations gives a feasible point per step, each starting where the last ended); error of one element as in C110/C111; discrete Gronwall estimate over the whole sequence, so that the constant depends on the simulated time only | `C116_smooth`, `C116_switched` |
| C117 | examples/simplest is modelled (`Model/Examples.lean`); C99 gives a continuous trajectory through the reported points that is differentiable inside every element with derivative in the Filippov set; a scalar function with these properties cannot change its sign inside an element (its one-sided slopes would differ), so induction over the grid points gives the closed form | `C117_crossing`, `C117_sliding`, `C117_leaving` |
| C118 | every element of a relaxed point begins and ends at states x, x' for which C97 bounds the distance of the slope to that of the region by tol / distance to the surface; an element that changes the region must begin or end within the tolerance of the surface, and one that does not moves far enough away from it for the error to be a multiple of tol alone; induction over the grid points (in the time coordinate of the solution for crossing, with an invariant interval around the surface for sliding) | `C118_crossing`, `C118_sliding` |
| C119 | relation `Joins` between the looper of the long simulation and that of the running part: same solver object and state, records appended; preserved by one step that is given the same row of data, hence by loops of any length; a loop of N1 + N2 steps is a loop of N1 followed by one of N2 | `C119_split`, `C119_join` |
| C120 | the first loop iteration that raises follows k complete ones and only changes the solver object; the k complete ones are those of a looper of k steps (relation `Joins` of C119 with zero rows of `cpu_nlp` left) | `C120_results_after_error`, `C120_short_guesses` |
| C121 | the multipliers of every stage sum to one (C25, without sign constraints), so the derivative of the function along every stage slope is zero; linear: the end state is the start plus a combination of the slopes (C17); quadratic, INTEGRAL: the function of the collocation polynomial has degree 2 n_s and its derivative vanishes at the Gauss points; quadratic, tables: the defect of symplecticity of every shipped Gauss table (`decide +kernel`); induction over elements and simulation steps | `C121_linear_element`, `C121_quadratic_element`, `C121_quadratic_table`, `C121_reported`, `C121_simulation` |
| C122 | every stage slope is a convex combination of the columns of F (C25), the weights and step lengths are not negative (C16, C17), so the function changes by a sum of nonpositive terms; convex: the tangent at the end of the element lies below the function; induction over elements and simulation steps | `C122_linear_element`, `C122_convex_element`, `C122_reported`, `C122_simulation` |
| C123 | polished points satisfy the complementarities exactly (C30, C99); implicit Euler: the slope is in the Filippov set at the end of the element, whose tangent lies below the function; piecewise constant models: the slope is in the Filippov set over the whole element (C93, C98), so the function does not increase along the segment; induction over elements and simulation steps | `C123_element`, `C123_reported`, `C123_simulation` |
| C124 | invariant of loopers over all sequences of `run` calls (`LooperReachable`); relation `Joins` (C119) between the looper and a new one, up to the rows of `cpu_nlp` not yet written | `C124_run_again_partial`, `C124_cpu_rows_violated` |
| C125 | what each operation does to an ocp object (`step_ocps`), then induction over the history: defaults for the same dimensions are filled in (`FilledOcp`) | `C125_reuse_partial`, `C125_stored`, `C125_other_model_violated` |
| C126 | invariance of the discretised problem in the user's terms (C83 specification) under the renaming of pairs `relabelPair`; acceptance by C70, objective by C85; reverse direction by the inverse renaming | `C126_relabelling`, `C126_relabelling_boolean`, `C126_accepted_iff`, `C126_correspondence`, `C126_initial_multipliers` |
| C127 | the discretised problem in the user's terms (C83) is local in the stages: windows of feasible points are feasible, heads and tails can be joined at the common state; the objective is a sum over stages; optimality of the tail by exchanging it in the whole point | `C127_split`, `C127_part`, `C127_tail_optimal`, `C127_tail_optimal_plain`, `C127_restart_multipliers` (cases in Props/WindowEx) |
| C128 | induction over the stages with the joining lemma of C127; the links between the steps from C62 (states), C87 (points of steps) and C127 (restarted multipliers) | `C128_chain`, `C128_simulation` (case in Props/ChainEx) |
| C129 | both results are samples of solutions of the differential inclusion (C99); Gronwall for two piecewise differentiable trajectories with one-sided Lipschitz right-hand side | `C129_stable`, `C129_unique` (case in Props/UniqueEx) |
| C130 | every representation is a Runge-Kutta step of the smooth field (as for C110); two such steps of the same length with `h A L ≤ 1/2` have stages at most `2‖x − y‖` apart and ends at most `exp(2ALh)‖x − y‖` apart (`rk_stable`); induction along the grid | `C130_stable`, `C130_unique`, `C130_no_fesd` |
| C131 | every finite element is a Runge-Kutta step with one weight per stage; by cross complementarity a weight on the first (second) region puts both ends on its side (`CrossRun.steps`, `SwitchSteps`); up to the first element of positive length that uses the second region the states follow the first vector field (`SwitchSteps.segment`), so this element starts at a time within `C err` of `ts`; from a state on the surface every weighted step leads to the second side (`SwitchSteps.leaves`), so no later element uses the first region, and the states follow the second vector field | `C131_crossing` |
| C132 | forward: write down all variables of the point belonging to a trajectory (`Traj.env`; multipliers `g_i - min g`) and check the constraints of C64 one by one; conversely read the trajectory off the point (`trajOf`), C17 gives the steps, cross complementarity and the switching equations at all Runge-Kutta points the regions; for chains an NLP solver that answers with the prescribed point whenever it is a solution | `C132_no_trajectory_lost`, `C132_exact_point_is_trajectory`, `C132_simulated` |
| C133 | examples/oscillator is modelled (`Model/Oscillator.lean`); its flow on both sides is a spiral in closed form (`oscSol`), the circle is crossed transversally at time 1, so C131 applies with explicit Lipschitz constants | `C133_oscillator` |
| C134 | as C131, with weights that are only nearly 0 or 1 (`NearSteps`): before the first mixed element the error estimate of C128 with a perturbation `√tol`, then every element raises the switching function (`NearSteps.rise`) until the state is `√tol` behind the surface, then the estimate again (`NearSteps.crosses`); the weights come from C97, the residual from the homotopy budget | `C134_crossing` |
| C135 | `byIndicators` replaces `S`, `c` by the list a user would write; the preprocessed model differs only in `n_c_sys`, which nothing built in Stewart mode reads (`build_setC`); `set`, `solve` and the looper commute with that change (induction over homotopy, polishing, call sequence and simulation steps) | `C135_problem`, `C135_calls`, `C135_simulation`, `C135_rk4`, `C135_oscillator` |
| C136 | C134 with the crossing of C133: the two vector fields differ by at most 48 along the spirals; witnesses: an NLP solver answering with the points of a chain of discrete trajectories (C132 without polishing), for all tolerances and numbers of steps; the shipped options are of the kind considered (`shipped_nearOpts`) | `C136_oscillator` |
| C137 | explicit point of the NLP of a discrete trajectory with values of step functions (positive and negative parts of the switching functions as multipliers); conversely the states and the products of the values read off an exact point; one switching function per subsystem: the weight of the region with sign + is the value of the step function; simulations: wish oracle as in C132. Examples: the sliding trajectory and the oscillator in Step mode | `C137_no_trajectory_lost`, `C137_exact_point_is_trajectory`, `C137_one_switch`, `C137_simulated` |
| C138 | induction on the crossings: the crossing lemma of C131/C134 is applied with time counted from a point between two crossings; there the reported states are on the right side, and the error is that of the crossing before; constants only grow, by a power of the constant of one crossing. Example: a system with two crossings, simulated with and without polishing with any number of steps (runs exist by C132) | `C138_crossings`, `C138_crossings_unpolished` |
| C139 | The collocation steps of the NLP solution are one-sided or on the surface in all stages (cross complementarity). A step that reaches the surface in its last stage is followed only by sliding steps, because both fields point to the surface: a step with one weight would leave towards the other side, against its own sign condition. On a sliding step all stages lie on the surface; the Runge-Kutta matrix is regular (collocation: by the degree of the polynomial; Butcher tables: `C20_regular`), so the normal component of every stage slope vanishes, which determines the weights, and the step is a collocation step of the sliding field. Two smooth convergence theorems (C126) are joined at the entry. Affine surface; all representations | `C139_sliding` |
| C140 | one-step trajectories with constant weights (1, b/(b-a), 0) are discrete trajectories; by C132 there is an exact NLP solver that returns them in every step; the claim of the title without its first clause is refuted by the runs to the left and to the right. Where the right-hand side is one-sided Lipschitz the results are determined (C129) | `C140_all_returned`, `C140_determined_violated` |
| C141 | C138 and C139 combined: the induction over the crossings gives error and side at the first grid point after the last midpoint; from there the steps enter the sliding mode (`SwitchSteps.slidesAt`) | `C141_crossings_sliding`; a system with two states that crosses at time 1 and slides from time 3 on meets the hypotheses with any number of steps |

## 6. Findings: where the code does not do what a user relies on

All of these are theorems (`_violated`), with the cause in the source:

1. C07 `SpeedOfTimeVariableMode.GLOBAL` cannot be used: `add_variables` does not exist.
2. C08 Step mode with several systems: numeric and symbolic initial multipliers have different order.
3. C12 one control stage without equidistant grid: the horizon is not fixed to `terminal_time`.
4. C18, C21 state bounds are not imposed at the stages with DIFFERENTIAL; INTEGRAL drops the weight of the element start in the running cost.
5. C23 sign matrices with zeros: wrong region can be selected.
6. C29 the last element of a stage has no multipliers of its own at its end; C86, C33 consequences for Gauss.
7. C31 BOOLEAN leaves the binaries continuous; C32, C34 multipliers free in sign with some modes.
8. C35 control complementarities are dropped when a stage has other than `N_finite_elements` elements.
9. C37 `g_path_at_stg` skips the last stage of non-final elements.
10. C41 DIRECT_COMPLEMENTARITY is one-sided with SCHOLTES_INEQ, HEURISTIC_DELTA_H_COMP vacuous or infeasible.
11. C44 LEAST_SQUARES squares an inequality with lower bound 0.
12. C50 the reported cost is an absolute value, and after polishing that of the unpolished solution.
13. C51 SUCCESS although the complementarity residual is above the tolerance.  With ELASTIC_INEQ this
    happens for every exact and complete NLP solver on an optimal control problem without solution
    (`C51_unsolvable_violated`).
14. C55 `set('theta', …)` with several systems; C56 fixing the active set without FESD loses solutions;
    C57 polishing raises with speed-of-time variables and fixes negative multipliers.
15. C60 switch times are taken from the wrong grid; C61 extraction fails for ragged systems and long `Nfe_list`.
16. C63 `stop_on_failure` never stops.
17. C67, C80 one tolerance dictionary for all options objects; C68, C71 defaults stick; C81 solvers share models.
18. C76, C77, C82 auto model: products, several switching functions, parameters, controls, second call.
19. C88 `print` never reports a guess above its upper bound (compares `ubw > ubw`).
20. C90 RK4_SMOOTHENED writes shifted guesses with INTEGRAL and raises with DIFFERENTIAL and Gauss.
21. C91 without `rootfinder_for_initial_z` (the default) the initial multipliers are computed at the guess `z0` (default 0), which need not satisfy `g_z`; a solvable problem becomes infeasible for small σ.
22. C94 with FESD the first element of a control stage must also be in a region of the *previous* parameters: when a time-varying parameter of a switching function jumps and changes the mode, the problem is infeasible for small σ.
23. C95 where two switching surfaces of one subsystem intersect, Step mode only has the Filippov velocities whose coefficients are products; a solution of Stewart mode can be lost by changing `pss_mode` (inherent in the representation, but not documented).
24. C96 with SCHOLTES_EQ and the FISCHER_BURMEISTER modes an exact solution is infeasible for every positive homotopy parameter: with `sigma_N > 0` the solver cannot return it.
25. C101 polishing turns success into failure: with the default options and a model whose only switching function is the constant 1e-8, every complete NLP solver makes `solve` succeed without polishing, and every exact and complete NLP solver makes it report INFEASIBLE with polishing (`C101_polishing_violated`).
26. C105 `plot_iterates` raises `KeyError` for every problem: it reads `results['mu_list']`, whose creation is commented out in `get_results_from_primal_vector`.
27. C106 `plot_colored_line_3d` divides by zero when all times are equal (`ZeroDivisionError` for Python floats, NaN colours for numpy).
28. C107 `create_function_calculate_vector_field` returns a function that raises on every call (`model.F_fun` does not exist); moreover the sign of `theta²` in its equations is wrong, so that the coefficients of a region's interior are no root.
29. (C89) `dump` writes the initial multipliers in the order of C08's finding: in Step mode with two switching systems the dumped `p0` has the multipliers of one system in the places of the other, and the dumped problem can have no solution although the discretised problem has one. Proved: `C89_step_several_systems_violated`.
30. **C113 mu00_stewart_fun has the wrong sign.** The switching equations are `g - lambda + mu = 0` (model.py:282), `lambda00 = g - min g` (model.py:285-286), hence `mu = -min g`; `mu00_stewart_fun` returns `+min g` (model.py:326). The library does not call the function; a user who initialises `mu` with it violates the switching equations unless `min g = 0`.
31. **C124 cpu_nlp is overwritten by the second run.** `run` writes row `i` of a matrix of `Nsim` rows that is created in the constructor (helpers.py:59, 82), while all other records are lists that grow. After two runs `status` has `2 Nsim` entries and `cpu_nlp` has `Nsim` rows, those of the second run. Proved: `C124_cpu_rows_violated`; everything else is extended: `C124_run_again_partial`.
32. **C125 defaults of the first model stay in the ocp object.** `preprocess_ocp` writes the default bounds into the user's object (ocp.py:96-152). An ocp whose `lbx` was left out and which was used with one model raises with every model that has another number of states, although the user never gave `lbx`. Proved: `C125_other_model_violated`; with the same dimensions there is no difference: `C125_reuse_partial`.
33. **C140 results at a spontaneous switch depend on the NLP solver.** In `get_spontaneous_switch_model` (examples/simplest/different_switch_cases.py) an exact NLP solver may return `x = -t`, `x = 0` or `x = t`, all with SUCCESS: `C140_determined_violated`, `C140_all_returned`. The driver tries to choose one by a guess, but sets `x = 1` together with the weight 1 for the region `x < 0`, which do not belong together.

Observed while reading, not stated as properties: `gamma_h > 1` allows negative steps;
`use_upper_bound_h` is not read; FISCHER_BURMEISTER_IP_AUG with FESD and SUM_LAMBDAS always raises
(part of C06); an `int` is rejected where a `float` option is expected while a `bool` passes for an `int` (C69);
`examples/simplest/parametric_example.py` passes `p=` and `p_val=` to `NosnocModel`, which has no such
parameters, so it raises TypeError before anything is solved (it is not modelled); `main_polishing` in
`examples/oscillator/oscillator_example.py` passes `do_plots=` to `solve_oscillator`, whose parameter is `do_plot`, so it
raises TypeError as well.

## 7. Testing the theorems against wrong programs

`seeded/LOG.jsonl` has one line per attempt: a realistic bug is put into a scratch copy of the model,
everything is rebuilt, and the failing declarations are recorded.  A model edit usually already breaks
the closed-form lemma of the edited function (`direct`), which blocks the property theorems that depend on
it (`blocked`).  Breaking a helper lemma alone would not show that the *statement* of a property notices
the bug, so each line also names the claim that becomes false and the theorems that state it; the edits
that a statement did not notice are recorded with the theorem that was tightened or added.
