import Verif.Model.Validate
/-
Specification for option type validation (C69): which values are instances of which classes, and
which types the options are documented to have, grouped by type.
-/
namespace Nosnoc.Spec
open Nosnoc

/-- The class of a Python value, subclasses included: `True` and `False` are ints, ints are not
floats, `np.float64` numbers are floats, numpy integers are not ints. -/
inductive InstanceOf : OptVal → PyClass → Prop
  | boolBool (b) : InstanceOf (.bool b) .bool
  | boolInt (b) : InstanceOf (.bool b) .int
  | int (i) : InstanceOf (.int i) .int
  | float (x) : InstanceOf (.float x) .float
  | npFloat (x) : InstanceOf (.npFloat x) .float
  | list (l) : InstanceOf (.list l) .list
  | init (v) : InstanceOf (.init v) .initializationStrategy
  | rep (v) : InstanceOf (.rep v) .irkRepresentation
  | scheme (v) : InstanceOf (.scheme v) .irkSchemes
  | cross (v) : InstanceOf (.cross v) .crossComplementarityMode
  | mpcc (v) : InstanceOf (.mpcc v) .mpccMode
  | handling (v) : InstanceOf (.handling v) .constraintHandling
  | pss (v) : InstanceOf (.pss v) .pssMode
  | rule (v) : InstanceOf (.rule v) .homotopyUpdateRule
  | stepEq (v) : InstanceOf (.stepEq v) .stepEquilibrationMode
  | sot (v) : InstanceOf (.sot v) .speedOfTimeVariableMode
  | derived (bases m c) (h : c ∈ bases) : InstanceOf (.inst bases m) c

/-- Every option has a value of its type. -/
structure WellTyped (attr : String → OptVal) : Prop where
  time : InstanceOf (attr "terminal_time") .float ∨ InstanceOf (attr "terminal_time") .int
  bools : ∀ a ∈ ["use_fesd", "use_upper_bound_h", "fix_active_set_fe0", "do_polishing_step",
      "equidistant_control_grid", "g_path_at_fe", "g_path_at_stg", "objective_scaling_direct",
      "time_freezing", "rootfinder_for_initial_z"], InstanceOf (attr a) .bool
  ints : ∀ a ∈ ["print_level", "max_iter_homotopy", "n_s", "N_finite_elements", "N_stages"],
      InstanceOf (attr a) .int
  floats : ∀ a ∈ ["gamma_h", "smoothing_parameter", "comp_tol", "sigma_0", "sigma_N",
      "homotopy_update_slope", "homotopy_update_exponent", "step_equilibration_sigma", "rho_h",
      "fb_ip_aug1_weight", "fb_ip_aug2_weight", "s_elastic_0", "s_elastic_max", "s_elastic_min",
      "time_freezing_tolerance", "speed_of_time_min", "speed_of_time_max"],
      InstanceOf (attr a) .float
  list : InstanceOf (attr "Nfe_list") .list
  init : InstanceOf (attr "initialization_strategy") .initializationStrategy
  rep : InstanceOf (attr "irk_representation") .irkRepresentation
  scheme : InstanceOf (attr "irk_scheme") .irkSchemes
  cross : InstanceOf (attr "cross_comp_mode") .crossComplementarityMode
  mpcc : InstanceOf (attr "mpcc_mode") .mpccMode
  handling : InstanceOf (attr "constraint_handling") .constraintHandling
  pss : InstanceOf (attr "pss_mode") .pssMode
  rule : InstanceOf (attr "homotopy_update_rule") .homotopyUpdateRule
  stepEq : InstanceOf (attr "step_equilibration") .stepEquilibrationMode
  sot : InstanceOf (attr "speed_of_time_variables") .speedOfTimeVariableMode

/-- The Python object with the values of `o`; the two options that the rest of the model leaves
out have values `pl` and `ub`, and `tol_ipopt` is unset or not. -/
noncomputable def toPython (o : Opts) (pl : Int) (ub : Bool) (tolUnset : Bool) : PyOpts where
  tolUnset := tolUnset
  attr := fun a => match a with
    | "terminal_time" => .float o.terminalTime
    | "use_fesd" => .bool o.useFesd
    | "print_level" => .int pl
    | "max_iter_homotopy" => .int o.maxIterHomotopy
    | "initialization_strategy" => .init o.initStrategy
    | "irk_representation" => .rep o.irkRep
    | "n_s" => .int o.nS
    | "irk_scheme" => .scheme o.scheme
    | "cross_comp_mode" => .cross o.crossComp
    | "mpcc_mode" => .mpcc o.mpcc
    | "constraint_handling" => .handling o.constraintHandling
    | "pss_mode" => .pss o.pss
    | "use_upper_bound_h" => .bool ub
    | "gamma_h" => .float o.gammaH
    | "smoothing_parameter" => .float o.smoothing
    | "fix_active_set_fe0" => .bool o.fixActiveSetFe0
    | "N_finite_elements" => .int o.nFe
    | "Nfe_list" => .list (o.nfeList.map fun n : Nat => .int n)
    | "comp_tol" => .float o.compTol
    | "sigma_0" => .float o.sigma0
    | "sigma_N" => .float o.sigmaN
    | "homotopy_update_slope" => .float o.slope
    | "homotopy_update_exponent" => .float o.exponent
    | "homotopy_update_rule" => .rule o.rule
    | "step_equilibration" => .stepEq o.stepEq
    | "step_equilibration_sigma" => .float o.stepEqSigma
    | "rho_h" => .float o.rhoH
    | "fb_ip_aug1_weight" => .float o.fbAug1
    | "fb_ip_aug2_weight" => .float o.fbAug2
    | "do_polishing_step" => .bool o.polish
    | "N_stages" => .int o.nStages
    | "equidistant_control_grid" => .bool o.equidistant
    | "g_path_at_fe" => .bool o.gPathAtFe
    | "g_path_at_stg" => .bool o.gPathAtStg
    | "s_elastic_0" => .float o.sElastic0
    | "s_elastic_max" => .float o.sElasticMax
    | "s_elastic_min" => .float o.sElasticMin
    | "objective_scaling_direct" => .bool o.objScalingDirect
    | "time_freezing" => .bool o.timeFreezing
    | "time_freezing_tolerance" => .float o.timeFreezingTol
    | "speed_of_time_variables" => .sot o.sot
    | "speed_of_time_min" => .float o.sotMin
    | "speed_of_time_max" => .float o.sotMax
    | "rootfinder_for_initial_z" => .bool false
    | _ => .inst [] false

/-- Python object `p` with attribute `a` set to `v`. -/
noncomputable def withAttr (p : PyOpts) (a : String) (v : OptVal) : PyOpts :=
  { p with attr := Function.update p.attr a v }

end Nosnoc.Spec
