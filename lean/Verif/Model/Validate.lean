import Verif.Model.Opts
/-
Model of the type check of options: nosnoc/utils.py `validate` and its use in
nosnoc/nosnoc_opts.py `NosnocOpts.preprocess`.  Here an options object is what Python sees: a map
from attribute names to arbitrary Python values.
-/
namespace Nosnoc

/-- Python classes that occur in the annotations of nosnoc_opts.py:20-118 (the enumerations are
those of nosnoc/nosnoc_types.py). -/
inductive PyClass
  | bool | int | float | list
  | initializationStrategy | irkRepresentation | irkSchemes | crossComplementarityMode | mpccMode
  | constraintHandling | pssMode | homotopyUpdateRule | stepEquilibrationMode
  | speedOfTimeVariableMode
  deriving DecidableEq

/-- Python values that a user may assign to an option.  `npFloat` is `np.float64` (a subclass of
`float`); `npInt` stands for `np.int64` and friends (not subclasses of `int`).  `inst` is an
object of any other class: `bases` are the annotated classes its class derives from (`None`,
strings, arrays: none of them; an `IntEnum` member: `int`) and `mul` says whether `value * 1e-2`
is defined for it. -/
inductive OptVal
  | bool (b : Bool)
  | int (i : Int)
  | float (x : ℝ)
  | npFloat (x : ℝ)
  | npInt (i : Int)
  | list (l : List OptVal)
  | init (v : InitStrategy)
  | rep (v : IrkRep)
  | scheme (v : IrkScheme)
  | cross (v : CrossCompMode)
  | mpcc (v : MpccMode)
  | handling (v : ConstraintHandling)
  | pss (v : PssMode)
  | rule (v : HomotopyRule)
  | stepEq (v : StepEqMode)
  | sot (v : SotMode)
  | inst (bases : List PyClass) (mul : Bool)

/-- `isinstance(value, cls)` (utils.py:17, 22, 26). -/
def OptVal.isinstance : OptVal → PyClass → Bool
  | .bool _, c => c = .bool ∨ c = .int
  | .int _, c => c = .int
  | .float _, c => c = .float
  | .npFloat _, c => c = .float
  | .npInt _, _ => false
  | .list _, c => c = .list
  | .init _, c => c = .initializationStrategy
  | .rep _, c => c = .irkRepresentation
  | .scheme _, c => c = .irkSchemes
  | .cross _, c => c = .crossComplementarityMode
  | .mpcc _, c => c = .mpccMode
  | .handling _, c => c = .constraintHandling
  | .pss _, c => c = .pssMode
  | .rule _, c => c = .homotopyUpdateRule
  | .stepEq _, c => c = .stepEquilibrationMode
  | .sot _, c => c = .speedOfTimeVariableMode
  | .inst bases _, c => c ∈ bases

/-- A type annotation: `Union[...]` or a class.  (`get_origin(list)` is `None`, so that the branch
of utils.py:21-25 is never taken: `list` is an ordinary class.) -/
inductive Annot
  | union (cs : List PyClass)
  | cls (c : PyClass)

/-- utils.py:17-29: does the value match the annotation. -/
def Annot.accepts (v : OptVal) : Annot → Bool
  | .union cs => cs.any v.isinstance
  | .cls c => v.isinstance c

/-- `NosnocOpts.__annotations__`, nosnoc_opts.py:20-118, in order.  Attributes without annotation
(`opts_casadi_nlp`, `tol_ipopt`, `nlp_max_iter`) are not in it. -/
def annotations : List (String × Annot) :=
  [("terminal_time", .union [.float, .int]),
   ("use_fesd", .cls .bool),
   ("print_level", .cls .int),
   ("max_iter_homotopy", .cls .int),
   ("initialization_strategy", .cls .initializationStrategy),
   ("irk_representation", .cls .irkRepresentation),
   ("n_s", .cls .int),
   ("irk_scheme", .cls .irkSchemes),
   ("cross_comp_mode", .cls .crossComplementarityMode),
   ("mpcc_mode", .cls .mpccMode),
   ("constraint_handling", .cls .constraintHandling),
   ("pss_mode", .cls .pssMode),
   ("use_upper_bound_h", .cls .bool),
   ("gamma_h", .cls .float),
   ("smoothing_parameter", .cls .float),
   ("fix_active_set_fe0", .cls .bool),
   ("N_finite_elements", .cls .int),
   ("Nfe_list", .cls .list),
   ("comp_tol", .cls .float),
   ("sigma_0", .cls .float),
   ("sigma_N", .cls .float),
   ("homotopy_update_slope", .cls .float),
   ("homotopy_update_exponent", .cls .float),
   ("homotopy_update_rule", .cls .homotopyUpdateRule),
   ("step_equilibration", .cls .stepEquilibrationMode),
   ("step_equilibration_sigma", .cls .float),
   ("rho_h", .cls .float),
   ("fb_ip_aug1_weight", .cls .float),
   ("fb_ip_aug2_weight", .cls .float),
   ("do_polishing_step", .cls .bool),
   ("N_stages", .cls .int),
   ("equidistant_control_grid", .cls .bool),
   ("g_path_at_fe", .cls .bool),
   ("g_path_at_stg", .cls .bool),
   ("s_elastic_0", .cls .float),
   ("s_elastic_max", .cls .float),
   ("s_elastic_min", .cls .float),
   ("objective_scaling_direct", .cls .bool),
   ("time_freezing", .cls .bool),
   ("time_freezing_tolerance", .cls .float),
   ("speed_of_time_variables", .cls .speedOfTimeVariableMode),
   ("speed_of_time_min", .cls .float),
   ("speed_of_time_max", .cls .float),
   ("rootfinder_for_initial_z", .cls .bool)]

/-- The options object: attribute values by name, and whether `tol_ipopt` is `None`. -/
structure PyOpts where
  attr : String → OptVal
  tolUnset : Bool

/-- nosnoc/utils.py:13-30 `validate`: the loop over the annotations stops at the first mismatch. -/
def validateLoop (attr : String → OptVal) : List (String × Annot) → Except PyErr Unit
  | [] => .ok ()
  | (a, t) :: rest => if t.accepts (attr a) then validateLoop attr rest else .error .typeError

def validate (p : PyOpts) : Except PyErr Unit := validateLoop p.attr annotations

/-- Whether `value * 1e-2` (nosnoc_opts.py:137) is defined: numbers yes, lists and enumeration
members no (TypeError); a class derived from `float` or `int` inherits the multiplication. -/
def OptVal.timesFloat : OptVal → Bool
  | .bool _ | .int _ | .float _ | .npFloat _ | .npInt _ => true
  | .inst bases m => m || bases.contains .float || bases.contains .int
  | _ => false

/-! Reading typed values.  The defaults are used only on values of another class. -/

def OptVal.asBool : OptVal → Bool
  | .bool b => b
  | _ => false

def OptVal.asInt : OptVal → Int
  | .bool b => if b then 1 else 0
  | .int i => i
  | _ => 0

noncomputable def OptVal.asReal : OptVal → ℝ
  | .bool b => if b then 1 else 0
  | .int i => i
  | .float x => x
  | .npFloat x => x
  | _ => 0

/-- The entries of `Nfe_list` (not checked by `validate`). -/
def OptVal.asNats : OptVal → List Nat
  | .list l => l.map fun v => v.asInt.toNat
  | _ => []

/-- The options as the rest of `preprocess` sees them.  Negative `N_stages` and
`N_finite_elements` behave as 0 (`N * [..]`, `range`). -/
noncomputable def PyOpts.decode (p : PyOpts) : Opts where
  terminalTime := (p.attr "terminal_time").asReal
  useFesd := (p.attr "use_fesd").asBool
  maxIterHomotopy := (p.attr "max_iter_homotopy").asInt.natAbs
  initStrategy := match p.attr "initialization_strategy" with | .init v => v | _ => .allXcurrentW0Start
  irkRep := match p.attr "irk_representation" with | .rep v => v | _ => .integral
  nS := (p.attr "n_s").asInt.toNat
  scheme := match p.attr "irk_scheme" with | .scheme v => v | _ => .radauIIA
  crossComp := match p.attr "cross_comp_mode" with | .cross v => v | _ => .sumLambdas
  mpcc := match p.attr "mpcc_mode" with | .mpcc v => v | _ => .scholtesIneq
  constraintHandling := match p.attr "constraint_handling" with | .handling v => v | _ => .exact
  pss := match p.attr "pss_mode" with | .pss v => v | _ => .stewart
  gammaH := (p.attr "gamma_h").asReal
  smoothing := (p.attr "smoothing_parameter").asReal
  fixActiveSetFe0 := (p.attr "fix_active_set_fe0").asBool
  nFe := (p.attr "N_finite_elements").asInt.toNat
  nfeList := (p.attr "Nfe_list").asNats
  compTol := (p.attr "comp_tol").asReal
  sigma0 := (p.attr "sigma_0").asReal
  sigmaN := (p.attr "sigma_N").asReal
  slope := (p.attr "homotopy_update_slope").asReal
  exponent := (p.attr "homotopy_update_exponent").asReal
  rule := match p.attr "homotopy_update_rule" with | .rule v => v | _ => .linear
  stepEq := match p.attr "step_equilibration" with | .stepEq v => v | _ => .heuristicDelta
  stepEqSigma := (p.attr "step_equilibration_sigma").asReal
  rhoH := (p.attr "rho_h").asReal
  fbAug1 := (p.attr "fb_ip_aug1_weight").asReal
  fbAug2 := (p.attr "fb_ip_aug2_weight").asReal
  polish := (p.attr "do_polishing_step").asBool
  nStages := (p.attr "N_stages").asInt.toNat
  equidistant := (p.attr "equidistant_control_grid").asBool
  gPathAtFe := (p.attr "g_path_at_fe").asBool
  gPathAtStg := (p.attr "g_path_at_stg").asBool
  sElastic0 := (p.attr "s_elastic_0").asReal
  sElasticMax := (p.attr "s_elastic_max").asReal
  sElasticMin := (p.attr "s_elastic_min").asReal
  objScalingDirect := (p.attr "objective_scaling_direct").asBool
  timeFreezing := (p.attr "time_freezing").asBool
  timeFreezingTol := (p.attr "time_freezing_tolerance").asReal
  sot := match p.attr "speed_of_time_variables" with | .sot v => v | _ => .none
  sotMin := (p.attr "speed_of_time_min").asReal
  sotMax := (p.attr "speed_of_time_max").asReal

/-- nosnoc_opts.py:133-189 `preprocess()` on Python values: the default of `tol_ipopt` (136-137),
the type check (139), then the rest as in `Opts.preprocess`.  The rest is modelled for
nonnegative integers; with a negative `n_s` CasADi or the table lookup raises, and a negative
`max_iter_homotopy` is kept (`decode` keeps its absolute value instead; no exception depends on
it). -/
noncomputable def PyOpts.preprocess (colloc : IrkScheme → Nat → List ℝ) (p : PyOpts) :
    Except PyErr PreOpts := do
  if p.tolUnset then
    if ¬ (p.attr "comp_tol").timesFloat then .error .typeError
  validate p
  if (p.attr "n_s").asInt < 0 then .error .casadi
  p.decode.preprocess colloc

end Nosnoc
