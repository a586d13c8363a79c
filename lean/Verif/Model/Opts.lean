import Mathlib.Analysis.SpecialFunctions.Log.Basic
import Mathlib.Algebra.Order.Round
import Verif.Model.Rk
/-
Model of nosnoc/nosnoc_opts.py: options and their preprocessing.
-/
namespace Nosnoc

/-- nosnoc/nosnoc_opts.py:17-118 `NosnocOpts`: the user options that influence the modelled code.
Integers are nonnegative (`Nat`); floats are reals.  `print_level`, `use_upper_bound_h` (never
read) and the IPOPT dictionary (see `Verif/Model/World.lean`) are left out. -/
structure Opts where
  terminalTime : ℝ
  useFesd : Bool
  maxIterHomotopy : Nat
  initStrategy : InitStrategy
  irkRep : IrkRep
  nS : Nat
  scheme : IrkScheme
  crossComp : CrossCompMode
  mpcc : MpccMode
  constraintHandling : ConstraintHandling
  pss : PssMode
  gammaH : ℝ
  smoothing : ℝ
  fixActiveSetFe0 : Bool
  nFe : Nat
  nfeList : List Nat
  compTol : ℝ
  sigma0 : ℝ
  sigmaN : ℝ
  slope : ℝ
  exponent : ℝ
  rule : HomotopyRule
  stepEq : StepEqMode
  stepEqSigma : ℝ
  rhoH : ℝ
  fbAug1 : ℝ
  fbAug2 : ℝ
  polish : Bool
  nStages : Nat
  equidistant : Bool
  gPathAtFe : Bool
  gPathAtStg : Bool
  sElastic0 : ℝ
  sElasticMax : ℝ
  sElasticMin : ℝ
  objScalingDirect : Bool
  timeFreezing : Bool
  timeFreezingTol : ℝ
  sot : SotMode
  sotMin : ℝ
  sotMax : ℝ

/-- The default values, nosnoc_opts.py:20-118. -/
noncomputable def Opts.default : Opts where
  terminalTime := 1
  useFesd := true
  maxIterHomotopy := 0
  initStrategy := .allXcurrentW0Start
  irkRep := .integral
  nS := 2
  scheme := .radauIIA
  crossComp := .sumLambdas
  mpcc := .scholtesIneq
  constraintHandling := .exact
  pss := .stewart
  gammaH := 1
  smoothing := 10
  fixActiveSetFe0 := false
  nFe := 2
  nfeList := []
  compTol := 1 / 10 ^ 8
  sigma0 := 1
  sigmaN := 1 / 10 ^ 8
  slope := 1 / 10
  exponent := 3 / 2
  rule := .linear
  stepEq := .heuristicDelta
  stepEqSigma := 1 / 10
  rhoH := 1
  fbAug1 := 1
  fbAug2 := 1 / 10
  polish := false
  nStages := 1
  equidistant := true
  gPathAtFe := false
  gPathAtStg := false
  sElastic0 := 1
  sElasticMax := 10
  sElasticMin := 0
  objScalingDirect := true
  timeFreezing := false
  timeFreezingTol := 1 / 10 ^ 3
  sot := .none
  sotMin := 1
  sotMax := 25

/-- Options after `preprocess()`: the (mutated) fields plus the attributes it sets.
Depending on the representation either `aIrk, bIrk` or `BIrk, CIrk, DIrk` are set
(nosnoc_opts.py:154-164); the others are 0 here and never read. -/
structure PreOpts extends Opts where
  aIrk : Nat → Nat → ℝ
  bIrk : Nat → ℝ
  BIrk : Nat → ℝ
  CIrk : Nat → Nat → ℝ
  DIrk : Nat → ℝ
  timePts : List ℝ
  /-- `right_boundary_point_explicit` -/
  rbe : Bool

/-- `np.round` to an integer: nearest, halves to even. -/
noncomputable def npRound (x : ℝ) : Int :=
  if Int.fract x = 1 / 2 then
    (if Even ⌊x⌋ then ⌊x⌋ else ⌊x⌋ + 1)
  else round x

/-- nosnoc_opts.py:147-148: the automatic value of `max_iter_homotopy`.  Logarithms of
non-positive numbers and the division by `log 1` give nan/inf, on which `int(...)` raises (for
`slope = 0` the quotient by `-inf` is 0, as here, where `Real.log 0 = 0` and `x / 0 = 0`). -/
noncomputable def autoMaxIter (o : Opts) : Except PyErr Nat :=
  if 0 < o.compTol / o.sigma0 ∧ 0 ≤ o.slope ∧ o.slope ≠ 1 then
    .ok ((npRound |Real.log (o.compTol / o.sigma0) / Real.log o.slope|).toNat + 1)
  else .error .valueError

/-- nosnoc_opts.py:147-148: `max_iter_homotopy` after preprocessing. -/
noncomputable def Opts.maxIter (o : Opts) : Except PyErr Nat :=
  if o.maxIterHomotopy = 0 then autoMaxIter o else .ok o.maxIterHomotopy

/-- nosnoc_opts.py:150-151: `Nfe_list` after preprocessing. -/
def Opts.nfeAfter (o : Opts) : List Nat :=
  if o.nfeList.length = 0 then List.replicate o.nStages o.nFe else o.nfeList

/-- A matrix literal as a function (reads are within the shape, see C20). -/
def matFun (m : List (List ℚ)) : Nat → Nat → ℝ := fun i j => (((m.getD i []).getD j 0 : ℚ) : ℝ)
def vecFun (v : List ℚ) : Nat → ℝ := fun i => ((v.getD i 0 : ℚ) : ℝ)

/-- nosnoc_opts.py:133-189 `preprocess`, except for `tol_ipopt` (136-137) and `validate` (139),
which are modelled separately.  `colloc s n` is `ca.collocation_points(n, s)`.
`irk_time_points[-1]` of an empty array raises IndexError. -/
noncomputable def Opts.preprocess (colloc : IrkScheme → Nat → List ℝ) (o : Opts) :
    Except PyErr PreOpts := do
  -- 147-148
  let maxIter ← o.maxIter
  -- 150-151
  let o' := { o with maxIterHomotopy := maxIter, nfeList := o.nfeAfter }
  -- 154-166
  let pre : PreOpts ← match o'.irkRep with
    | .integral =>
        let t := generateButcherIntegral (colloc o'.scheme o'.nS)
        .ok { o' with aIrk := fun _ _ => 0, bIrk := fun _ => 0, BIrk := t.B, CIrk := t.C,
                      DIrk := t.D, timePts := t.tau, rbe := false }
    | _ => do
        let t ← generateButcher o'.nS o'.scheme
        .ok { o' with aIrk := matFun t.A, bIrk := vecFun t.b, BIrk := fun _ => 0,
                      CIrk := fun _ _ => 0, DIrk := fun _ => 0,
                      timePts := t.c.map (fun q : ℚ => (q : ℝ)), rbe := false }
  -- 167-170
  match pre.timePts.getLast? with
  | none => .error .indexError
  | some t =>
      .ok { pre with rbe := decide (|t - 1| < 1 / 10 ^ 9) }

end Nosnoc
