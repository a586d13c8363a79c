import Verif.Spec.Feasible
/-
The objective of the generated problem in the user's terms.
-/
namespace Nosnoc

/-- Quadrature weight of Runge-Kutta stage `j`. -/
def quadWeight (o : PreOpts) (j : Nat) : ℝ :=
  if o.irkRep = .integral then o.BIrk (j + 1) else o.bIrk j

/-- Running cost over all elements: `Σ_k Σ_e Σ_j w_j h_{k,e} ṡ_k f_q(x_j, u_k, p_k, v)`. -/
noncomputable def runningCost (o : PreOpts) (d : Dims) (uo : UserOcp) (env : Env) : ℝ :=
  ∑ k ∈ Finset.range o.nStages, ∑ e ∈ Finset.range (nfe o k), ∑ j ∈ Finset.range o.nS,
    quadWeight o j * hVal o k e env * (sotVal o k env *
      uo.fq (xVal o d k e j env) (uVal d k env) (pVal d k env) (vVal d env))

/-- Difference of the steps of elements `(k, e)` and `(k, e-1)`. -/
noncomputable def stepDiff (o : PreOpts) (k e : Nat) (env : Env) : ℝ :=
  hVal o k e env - hVal o k (e - 1) env

/-- Step-equilibration cost of element `(k, e)`. -/
noncomputable def stepCost (o : PreOpts) (d : Dims) (k e : Nat) (env : Env) : ℝ :=
  if o.useFesd then
    match o.stepEq with
    | .heuristicMean => o.rhoH * (hVal o k e env - nominalH o k) ^ 2
    | .heuristicDelta => if e = 0 then 0 else o.rhoH * stepDiff o k e env ^ 2
    | .l2RelaxedScaled => if e = 0 then 0 else
        o.rhoH * Real.tanh (nuOf o d k e env / o.stepEqSigma) * stepDiff o k e env ^ 2
    | .l2Relaxed => if e = 0 then 0 else o.rhoH * nuOf o d k e env * stepDiff o k e env ^ 2
    | _ => 0
  else 0

/-- All step-equilibration costs. -/
noncomputable def stepCosts (o : PreOpts) (d : Dims) (env : Env) : ℝ :=
  ∑ k ∈ Finset.range o.nStages, ∑ e ∈ Finset.range (nfe o k), stepCost o d k e env

/-- Terminal cost. -/
noncomputable def terminalCost (o : PreOpts) (d : Dims) (uo : UserOcp) (env : Env) : ℝ :=
  uo.fTerminal (xEndVal o d (o.nStages - 1) (nfe o (o.nStages - 1) - 1) env)
    (pVal d (o.nStages - 1) env) (vVal d env)

/-- The three parts together. -/
noncomputable def plainObjective (o : PreOpts) (d : Dims) (uo : UserOcp) (env : Env) : ℝ :=
  runningCost o d uo env + stepCosts o d env + terminalCost o d uo env

/-- The objective: elastic modes add the penalty of the elastic variable, or scale the rest. -/
noncomputable def objectiveSpec (o : PreOpts) (d : Dims) (uo : UserOcp) (env : Env) : ℝ :=
  if o.mpcc = .elasticIneq ∨ o.mpcc = .elasticEq ∨ o.mpcc = .elasticTwoSided then
    if o.objScalingDirect then
      plainObjective o d uo env + 1 / env .sigma * env .sElastic
    else env .sigma * plainObjective o d uo env + env .sElastic
  else plainObjective o d uo env

end Nosnoc
