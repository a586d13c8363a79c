import Verif.Spec.Feasible
/-
Size of the decision vector.
-/
namespace Nosnoc

/-- Stage variables of one subsystem (Stewart: `θ`, `λ`, `μ`; Step: `α`, `λⁿ`, `λᵖ`). -/
def sysVars (o : PreOpts) (d : Dims) (s : Nat) : Nat :=
  if o.pss = .stewart then 2 * d.nF s + 1 else 3 * d.nC s

/-- Boundary multipliers of one subsystem (Stewart: `λ`, `μ`; Step: `λⁿ`, `λᵖ`). -/
def sysBound (o : PreOpts) (d : Dims) (s : Nat) : Nat :=
  if o.pss = .stewart then d.nF s + 1 else 2 * d.nC s

/-- Complementarity pairs of one subsystem. -/
def sysPairs (o : PreOpts) (d : Dims) (s : Nat) : Nat :=
  if o.pss = .stewart then d.nF s else 2 * d.nC s

/-- Variables of one Runge-Kutta stage: derivatives and/or states, user algebraic variables, and the
variables of the discontinuity model. -/
def stageVars (o : PreOpts) (d : Dims) : Nat :=
  (if o.irkRep = .integral then 0 else d.nX) + (if o.irkRep = .differential then 0 else d.nX) + d.nZ
  + ∑ s ∈ Finset.range d.nSys, sysVars o d s

/-- Multipliers of one boundary point. -/
def boundVars (o : PreOpts) (d : Dims) : Nat :=
  ∑ s ∈ Finset.range d.nSys, sysBound o d s

/-- Complementarity pairs per point. -/
def nPairs (o : PreOpts) (d : Dims) : Nat :=
  ∑ s ∈ Finset.range d.nSys, sysPairs o d s

/-- Variables of one finite element. -/
def feVars (o : PreOpts) (d : Dims) (k e : Nat) : Nat :=
  (if o.useFesd then 1 else 0) + o.nS * stageVars o d
  + (if o.useFesd = true ∧ o.rbe = false ∧ e + 1 < nfe o k then boundVars o d else 0)
  + (if o.rbe = false ∨ o.irkRep = .differential then d.nX else 0)

/-- Complementarity constraints (components) of one finite element; in BOOLEAN mode each has one
binary variable. -/
def feComps (o : PreOpts) (d : Dims) (uo : UserOcp) (e : Nat) : Nat :=
  o.nS * (stageComps uo).length
  + (if e + 1 = o.nFe then (ctrlComps uo).length else 0)
  + (if o.useFesd = true ∧ o.crossComp = .complementAll then o.nS * (o.nS + 1) else o.nS)
      * nPairs o d
  + (if o.useFesd = true ∧ 0 < e ∧
      (o.stepEq = .directComplementarity ∨ o.stepEq = .heuristicDeltaHComp) then 1 else 0)

/-- Number of optimisation variables. -/
def decisionSize (o : PreOpts) (d : Dims) (uo : UserOcp) : Nat :=
  (if o.mpcc = .elasticIneq ∨ o.mpcc = .elasticEq ∨ o.mpcc = .elasticTwoSided then 1 else 0)
  + d.nV + o.nStages * (d.nU + if o.sot = .local then 1 else 0)
  + ∑ k ∈ Finset.range o.nStages, ∑ e ∈ Finset.range (nfe o k), feVars o d k e
  + (if o.mpcc = .boolean then (globComps uo).length
      + ∑ k ∈ Finset.range o.nStages, ∑ e ∈ Finset.range (nfe o k), feComps o d uo e else 0)

end Nosnoc
