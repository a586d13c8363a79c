import Verif.Model.Looper
/-
What a simulation is: a chain of `N` solves.
-/
namespace Nosnoc

/-- A simulation of `N` steps of `nE` finite elements each, started by solver object `S` at state `x0`,
with result dictionary `R` and final solver object `S'`.  `before i` is the solver object on which step
`i` calls `solve`, `result i` what it returns, `calls i` the NLP calls it makes. -/
structure Simulation (orc : Oracle) (S S' : Solver) (x0 : List ℝ) (N nE : Nat)
    (before : Nat → Solver) (result : Nat → SolveResult) (calls : Nat → List NlpCall)
    (R : SimResults) : Prop where
  /-- every step is a successful call of `solve`, making at least one NLP call -/
  solved : ∀ i < N, ((before i).solve orc).2 = .ok (result i) ∧
    ((before i).solve orc).1.log = (before i).log ++ calls i ∧ calls i ≠ []
  /-- these are the only NLP calls made, in this order -/
  log : S'.log = S.log ++ (List.range N).flatMap calls
  /-- the states: the initial one, then those of all steps -/
  states : R.xSim = x0 :: (List.range N).flatMap fun i => (result i).res.xList
  number : R.xSim.length = 1 + N * nE
  /-- the parameters of every NLP call of a step end with the state the step starts from ... -/
  start : ∀ i < N, ∃ x, R.xSim[i * nE]? = some x ∧ (before i).m.x0 = x ∧ ∀ c ∈ calls i, x <:+ c.p
  /-- ... which is the final state of the step before -/
  finish : ∀ i < N, R.xSim[(i + 1) * nE]? = some (result i).res.xOut
  /-- time -/
  steps : R.timeSteps = (List.range N).flatMap fun i => (result i).res.timeSteps
  grid : R.tGrid = (List.range (N * nE + 1)).map fun n => (R.timeSteps.take n).sum
  /-- one entry per step -/
  status : R.status = (List.range N).map fun i => (result i).status
  cost : R.costVals = (List.range N).map fun i => (result i).costVal
  w : R.wSim = (List.range N).map fun i => (result i).wSol
  wAll : R.wAll = (List.range N).map fun i => (result i).wAll
  theta : R.thetaSim = (List.range N).map fun i => (result i).res.thetaList
  lam : R.lambdaSim = (List.range N).map fun i => (result i).res.lambdaList
  alpha : R.alphaSim = (List.range N).map fun i => (result i).res.alphaList
  z : R.zSim = (List.range N).map fun i => (result i).res.zList
  sot : R.sot = if S.o.sot = .none then [] else (List.range N).map fun i => (result i).res.sot
  cpu : R.cpuNlp = (List.range N).map fun i => (result i).cpuTimeNlp.map fun v => v.getD 0

end Nosnoc
