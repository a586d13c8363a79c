import Verif.Spec.Naming
import Verif.Model.Results
import Mathlib.Algebra.BigOperators.Group.Finset.Basic
/-
What the entries of the result dictionary mean.
-/
namespace Nosnoc

/-- The finite elements `(k, e)` of the problem in temporal order. -/
def elements (o : PreOpts) : List (Nat × Nat) :=
  (List.range o.nStages).flatMap fun k => (List.range (nfe o k)).map fun e => (k, e)

/-- The convex multipliers of element `(k, e)` that tell its mode: `θ` (Stewart) or `α` (Step) at the
last stage. -/
def modeVec (o : PreOpts) (d : Dims) (k e : Nat) (env : Env) : List ℝ :=
  (rowSyms o d k e (if o.pss = .step then .alpha else .theta) (o.nS - 1)).map env

/-- Some entry differs by more than 0.1. -/
def ModeChange (a b : List ℝ) : Prop := 
  ∃ (i : Nat) (x y : ℝ), a[i]? = some x ∧ b[i]? = some y ∧ 1 / 10 < |x - y|

open Classical in
/-- The element boundaries at which the mode changes: `n` stands for the boundary between the
elements number `n` and `n + 1`. -/
noncomputable def switches (o : PreOpts) (d : Dims) (env : Env) : List Nat :=
  (List.range ((elements o).length - 1)).filter fun n =>
    ∃ q q', (elements o)[n]? = some q ∧ (elements o)[n + 1]? = some q' ∧
      ModeChange (modeVec o d q'.1 q'.2 env) (modeVec o d q.1 q.2 env)

/-- Start time of control stage `k`: the sum of all step lengths before it. -/
noncomputable def stageStart (o : PreOpts) (k : Nat) (env : Env) : ℝ :=
  ∑ k' ∈ Finset.range k, ∑ e ∈ Finset.range (nfe o k'), hVal o k' e env

/-- The meaning of the result dictionary, at the point `env`. -/
structure ResultsSpec (o : PreOpts) (d : Dims) (x0 : List ℝ) (env : Env) (r : Results) : Prop where
  /-- state trajectory: initial state, then the state at the end of every element -/
  xTraj : r.xTraj = x0 :: (elements o).map fun q => xEndVal o d q.1 q.2 env
  xList : r.xList = (elements o).map fun q => xEndVal o d q.1 q.2 env
  xOut : r.xOut = xEndVal o d (o.nStages - 1) (nfe o (o.nStages - 1) - 1) env
  xAll : r.xAllList
    = x0 :: (elements o).flatMap fun q => (xRows o d q.1 q.2).map fun s => s.map env
  uList : r.uList = (List.range o.nStages).map fun k => uVal d k env
  sot : r.sot = if o.sot = .local then some ((List.range o.nStages).map fun k => [env (.sot k)])
    else none
  /-- multipliers at the last point of every element, per subsystem -/
  theta : r.thetaList = (elements o).map fun q => (List.range d.nSys).map fun s =>
    (List.range (if o.pss = .stewart then d.nF s else 0)).map fun i =>
      env (.st2 .theta q.1 q.2 (o.nS - 1) s i)
  lam : r.lambdaList = (elements o).map fun q => (List.range d.nSys).map fun s =>
    (List.range (if o.pss = .stewart then d.nF s else 0)).map fun i =>
      env (.st2 .lam q.1 q.2 (lastLam o q.1 q.2) s i)
  alpha : r.alphaList
    = (elements o).map fun q => (rowSyms o d q.1 q.2 .alpha (o.nS - 1)).map env
  lamN : r.lambdaNList
    = (elements o).map fun q => (rowSyms o d q.1 q.2 .lamN (lastLam o q.1 q.2)).map env
  lamP : r.lambdaPList
    = (elements o).map fun q => (rowSyms o d q.1 q.2 .lamP (lastLam o q.1 q.2)).map env
  z : r.zList = (elements o).map fun q => zVal d q.1 q.2 (o.nS - 1) env
  v : r.vGlobal = [vVal d env]
  /-- time: step lengths, their partial sums, and the start times of the control stages -/
  steps : r.timeSteps = (elements o).map fun q => hVal o q.1 q.2 env
  grid : r.tGrid = (List.range ((elements o).length + 1)).map fun n => (r.timeSteps.take n).sum
  gridU : r.tGridU = (List.range (o.nStages + 1)).map fun k => stageStart o k env
  /-- what the code reports as switch times: the *step length* of the element before the switch -/
  switch : r.switchTimes = (switches o d env).map fun n => r.timeSteps.getD n 0

end Nosnoc
