import Verif.Model.Looper
import Verif.Spec.Solve
/-
What it means for a simulation to be the continuation of another one.
-/
namespace Nosnoc

/-- `a[k:k+n, :]` of a matrix with at least `k + n` rows. -/
def Arr.rowsFrom (k n : Nat) : Arr → Arr
  | .mat _ c f => .mat n c fun i j => f (k + i) j
  | .vec v => .vec v

/-- Result dictionary `R` is that of `R1` followed by that of `R2`, whose time starts when `R1` ends.
The first state of `R2` is the last of `R1` and is not repeated. -/
structure Joined (R1 R2 R : SimResults) : Prop where
  xSim : R.xSim = R1.xSim ++ R2.xSim.tail
  shared : R2.xSim.head? = R1.xSim.getLast?
  timeSteps : R.timeSteps = R1.timeSteps ++ R2.timeSteps
  tGrid : R.tGrid = R1.tGrid ++ R2.tGrid.tail.map fun t => t + R1.timeSteps.sum
  switchTimes : R.switchTimes = R1.switchTimes ++ R2.switchTimes.map fun t => t + R1.timeSteps.sum
  cpuNlp : R.cpuNlp = R1.cpuNlp ++ R2.cpuNlp
  thetaSim : R.thetaSim = R1.thetaSim ++ R2.thetaSim
  lambdaSim : R.lambdaSim = R1.lambdaSim ++ R2.lambdaSim
  alphaSim : R.alphaSim = R1.alphaSim ++ R2.alphaSim
  zSim : R.zSim = R1.zSim ++ R2.zSim
  sot : R.sot = R1.sot ++ R2.sot
  wSim : R.wSim = R1.wSim ++ R2.wSim
  wAll : R.wAll = R1.wAll ++ R2.wAll
  costVals : R.costVals = R1.costVals ++ R2.costVals
  status : R.status = R1.status ++ R2.status

/-- Loopers for `N` steps with data `pv`, `wi` that can occur: created on a solver object with any history, then
any sequence of `run` calls, whatever they return or raise, with any use of solver objects in between. -/
inductive LooperReachable (colloc : IrkScheme → Nat → List ℝ) (o : Opts) (um : UserModel)
    (uo : Option UserOcp) (orc : Oracle) (N : Nat) (pv : Option Arr) (wi : Option (List Arr)) : Looper → Prop
  | create {S : Solver} {x0 : List ℝ} {L : Looper} : Reachable colloc o um uo orc S →
      Looper.create S x0 N pv wi = .ok L → LooperReachable colloc o um uo orc N pv wi L
  | run {L : Looper} (stop : Bool) : LooperReachable colloc o um uo orc N pv wi L →
      LooperReachable colloc o um uo orc N pv wi (L.run orc stop).1
  | solver {L : Looper} {S : Solver} : LooperReachable colloc o um uo orc N pv wi L →
      Reachable colloc o um uo orc S → LooperReachable colloc o um uo orc N pv wi { L with solver := S }

end Nosnoc
