import Verif.Model.Solver
/-
Model of `NosnocSimLooper` (nosnoc/helpers.py).  Printing is left out.
-/
namespace Nosnoc

/-- helpers.py:39-59: the looper object (`print_level` left out).  An entry of `cpu_nlp` is `none` for
NaN. -/
structure Looper where
  solver : Solver
  nSim : Nat
  pValues : Option Arr
  wInit : Option (List Arr)
  xcurrent : List ℝ
  xSim : List (List ℝ)
  timeSteps : List ℝ
  thetaSim : List (List (List (List ℝ)))
  lambdaSim : List (List (List (List ℝ)))
  alphaSim : List (List (List ℝ))
  zSim : List (List (List ℝ))
  sot : List (Option (List (List ℝ)))
  wSim : List (List ℝ)
  wAll : List (List (List ℝ))
  costVals : List ℝ
  status : List Status
  switchTimes : List ℝ
  cpuNlp : List (List (Option ℝ))

/-- helpers.py:33-35: `p_values.shape != (Nsim, n_p_glob)`. -/
def shapeIs (a : Arr) (r c : Nat) : Bool := match a with
  | .vec _ => false
  | .mat r' c' _ => decide (r' = r) && decide (c' = c)

/-- helpers.py:10-59 `NosnocSimLooper(solver, x0, Nsim, p_values, w_init)` (`Nsim` not negative). -/
def Looper.create (S : Solver) (x0 : List ℝ) (nSim : Nat) (pValues : Option Arr)
    (wInit : Option (List Arr)) : Except PyErr Looper := do
  check (S.P.isSim S.o S.m = true) .exception
  check (∀ a, pValues = some a → shapeIs a nSim S.m.dims.nPgl = true) .valueError
  .ok { solver := S, nSim := nSim, pValues := pValues, wInit := wInit, xcurrent := x0, xSim := [x0],
        timeSteps := [], thetaSim := [], lambdaSim := [], alphaSim := [], zSim := [], sot := [],
        wSim := [], wAll := [], costVals := [], status := [], switchTimes := [],
        cpuNlp := List.replicate nSim
          (List.replicate (S.o.maxIterHomotopy + if S.o.polish then 1 else 0) (some 0)) }

/-- Continue with the next setter unless an exception was raised. -/
def andThen (r : Outcome) (f : Solver → Outcome) : Outcome := match r.2 with
  | some _ => r
  | none => f r.1

/-- helpers.py:68-69: `w_init[i]`. -/
def setWInit (wInit : Option (List Arr)) (i : Nat) (S : Solver) : Outcome := match wInit with
  | none => (S, none)
  | some ws => match ws[i]? with
    | none => (S, some .indexError)
    | some w => S.set .w w

/-- helpers.py:70-71: `p_values[i, :]`. -/
def setPRow (pValues : Option Arr) (i : Nat) (S : Solver) : Outcome := match pValues with
  | none => (S, none)
  | some a => match a.row i with
    | .error e => (S, some e)
    | .ok r => S.set .pGlobal (.vec r)

/-- helpers.py:66-71: the setters of step `i`. -/
def Looper.sets (L : Looper) (i : Nat) : Outcome :=
  andThen (andThen (L.solver.set .x0 (.vec L.xcurrent)) (setWInit L.wInit i)) (setPRow L.pValues i)

/-- helpers.py:76-95: what is recorded after step `i`; `S` is the solver object after the step.
(`cpu_nlp[i, :] = …` needs equal lengths, which the code guarantees.) -/
noncomputable def Looper.collect (L : Looper) (S : Solver) (i : Nat) (r : SolveResult) : Looper :=
  let xSim := L.xSim ++ r.res.xList
  { L with
    solver := S
    switchTimes := L.switchTimes ++ r.res.switchTimes.map fun t => t + L.timeSteps.sum
    xSim := xSim
    xcurrent := (xSim.getLast?).getD []
    cpuNlp := L.cpuNlp.set i r.cpuTimeNlp
    timeSteps := L.timeSteps ++ r.res.timeSteps
    thetaSim := L.thetaSim ++ [r.res.thetaList]
    lambdaSim := L.lambdaSim ++ [r.res.lambdaList]
    alphaSim := L.alphaSim ++ [r.res.alphaList]
    zSim := L.zSim ++ [r.res.zList]
    wSim := L.wSim ++ [r.wSol]
    wAll := L.wAll ++ [r.wAll]
    costVals := L.costVals ++ [r.costVal]
    status := L.status ++ [r.status]
    sot := if S.o.sot ≠ .none then L.sot ++ [r.res.sot] else L.sot }

/-- helpers.py:66-95: one step: the setters, `solve`, the records.  `solve` raising leaves the changed
solver object behind. -/
noncomputable def Looper.step (orc : Oracle) (L : Looper) (i : Nat) :
    Looper × Except PyErr SolveResult :=
  match L.sets i with
  | (S, some e) => ({ L with solver := S }, .error e)
  | (S, none) => match S.solve orc with
    | (S', .error e) => ({ L with solver := S' }, .error e)
    | (S', .ok r) => (L.collect S' i r, .ok r)

/-- Python's `==` between a member of the Enum `Status` (nosnoc_types.py:119-121, a plain `Enum`) and a
string: never equal. -/
def statusEqStr (_ : Status) (_ : String) : Bool := false

/-- helpers.py:64-99: the loop; `n` steps are left, `i` is the index of the next one. -/
noncomputable def Looper.runLoop (orc : Oracle) (stop : Bool) : (n i : Nat) → Looper →
    Looper × Except PyErr Bool
  | 0, _, L => (L, .ok true)
  | n + 1, i, L => match L.step orc i with
    | (L', .error e) => (L', .error e)
    | (L', .ok r) =>
      if stop && statusEqStr r.status "Infeasible_Problem_Detected" then (L', .ok false)
      else Looper.runLoop orc stop n (i + 1) L'

/-- helpers.py:61-99 `run(stop_on_failure)`. -/
noncomputable def Looper.run (orc : Oracle) (stop : Bool) (L : Looper) :
    Looper × Except PyErr Bool := Looper.runLoop orc stop L.nSim 0 L

/-- The dictionary returned by `get_results` (helpers.py:103-118). -/
structure SimResults where
  xSim : List (List ℝ)
  cpuNlp : List (List ℝ)
  timeSteps : List ℝ
  tGrid : List ℝ
  thetaSim : List (List (List (List ℝ)))
  lambdaSim : List (List (List (List ℝ)))
  alphaSim : List (List (List ℝ))
  zSim : List (List (List ℝ))
  sot : List (Option (List (List ℝ)))
  wSim : List (List ℝ)
  wAll : List (List (List ℝ))
  costVals : List ℝ
  status : List Status
  switchTimes : List ℝ

/-- helpers.py:101-119 `get_results`: `np.array(X_sim)` needs states of the same length; NaN becomes
0. -/
noncomputable def Looper.getResults (L : Looper) : Except PyErr SimResults := do
  check (sameLen L.xSim = true) .valueError
  .ok { xSim := L.xSim, cpuNlp := L.cpuNlp.map (List.map fun v => v.getD 0), timeSteps := L.timeSteps,
        tGrid := 0 :: cumsumFrom 0 L.timeSteps, thetaSim := L.thetaSim, lambdaSim := L.lambdaSim,
        alphaSim := L.alphaSim, zSim := L.zSim, sot := L.sot, wSim := L.wSim, wAll := L.wAll,
        costVals := L.costVals, status := L.status, switchTimes := L.switchTimes }

end Nosnoc
