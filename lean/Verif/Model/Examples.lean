import Verif.Model.Looper
/-
Model of examples/simplest (the models and the driver the test suite checks against the analytic solution;
plotting left out).
-/
namespace Nosnoc

/-- examples/simplest/simplest_example.py:27-43 `get_simplest_model_sliding` (`f_11, f_12 = 3, -1`), 46-62
`get_simplest_model_switch` (`3, 1`); examples/simplest/different_switch_cases.py:14-31 (`1, -3`), 34-52
(`1, 3`), 55-72 `get_spontaneous_switch_model` (`-1, 1`): one state, `c = [x]`, `S = [[-1], [1]]`,
`F = horzcat(f_11, f_12)`.  `x0` is the initial state stored in the model. -/
def simplestModel (f11 f12 x0 : ℝ) : UserModel where
  nX := 1
  nU := 0
  nZ := 0
  nPtv := 0
  nPgl := 0
  nV := 0
  x0 := [x0]
  F := some [⟨2, fun _ i _ _ _ _ _ => if i = 0 then f11 else f12⟩]
  c := some [⟨1, fun _ x _ _ => x.getD 0 0⟩]
  S := some [⟨2, 1, fun i _ => if i = 0 then -1 else 1⟩]
  gStewart := none
  alpha := none
  fx := none
  gz := ⟨0, fun _ _ _ _ _ => 0⟩
  z0 := none
  lbz := none
  ubz := none
  pTimeVarVal := none
  pGlobalVal := []
  tVar := none

/-- examples/simplest/simplest_example.py:18-24 `get_default_options`. -/
noncomputable def simplestOpts : Opts :=
  { Opts.default with compTol := 1 / 10 ^ 9, nFe := 2, nS := 2 }

/-- examples/simplest/simplest_example.py:65-86 `solve_simplest_example(opts, model, x0, Nsim, Tsim)`, with
options and model given; the `opts` object is changed by it (`terminal_time`), which is not modelled. -/
noncomputable def solveSimplest (colloc : IrkScheme → Nat → List ℝ) (orc : Oracle) (o : Opts) (um : UserModel)
    (x0 : List ℝ) (nSim : Nat) (tSim : ℝ) : Except PyErr SimResults := do
  check (nSim ≠ 0) .zeroDivision
  let S ← Solver.create colloc { o with terminalTime := tSim / nSim } um none
  let L ← Looper.create S x0 nSim none none
  match L.run orc false with
  | (_, .error e) => .error e
  | (L', .ok _) => L'.getResults

end Nosnoc
