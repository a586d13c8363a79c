import Verif.Model.Looper
import Mathlib.Analysis.SpecialFunctions.Trigonometric.Basic
/-
Model of examples/oscillator (models and drivers; plotting left out).
-/
namespace Nosnoc

/-- examples/oscillator/oscillator_example.py:7 `OMEGA`. -/
noncomputable def omegaOsc : ℝ := 2 * Real.pi

/-- examples/oscillator/oscillator_example.py:8-9, 29-32: the columns `A1 @ x` (index 0) and `A2 @ x` (index 1)
of `F`. -/
noncomputable def oscField (row i : Nat) (x : List ℝ) : ℝ :=
  let w := if i = 0 then omegaOsc else -omegaOsc
  if row = 0 then x.getD 0 0 + w * x.getD 1 0 else -w * x.getD 0 0 + x.getD 1 0

/-- examples/oscillator/oscillator_example.py:15-40 `get_oscillator_model(use_g_Stewart=False)`: two states,
`c = [x1**2 + x2**2 - 1]`, `S = [[1], [-1]]`.  `np.exp` and `np.pi` are the real functions and numbers. -/
noncomputable def oscillatorModel : UserModel where
  nX := 2
  nU := 0
  nZ := 0
  nPtv := 0
  nPgl := 0
  nV := 0
  x0 := [Real.exp (-1), 0]
  F := some [⟨2, fun row i x _ _ _ _ => oscField row i x⟩]
  c := some [⟨1, fun _ x _ _ => x.getD 0 0 ^ 2 + x.getD 1 0 ^ 2 - 1⟩]
  S := some [⟨2, 1, fun i _ => if i = 0 then 1 else -1⟩]
  gStewart := none
  alpha := none
  fx := none
  gz := ⟨0, fun _ _ _ _ _ => 0⟩
  z0 := none
  lbz := none
  ubz := none
  pTimeVarVal := none
  pGlobalVal := []
  tVar := none

/-- examples/oscillator/oscillator_example.py:15-40 `get_oscillator_model(use_g_Stewart=True)`:
`g_Stewart = [-S[0] @ c[0]]` and neither `S` nor `c`. -/
noncomputable def oscillatorModelG : UserModel :=
  { oscillatorModel with
    c := none
    S := none
    gStewart := some [⟨2, fun i x _ _ => -(if i = 0 then 1 else -1) * (x.getD 0 0 ^ 2 + x.getD 1 0 ^ 2 - 1)⟩] }

/-- examples/oscillator/oscillator_example.py:12 `TSIM`. -/
noncomputable def tSimOsc : ℝ := Real.pi / 2

/-- examples/oscillator/oscillator_example.py:13 `X_SOL`. -/
noncomputable def xSolOsc : List ℝ :=
  [Real.exp (tSimOsc - 1) * Real.cos (2 * Real.pi * (tSimOsc - 1)),
    -Real.exp (tSimOsc - 1) * Real.sin (2 * Real.pi * (tSimOsc - 1))]

/-- examples/oscillator/oscillator_example.py:42-51 `get_default_options`. -/
noncomputable def oscillatorOpts : Opts :=
  { Opts.default with compTol := 1 / 10 ^ 8, slope := 1 / 10, nFe := 2, nS := 3, stepEq := .directComplementarity }

/-- examples/oscillator/integration_order_experiment_oscillator.py:51-65 `get_opts(Nsim, n_s, N_fe, scheme, use_fesd)`
(`terminal_time` is set by `solveOscillator`; `print_level` and `tol_ipopt` have no counterpart in the model). -/
noncomputable def orderOpts (nS nFe : Nat) (scheme : IrkScheme) (useFesd : Bool) : Opts :=
  { Opts.default with compTol := 1 / 10 ^ 12, sigmaN := 1 / 10 ^ 12, scheme := scheme, nS := nS, nFe := nFe, pss := .step, useFesd := useFesd }

/-- examples/oscillator/oscillator_example.py:54-84 `solve_oscillator(opts)` (there `nSim = 29`) and the body of the
loop of examples/oscillator/integration_order_experiment_oscillator.py:68-82 `run_benchmark` (there `nSim` is one of
1, 5, 9, 10, 20, 40, 60, 100). -/
noncomputable def solveOscillator (colloc : IrkScheme → Nat → List ℝ) (orc : Oracle) (o : Opts) (nSim : Nat) :
    Except PyErr SimResults := do
  check (nSim ≠ 0) .zeroDivision
  let S ← Solver.create colloc { o with terminalTime := tSimOsc / nSim } oscillatorModel none
  let L ← Looper.create S oscillatorModel.x0 nSim none none
  match L.run orc false with
  | (_, .error e) => .error e
  | (L', .ok _) => L'.getResults

/-- examples/oscillator/oscillator_example.py:54-84 `solve_oscillator(opts, use_g_Stewart=True)` (there `nSim = 29`). -/
noncomputable def solveOscillatorG (colloc : IrkScheme → Nat → List ℝ) (orc : Oracle) (o : Opts) (nSim : Nat) :
    Except PyErr SimResults := do
  check (nSim ≠ 0) .zeroDivision
  let S ← Solver.create colloc { o with terminalTime := tSimOsc / nSim } oscillatorModelG none
  let L ← Looper.create S oscillatorModelG.x0 nSim none none
  match L.run orc false with
  | (_, .error e) => .error e
  | (L', .ok _) => L'.getResults

end Nosnoc
