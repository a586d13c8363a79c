import Verif.Model.Formulation
/-
Model of `add_smooth_step_representation` (nosnoc/model.py:362-410): smoothed multipliers, used to
initialise the states with an explicit Runge-Kutta method.
-/
namespace Nosnoc

/-- model.py:374-376 `smooth_step_fun`. -/
noncomputable def smoothStep (sm y : ℝ) : ℝ := (Real.tanh (1 / sm * y) + 1) / 2

/-- model.py:388-391 `smooth_min_fun`: the mean of the entries weighted with `exp(-entry/sm)`. -/
noncomputable def smoothMin (sm : ℝ) (g : List ℝ) : ℝ :=
  (g.map fun x => x * Real.exp (-1 / sm * x)).sum / (g.map fun x => Real.exp (-1 / sm * x)).sum

/-- model.py:397-401: `theta_list[s][i]`; `n_Ri` is a sum of floats, hence the real power. -/
noncomputable def thetaSmooth (S : SMat) (nC : Nat) (alpha : Nat → ℝ) (i : Nat) : ℝ :=
  (List.range nC).foldl (fun acc j => acc * ((1 - S.entry i j) / 2 + S.entry i j * alpha j))
    ((2 : ℝ) ^ ((nC : ℝ) - ((List.range S.cols).map fun j => |S.entry i j|).sum))

/-- model.py:407-410: the functions added to the model. -/
structure SmoothFuns where
  fx : CFun
  theta : CFun
  mu : CFun
  lambda : CFun

/-- Accumulated expressions of the loop model.py:384-402. -/
structure SmoothAcc where
  fx : Vec
  theta : Vec
  mu : Vec
  lambda : Vec

/-- model.py:384-402: loop body for subsystem `s`.  `g` is the list of line 379; `self.c[s][i]` and
`self.S[s][i, j]` raise when the index is out of range (`c` has `n_c` entries by definition of
`n_c_sys`, `S` has as many columns because `-S @ c` did not raise). -/
noncomputable def smoothBody (um : UserModel) (d : Dims) (sm : ℝ) (g : List Vec) (acc : SmoothAcc)
    (s : Nat) : Except PyErr SmoothAcc := do
  let c ← optGet um.c s
  let S ← optGet um.S s
  let F ← optGet um.F s
  let gs ← optGet (some g) s
  check (gs.length = d.nF s) .casadi
  let th : Vec := (List.range (d.nF s)).map fun i env =>
    thetaSmooth S (d.nC s) (fun j => smoothStep sm (c.expr d j env)) i
  let Fth ← F.mul d th
  .ok { fx := vadd acc.fx Fth
        theta := acc.theta ++ th
        mu := acc.mu ++ [fun env => -smoothMin sm (evalVec gs env)]
        lambda := acc.lambda ++ gs.map fun e env => e env - smoothMin sm (evalVec gs env) }

/-- model.py:362-410.  CasADi raises when the expressions depend on symbols that are not inputs
(`f_x_smooth_fun` has the state as its only input); dependence is not tracked here. -/
noncomputable def addSmooth (um : UserModel) (d : Dims) (sm : ℝ) : Except PyErr SmoothFuns := do
  check (um.gStewartTruthy = false) .notImplemented
  check (0 < sm) .valueError
  let g ← (List.range d.nSys).mapM fun i => do
    let S ← optGet um.S i
    let c ← optGet um.c i
    negSmulC S (c.vec d)
  let acc ← (List.range d.nSys).foldlM (smoothBody um d sm g)
    ⟨List.replicate d.nX (const 0), [], [], []⟩
  .ok { fx := ⟨[d.mX], acc.fx⟩
        theta := ⟨[d.mX, d.mP], acc.theta⟩
        mu := ⟨[d.mX, d.mP], acc.mu⟩
        lambda := ⟨[d.mX, d.mP], acc.lambda⟩ }

end Nosnoc
