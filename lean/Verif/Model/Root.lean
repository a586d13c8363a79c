import Verif.Model.Solver
/-
`rootfinder_for_initial_z` (nosnoc_opts.py:118): before the initial multipliers are computed, the
user's algebraic equations are solved for the algebraic variables by CasADi's Newton root finder.
-/
namespace Nosnoc

/-- CasADi's `newton` root finder: residual and guess go in, a point comes out, or a RuntimeError
(CasADi raises when the iteration does not converge).  Any behaviour is allowed here; what it must
satisfy is a hypothesis of the theorems. -/
abbrev RootFinder := (residual : List ℝ → List ℝ) → (guess : List ℝ) → Except PyErr (List ℝ)

/-- The user's algebraic equations can be solved for `z` alone: as many equations as unknowns
(CasADi's root finder requires a square residual), and no control in them (`g_z0_fun` has the
inputs `z` and `(x, p)` only; CasADi refuses functions with free symbols). -/
def UserModel.RootOk (um : UserModel) : Prop :=
  um.gz.len = um.nZ ∧ ∀ i < um.gz.len, ∀ x z u u' p, um.gz.entry i x z u p = um.gz.entry i x z u' p

open Classical in
/-- model.py:209-212: creation of the root finder in `preprocess_model`. -/
noncomputable def UserModel.rootCheck (um : UserModel) : Except PyErr Unit :=
  check um.RootOk .casadi

/-- model.py:211 `g_z0_fun` as a function of `z`, for numbers `x` and `p`.  The control is absent; by
`rootCheck` its value does not matter. -/
def UserModel.z0Residual (um : UserModel) (x p z : List ℝ) : List ℝ :=
  (List.range um.gz.len).map fun i => um.gz.entry i x z [] p

/-- model.py:412-419 `compute_lambda00` with `rootfinder_for_initial_z=True`. -/
def PreModel.computeLambda00Root (rf : RootFinder) (um : UserModel) (m : PreModel) :
    Except PyErr (List ℝ) := do
  let p0 ← listGet m.pVal 0
  let z ← rf (um.z0Residual m.x0 p0) m.z0
  m.lambda00Fun.num [m.x0, z, p0]

/-- solver.py:109-177 `initialize` with `rootfinder_for_initial_z=True`; the value is `lambda00`. -/
noncomputable def Solver.initializeRoot (rf : RootFinder) (um : UserModel) (S : Solver) :
    Solver × Except PyErr (List ℝ) :=
  match S.m.computeLambda00Root rf um with
  | .error e => (S, .error e)
  | .ok lam00 => thenReturn S.initGuess lam00

/-- solver.py:326-469 `solve` with `rootfinder_for_initial_z=True`. -/
noncomputable def Solver.solveRoot (orc : Oracle) (rf : RootFinder) (um : UserModel) (S : Solver) :
    Solver × Except PyErr SolveResult :=
  S.solveFrom orc (S.initializeRoot rf um)

end Nosnoc
