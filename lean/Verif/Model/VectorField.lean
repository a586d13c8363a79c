import Verif.Model.Solver
/-
Model of `NosnocSolverBase.create_function_calculate_vector_field` (nosnoc/solver.py:271-294).
-/
namespace Nosnoc

/-- solver.py:284: one row `sqrt(lam*lam - theta*theta + sigma*sigma) - (lam + theta)`; the square root
of a negative number is NaN (`none`). -/
noncomputable def vfRow (σ lam th : ℝ) : Option ℝ :=
  if lam * lam - th * th + σ * σ < 0 then none
  else some (Real.sqrt (lam * lam - th * th + σ * σ) - (lam + th))

/-- solver.py:276-287: the residual given to the root finder, as a function of `theta`, `mu`. -/
noncomputable def vfResidual (σ : ℝ) (g th : List ℝ) (mu : ℝ) : List (Option ℝ) :=
  List.zipWith (fun gi ti => vfRow σ (gi - mu) ti) g th ++ [some (th.sum - 1)]

/-- CasADi's root finder for a residual that may be NaN: any behaviour. -/
abbrev PartialRootFinder := (residual : List ℝ → List (Option ℝ)) → (guess : List ℝ) → Except PyErr (List ℝ)

/-- model.py:328 `g_Stewart_fun`. -/
def PreModel.gStewartFun (m : PreModel) : CFun := ⟨[m.dims.mX, m.dims.mZ, m.dims.mP], m.gStewartList.flatten⟩

/-- solver.py:271-294 for numbers `sigma`, `p`; the result is `fun(x, u, z)`.  The model object has no
attribute `F_fun` (it is not assigned anywhere), so reading it raises `AttributeError`. -/
noncomputable def createVectorField (rf : PartialRootFinder) (o : PreOpts) (m : PreModel) (σ : ℝ) (p : List ℝ) :
    Except PyErr ((x u z : List ℝ) → Except PyErr (List ℝ)) :=
  if o.pss ≠ .stewart then .error .notImplemented
  else .ok fun x _ z => do
    let g ← m.gStewartFun.num [x, z, p]
    let _ ← rf (fun y => vfResidual σ g (y.take g.length) (y.getD g.length 0)) (List.replicate (g.length + 1) 0)
    .error .attributeError

end Nosnoc
