import Verif.Model.Problem
/-
Model of `comp_res`, the complementarity residual the solver compares with `comp_tol`.
-/
namespace Nosnoc

/-- `ca.mmax` of a vector (problem.py:818).  Models without any switching function, for which the
vector is empty, are outside the model of `comp_res` (value 0). -/
noncomputable def mmax (v : List ℝ) : ℝ := match v with
  | [] => 0
  | a :: l => l.foldl max a

/-- problem.py:815-818, 846: `comp_res(w, p)`, the largest entry of `comp_vec`. -/
noncomputable def Problem.compRes (P : Problem) (env : Env) : ℝ := mmax (evalVec P.compVec env)

end Nosnoc
