import Verif.Model.Solver
/-
Model of the functions `std_compl_res_fun` and `mu00_stewart_fun` that `preprocess_model` offers to the user
(nosnoc/model.py:260, 284, 297-298, 324-327).  The library itself does not call them.
-/
namespace Nosnoc

/-- `transpose(a) @ b` for vectors of the same length. -/
noncomputable def innerProd (a b : List ℝ) : ℝ := (List.zipWith (· * ·) a b).sum

/-- model.py:284, 297-298: what system `ii` adds to `std_compl_res`.  Simplification: in Step mode `alpha[ii]`
has the length of `c[ii]` (CasADi raises or broadcasts otherwise). -/
noncomputable def stdComplTerm (m : UserModel) (d : Dims) (pss : PssMode) (ii : Nat) (env : Env) : ℝ :=
  let val := fun f => ((d.stageVars pss f).getD ii []).map env
  match pss with
  | .stewart => |innerProd (val .lam) (val .theta)|
  | .step =>
    let alpha := ((m.alphaVars d pss).getD ii []).map env
    innerProd (val .lamN) alpha + innerProd (val .lamP) (alpha.map fun a => 1 - a)

/-- model.py:260-298: the loop; model.py:324 `std_compl_res_fun`. -/
noncomputable def stdComplResFun (m : UserModel) (o : PreOpts) (pm : PreModel) : CFun :=
  ⟨[pm.zAll, pm.dims.mP], [fun env =>
    (List.range m.nSys).foldl (fun r ii => r + stdComplTerm m pm.dims o.pss ii env) 0]⟩

/-- model.py:326-327 `mu00_stewart_fun` (Stewart mode only). -/
noncomputable def mu00StewartFun (m : UserModel) (pm : PreModel) : CFun :=
  ⟨[pm.dims.mX, pm.dims.mZ, pm.dims.mP], (List.range m.nSys).map fun ii env =>
    mmin (evalVec (pm.gStewartList.getD ii []) env)⟩

end Nosnoc
