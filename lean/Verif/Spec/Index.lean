import Verif.Model.Problem
/-
All index lists of a problem, concatenated.
-/
namespace Nosnoc

/-- All positions named by the index lists of one finite element: `ind_h`, `ind_v`, `ind_x`,
`ind_z`, `ind_theta`, `ind_lam`, `ind_mu`, `ind_alpha`, `ind_lambda_n`, `ind_lambda_p`, `ind_bool`
(`ind_x_cont` repeats a part of `ind_x`). -/
def FEIdx.all (i : FEIdx) : List Nat :=
  i.h ++ [Fam1.v, .x, .z].flatMap (fun f => (i.one f).flatten)
    ++ [Fam2.theta, .lam, .mu, .alpha, .lamN, .lamP].flatMap (fun f => (i.two f).flatten.flatten)
    ++ i.bool.flatten

/-- All positions named by the index lists of the problem. -/
def Problem.allIndices (P : Problem) : List Nat :=
  P.indElastic.flatten ++ P.indVGlobal.flatten ++ P.indU.flatten ++ P.indSot.flatten
    ++ P.boolGlob.flatten ++ P.idx.flatten.flatMap FEIdx.all

end Nosnoc
