import Verif.Spec.Feasible
import Verif.Spec.Index
/-
The complementarity constraints among the constraints of the problem.
-/
namespace Nosnoc

/-- All positions of `g` named by `ind_comp`. -/
def Problem.compIndices (P : Problem) : List Nat :=
  P.indComp.flatten.flatten.flatten ++ P.compGlob.flatten

/-- Constraint number `i` holds at a point (and exists, with both bounds). -/
def RowHolds (f : Form) (env : Env) (i : Nat) : Prop :=
  ∃ g lb ub, f.g[i]? = some g ∧ f.lbg[i]? = some lb ∧ f.ubg[i]? = some ub ∧
    lb ≤ ((g env : ℝ) : EReal) ∧ ((g env : ℝ) : EReal) ≤ ub

/-- The complementarity conditions of the problem (a part of `FeasibleSpec`). -/
structure ComplSpec (o : PreOpts) (d : Dims) (uo : UserOcp) (env : Env) : Prop where
  stageComp : ∀ k e, HasFE o k e → ∀ j < o.nS, ∀ r ∈ stageComps uo,
    Compl o env
      [r.a (xVal o d k e j env) (uVal d k env) (zVal d k e j env) (pVal d k env) (vVal d env)]
      (r.b (xVal o d k e j env) (uVal d k env) (zVal d k e j env) (pVal d k env) (vVal d env))
  ctrlComp : ∀ k e, HasFE o k e → e + 1 = o.nFe → ∀ r ∈ ctrlComps uo,
    Compl o env [r.a [] (uVal d k env) [] (pVal d k env) (vVal d env)]
      (r.b [] (uVal d k env) [] (pVal d k env) (vVal d env))
  globComp : ∀ r ∈ globComps uo,
    Compl o env [r.a [] [] [] (List.replicate d.nPtv 0 ++ pGlobVal d 0 env) (vVal d env)]
      (r.b [] [] [] (List.replicate d.nPtv 0 ++ pGlobVal d 0 env) (vVal d env))
  compStd : o.useFesd = false → ∀ k e, HasFE o k e → ∀ j < o.nS, ∀ q, IsPair o d q →
    Compl o env [lamAt k e j env q] (thetaAt k e j env q)
  compAll : o.useFesd = true → o.crossComp = .complementAll → ∀ k e, HasFE o k e →
    ∀ j < o.nS, ∀ q, IsPair o d q →
      Compl o env [thetaAt k e j env q] (lamStart o k e env q) ∧
      ∀ j' < o.nS, Compl o env [thetaAt k e j env q] (lamAt k e j' env q)
  compSum : o.useFesd = true → o.crossComp = .sumLambdas → ∀ k e, HasFE o k e →
    ∀ j < o.nS, ∀ q, IsPair o d q →
      Compl o env ((List.range (nLamPts o k e)).map (fun j' => lamAt k e j' env q)
        ++ [lamStart o k e env q]) (thetaAt k e j env q)
  stepDirectComp : o.useFesd = true → o.stepEq = .directComplementarity →
    ∀ k e, HasFE o k e → 0 < e →
      Compl o env [nuOf o d k e env] (hVal o k e env - hVal o k (e - 1) env)
  stepHComp : o.useFesd = true → o.stepEq = .heuristicDeltaHComp →
    ∀ k e, HasFE o k e → 0 < e → Compl o env [0] (hVal o k e env - hVal o k (e - 1) env)

/-- The other constraints of the problem (`FeasibleSpec` without bounds and complementarities). -/
structure SmoothSpec (o : PreOpts) (d : Dims) (um : UserModel) (uo : UserOcp) (env : Env) :
    Prop where
  alg : ∀ k e, HasFE o k e → ∀ j < o.nS, um.Algebraic o d k e j (xVal o d k e j env) env
  rk : ∀ k e, HasFE o k e → ∀ j < o.nS, ∀ i < d.nX, RkEq um o d k e j i env
  lift : o.irkRep = .differentialLiftX → ∀ k e, HasFE o k e → ∀ j < o.nS, ∀ i < d.nX,
    LiftEq o k e j i env
  cont : ownEnd o = true → ∀ k e, HasFE o k e → ∀ i < d.nX, EndEq o k e i env
  boundary : o.rbe = false → o.useFesd = true → ∀ k e, HasFE o k e →
    um.Switching o k e (lastLam o k e) (xEndVal o d k e env) (zVal d k e (o.nS - 1) env)
      (pVal d k env) env
  pathEnd : ∀ k e, HasFE o k e → (e + 1 = nfe o k ∨ o.gPathAtFe = true) →
    PathSat uo d k (if o.rbe then xVal o d k e (o.nS - 1) env else xEndVal o d k e env) env
  pathStage : o.gPathAtStg = true → ∀ k e, HasFE o k e →
    ∀ j < o.nS - (if o.rbe then 1 else 0), PathSat uo d k (xVal o d k e j env) env
  stepDirect : o.useFesd = true → o.stepEq = .direct → ∀ k e, HasFE o k e → 0 < e →
    nuOf o d k e env * (hVal o k e env - hVal o k (e - 1) env) = 0
  equi : o.useFesd = true → o.equidistant = true → ∀ k < o.nStages,
    ∑ e ∈ Finset.range (nfe o k), hVal o k e env = o.terminalTime / o.nStages
  time : 1 < o.nStages → o.useFesd = true → o.equidistant = false →
    ∑ k ∈ Finset.range o.nStages, ∑ e ∈ Finset.range (nfe o k), hVal o k e env = o.terminalTime
  freeze : ∀ t, um.tVar = some t → o.timeFreezing = true → o.equidistant = true →
    ∀ k < o.nStages,
      |t (xEndVal o d k (nfe o k - 1) env)
        - (o.terminalTime / o.nStages * ((k : ℝ) + 1)
          + t ((List.range d.nX).map fun i => env (.x0 i)))| ≤ o.timeFreezingTol
  term : ∀ i < uo.nGTerminal,
    uo.gTerminal i (xEndVal o d (o.nStages - 1) (nfe o (o.nStages - 1) - 1) env)
      (pVal d (o.nStages - 1) env) (vVal d env) = 0

end Nosnoc
