import Verif.Spec.UserDisc
import Verif.Spec.Doc
import Verif.Spec.Pairs
import Verif.Spec.Mpcc
import Verif.Model.Ocp
/-
What a feasible point of the generated problem is, stated in the user's terms: the discretised
optimal control problem.  `Verif/Props/Discretised.lean` (C83) proves that the model of the code
generates exactly this problem.
-/
namespace Nosnoc

/-- Finite element `e` of control stage `k` exists. -/
def HasFE (o : PreOpts) (k e : Nat) : Prop := k < o.nStages ∧ e < nfe o k

/-- The optimisation variables of the problem (without the binary variables of the BOOLEAN mode). -/
def IsVar (o : PreOpts) (d : Dims) : Sym → Prop
  | .sElastic => o.mpcc = .elasticIneq ∨ o.mpcc = .elasticEq ∨ o.mpcc = .elasticTwoSided
  | .vGlob i => i < d.nV
  | .u k i => k < o.nStages ∧ i < d.nU
  | .sot k => o.sot = .local ∧ k < o.nStages
  | .h k e => o.useFesd = true ∧ HasFE o k e
  | .st1 .v k e j i => o.irkRep ≠ .integral ∧ HasFE o k e ∧ j < o.nS ∧ i < d.nX
  | .st1 .x k e j i => o.irkRep ≠ .differential ∧ HasFE o k e ∧ j < o.nS ∧ i < d.nX
  | .st1 .z k e j i => HasFE o k e ∧ j < o.nS ∧ i < d.nZ
  | .xEnd k e i => ownEnd o = true ∧ HasFE o k e ∧ i < d.nX
  | .st2 .theta k e j s i => o.pss = .stewart ∧ HasFE o k e ∧ j < o.nS ∧ s < d.nSys ∧ i < d.nF s
  | .st2 .lam k e j s i =>
      o.pss = .stewart ∧ HasFE o k e ∧ j < nLamPts o k e ∧ s < d.nSys ∧ i < d.nF s
  | .st2 .mu k e j s i =>
      o.pss = .stewart ∧ HasFE o k e ∧ j < nLamPts o k e ∧ s < d.nSys ∧ i = 0
  | .st2 .alpha k e j s i => o.pss = .step ∧ HasFE o k e ∧ j < o.nS ∧ s < d.nSys ∧ i < d.nC s
  | .st2 .lamN k e j s i =>
      o.pss = .step ∧ HasFE o k e ∧ j < nLamPts o k e ∧ s < d.nSys ∧ i < d.nC s
  | .st2 .lamP k e j s i =>
      o.pss = .step ∧ HasFE o k e ∧ j < nLamPts o k e ∧ s < d.nSys ∧ i < d.nC s
  | _ => False

/-- Binary variables of the BOOLEAN mode. -/
def IsBoolSym : Sym → Prop
  | .boolFe _ _ _ => True
  | .boolGlob _ => True
  | _ => False

/-- The relation the MPCC mode imposes on `Σ xs ⟂ y` at the point `env`. -/
def Compl (o : PreOpts) (env : Env) (xs : List ℝ) (y : ℝ) : Prop :=
  CompSat o.toOpts (env .sigma) (env .tau) (env .sElastic) xs y

/-- Runge-Kutta equation of stage `j`, component `i` of element `(k, e)`. -/
def RkEq (um : UserModel) (o : PreOpts) (d : Dims) (k e j i : Nat) (env : Env) : Prop :=
  if o.irkRep = .integral then
    -- h · ṡ · f(x_j) = Σ_r C_{r,j} x_r  (collocation polynomial, node 0 is the element start)
    hVal o k e env * (sotVal o k env * um.stageRhs o d k e j i env)
      = o.CIrk 0 (j + 1) * env (startX o k e i)
        + ∑ r ∈ Finset.range o.nS, o.CIrk (r + 1) (j + 1) * env (.st1 .x k e r i)
  else
    env (.st1 .v k e j i) = sotVal o k env * um.stageRhs o d k e j i env

/-- Lifted stage states: `x_j = x_start + h Σ_r a_jr v_r`. -/
def LiftEq (o : PreOpts) (k e j i : Nat) (env : Env) : Prop :=
  env (.st1 .x k e j i) = env (startX o k e i)
    + ∑ r ∈ Finset.range o.nS, hVal o k e env * o.aIrk j r * env (.st1 .v k e r i)

/-- End state of element `(k, e)` where it is a variable of its own. -/
def EndEq (o : PreOpts) (k e i : Nat) (env : Env) : Prop :=
  env (.xEnd k e i) =
    if o.irkRep = .integral then
      o.DIrk 0 * env (startX o k e i)
        + ∑ j ∈ Finset.range o.nS, o.DIrk (j + 1) * env (.st1 .x k e j i)
    else env (startX o k e i)
      + ∑ j ∈ Finset.range o.nS, hVal o k e env * o.bIrk j * env (.st1 .v k e j i)

/-- Path constraints with their bounds at state `x` of control stage `k`. -/
def PathSat (uo : UserOcp) (d : Dims) (k : Nat) (x : List ℝ) (env : Env) : Prop :=
  ∀ i < uo.nGPath,
    getOr uo.lbg 0 i ≤ ((uo.gPath i x (uVal d k env) (pVal d k env) (vVal d env) : ℝ) : EReal) ∧
    ((uo.gPath i x (uVal d k env) (pVal d k env) (vVal d env) : ℝ) : EReal) ≤ getOr uo.ubg 0 i

/-- The path complementarities by category (ocp.py classifies by dependence). -/
def stageComps (uo : UserOcp) : List PathComp := uo.gPathComp.filter fun r => r.dependsRk
def ctrlComps (uo : UserOcp) : List PathComp :=
  uo.gPathComp.filter fun r => !r.dependsRk && r.dependsCtrl
def globComps (uo : UserOcp) : List PathComp :=
  uo.gPathComp.filter fun r => !r.dependsRk && !r.dependsCtrl

/-- Global parameters: the part of the parameter vector of stage 0 after the time-varying one. -/
def pGlobVal (d : Dims) (k : Nat) (env : Env) : List ℝ :=
  (List.range d.nPgl).map fun i => env (.pStage k (d.nPtv + i))

/-- The dependence flags are right: an expression that does not depend on the stage variables has
the same value for all of them, and one that does not depend on the control stage variables
either has a value determined by the global parameters and variables. -/
structure PathComp.Sound (d : Dims) (r : PathComp) : Prop where
  stage : r.dependsRk = false → ∀ x x' u z z' p v,
    r.a x u z p v = r.a x' u z' p v ∧ r.b x u z p v = r.b x' u z' p v
  ctrl : r.dependsRk = false → r.dependsCtrl = false → ∀ x u u' z p p' v,
    p.drop d.nPtv = p'.drop d.nPtv → p.length = p'.length →
    r.a x u z p v = r.a x u' z p' v ∧ r.b x u z p v = r.b x u' z p' v

/-- The generated optimisation problem in the user's terms. -/
structure FeasibleSpec (o : PreOpts) (d : Dims) (um : UserModel) (uo : UserOcp) (env : Env) :
    Prop where
  /-- variable bounds -/
  bounds : ∀ s, IsVar o d s →
    (varDoc o um uo s).lb ≤ ((env s : ℝ) : EReal) ∧ ((env s : ℝ) : EReal) ≤ (varDoc o um uo s).ub
  /-- algebraic equations at every stage -/
  alg : ∀ k e, HasFE o k e → ∀ j < o.nS, um.Algebraic o d k e j (xVal o d k e j env) env
  /-- dynamics -/
  rk : ∀ k e, HasFE o k e → ∀ j < o.nS, ∀ i < d.nX, RkEq um o d k e j i env
  lift : o.irkRep = .differentialLiftX → ∀ k e, HasFE o k e → ∀ j < o.nS, ∀ i < d.nX,
    LiftEq o k e j i env
  cont : ownEnd o = true → ∀ k e, HasFE o k e → ∀ i < d.nX, EndEq o k e i env
  /-- switching equations at the end point when it is not a stage (FESD only) -/
  boundary : o.rbe = false → o.useFesd = true → ∀ k e, HasFE o k e →
    um.Switching o k e (lastLam o k e) (xEndVal o d k e env) (zVal d k e (o.nS - 1) env)
      (pVal d k env) env
  /-- path constraints at the end of elements, and at stages -/
  pathEnd : ∀ k e, HasFE o k e → (e + 1 = nfe o k ∨ o.gPathAtFe = true) →
    PathSat uo d k (if o.rbe then xVal o d k e (o.nS - 1) env else xEndVal o d k e env) env
  pathStage : o.gPathAtStg = true → ∀ k e, HasFE o k e →
    ∀ j < o.nS - (if o.rbe then 1 else 0), PathSat uo d k (xVal o d k e j env) env
  /-- path complementarities -/
  stageComp : ∀ k e, HasFE o k e → ∀ j < o.nS, ∀ r ∈ stageComps uo,
    Compl o env
      [r.a (xVal o d k e j env) (uVal d k env) (zVal d k e j env) (pVal d k env) (vVal d env)]
      (r.b (xVal o d k e j env) (uVal d k env) (zVal d k e j env) (pVal d k env) (vVal d env))
  ctrlComp : ∀ k e, HasFE o k e → e + 1 = o.nFe → ∀ r ∈ ctrlComps uo,
    Compl o env [r.a [] (uVal d k env) [] (pVal d k env) (vVal d env)]
      (r.b [] (uVal d k env) [] (pVal d k env) (vVal d env))
  globComp : ∀ r ∈ globComps uo,
    Compl o env [r.a [] [] [] (List.replicate d.nPtv 0 ++ pGlobVal d 0 env) (vVal d env)]
      (r.b [] [] [] (List.replicate d.nPtv 0 ++ pGlobVal d 0 env) (vVal d env))
  /-- complementarity of the discontinuity model, without FESD: stage by stage -/
  compStd : o.useFesd = false → ∀ k e, HasFE o k e → ∀ j < o.nS, ∀ q, IsPair o d q →
    Compl o env [lamAt k e j env q] (thetaAt k e j env q)
  /-- FESD cross complementarity, mode COMPLEMENT_ALL -/
  compAll : o.useFesd = true → o.crossComp = .complementAll → ∀ k e, HasFE o k e →
    ∀ j < o.nS, ∀ q, IsPair o d q →
      Compl o env [thetaAt k e j env q] (lamStart o k e env q) ∧
      ∀ j' < o.nS, Compl o env [thetaAt k e j env q] (lamAt k e j' env q)
  /-- FESD cross complementarity, mode SUM_LAMBDAS -/
  compSum : o.useFesd = true → o.crossComp = .sumLambdas → ∀ k e, HasFE o k e →
    ∀ j < o.nS, ∀ q, IsPair o d q →
      Compl o env ((List.range (nLamPts o k e)).map (fun j' => lamAt k e j' env q)
        ++ [lamStart o k e env q]) (thetaAt k e j env q)
  /-- step equilibration by constraints -/
  stepDirect : o.useFesd = true → o.stepEq = .direct → ∀ k e, HasFE o k e → 0 < e →
    nuOf o d k e env * (hVal o k e env - hVal o k (e - 1) env) = 0
  stepDirectComp : o.useFesd = true → o.stepEq = .directComplementarity →
    ∀ k e, HasFE o k e → 0 < e →
      Compl o env [nuOf o d k e env] (hVal o k e env - hVal o k (e - 1) env)
  stepHComp : o.useFesd = true → o.stepEq = .heuristicDeltaHComp →
    ∀ k e, HasFE o k e → 0 < e → Compl o env [0] (hVal o k e env - hVal o k (e - 1) env)
  /-- time grid -/
  equi : o.useFesd = true → o.equidistant = true → ∀ k < o.nStages,
    ∑ e ∈ Finset.range (nfe o k), hVal o k e env = o.terminalTime / o.nStages
  time : 1 < o.nStages → o.useFesd = true → o.equidistant = false →
    ∑ k ∈ Finset.range o.nStages, ∑ e ∈ Finset.range (nfe o k), hVal o k e env = o.terminalTime
  /-- time freezing: the physical clock `t(x)` -/
  freeze : ∀ t, um.tVar = some t → o.timeFreezing = true → o.equidistant = true →
    ∀ k < o.nStages,
      |t (xEndVal o d k (nfe o k - 1) env)
        - (o.terminalTime / o.nStages * ((k : ℝ) + 1)
          + t ((List.range d.nX).map fun i => env (.x0 i)))| ≤ o.timeFreezingTol
  /-- terminal constraint at the end of the last element -/
  term : ∀ i < uo.nGTerminal,
    uo.gTerminal i (xEndVal o d (o.nStages - 1) (nfe o (o.nStages - 1) - 1) env)
      (pVal d (o.nStages - 1) env) (vVal d env) = 0

end Nosnoc
