import Verif.Model.FiniteElement
/-
Model of `NosnocProblem` (nosnoc/problem.py:609-897).
-/
namespace Nosnoc

/-- The index lists of one finite element inside the problem: the entries
`ind_x[k][e]`, …, `ind_x_cont[k][e]`, `ind_bool[k][e]` and the part of `ind_h` contributed by it
(problem.py:666-682). -/
structure FEIdx where
  one : Fam1 → List (List Nat)
  two : Fam2 → List (List (List Nat))
  xCont : List Nat
  h : List Nat
  bool : List (List Nat)

/-- The built problem.  `ind_x[k][e]` of the code is `(idx[k][e]).one .x`, and so on: the nested
lists are grouped by finite element instead of by kind.  `ind_bool` (resp. `ind_comp`) of the code
is `idx.map (·.map FEIdx.bool) ++ boolGlob` (resp. `indComp ++ compGlob`): the global
complementarities append directly to the outer list. -/
structure Problem where
  form : Form
  p : List Sym
  idx : List (List FEIdx)
  indU : List (List Nat)
  indSot : List (List Nat)
  indVGlobal : List (List Nat)
  indElastic : List (List Nat)
  boolGlob : List (List Nat)
  indComp : List (List (List (List Nat)))
  compGlob : List (List Nat)
  /-- `comp_vec`, whose maximum is `comp_res` -/
  compVec : Vec
  w0Original : List ℝ
  ocpTrivial : Bool

/-- problem.py:756, 830. -/
def isElastic (mode : MpccMode) : Bool := match mode with
  | .elasticTwoSided | .elasticEq | .elasticIneq => true
  | _ => false

/-- problem.py:622-632: the finite elements `ii, ii+1, …` of control stage `k`; `n` is the number
left. -/
noncomputable def createFEs (o : PreOpts) (m : PreModel) (oc : PreOcp) (k : Nat) :
    (n ii : Nat) → (prev : FERef) → Except PyErr (List FE)
  | 0, _, _ => .ok []
  | n + 1, ii, prev => do
      let fe ← FE.init o m oc k ii prev
      let rest ← createFEs o m oc k n (ii + 1) (.fe k ii)
      .ok (fe :: rest)

/-- State of `__create_primal_variables`. -/
structure PrimalAcc where
  form : Form
  indU : List (List Nat)
  indSot : List (List Nat)
  stages : List (List FE)
  prev : FERef

/-- problem.py:611-632 `__create_control_stage`, and 655-658. -/
noncomputable def createControlStage (o : PreOpts) (m : PreModel) (oc : PreOcp) (acc : PrimalAcc)
    (k : Nat) : Except PyErr PrimalAcc := do
  -- 613-614
  let (f1, iu) ← acc.form.addVariable (blk m.dims.nU (.u k)) oc.lbu oc.ubu oc.uGuess
  -- 617-619
  let (f2, is) ← if o.sot = .local then do
      let (f, i) ← f1.addVariable [.sot k] [((o.sotMin : ℝ) : EReal)] [((o.sotMax : ℝ) : EReal)]
        [1]
      .ok (f, [i])
    else .ok (f1, [])
  -- 623
  let n ← listGet o.nfeList k
  let fes ← createFEs o m oc k n 0 acc.prev
  -- 658 `stage[-1]`
  check (0 < n) .indexError
  .ok { form := f2, indU := acc.indU ++ [iu], indSot := acc.indSot ++ is,
        stages := acc.stages ++ [fes], prev := .fe k (n - 1) }

/-- `fe0.Lambda()` (problem.py:638): all subsystems of row 0, as symbols. -/
def lambda00Syms (fe0 : FE) : Except PyErr (List Sym) := do
  let a ← fe0.get2 .lam (.nat 0)
  let b ← fe0.get2 .lamN (.nat 0)
  let c ← fe0.get2 .lamP (.nat 0)
  let a' ← gather fe0.form.w a
  let b' ← gather fe0.form.w b
  let c' ← gather fe0.form.w c
  .ok (a' ++ b' ++ c')

/-- problem.py:666-682 `__collect_final_element` (with 685-697 `_add_primal_vector`). -/
def collectFE (f : Form) (fe : FE) : Except PyErr (Form × FEIdx) := do
  let n := f.w.length
  let inc : List Nat → List Nat := List.map (· + n)
  check (fe.form.lbw.length = fe.form.w.length ∧ fe.form.ubw.length = fe.form.w.length ∧
    fe.form.w0.length = fe.form.w.length) .exception
  let xc ← fe.get1 .x .last
  .ok ({ f with w := f.w ++ fe.form.w, lbw := f.lbw ++ fe.form.lbw, ubw := f.ubw ++ fe.form.ubw,
                w0 := f.w0 ++ fe.form.w0 },
    { one := fun fam => (List.range (fe.rows1 fam)).map fun j => inc (fe.ind (.one fam j))
      two := fun fam => (List.range (fe.rows2 fam)).map fun j =>
        (List.range fe.nSys).map fun s => inc (fe.ind (.two fam j s))
      xCont := inc xc
      h := inc fe.indH
      bool := fe.indBool.map inc })

/-- problem.py:663-664, one stage. -/
def collectStage : Form → List FE → Except PyErr (Form × List FEIdx)
  | f, [] => .ok (f, [])
  | f, fe :: rest => do
      let (f1, i) ← collectFE f fe
      let (f2, is) ← collectStage f1 rest
      .ok (f2, i :: is)

/-- problem.py:660-664 `_collect_finite_elements`. -/
def collectAll : Form → List (List FE) → Except PyErr (Form × List (List FEIdx))
  | f, [] => .ok (f, [])
  | f, st :: rest => do
      let (f1, i) ← collectStage f st
      let (f2, is) ← collectAll f1 rest
      .ok (f2, i :: is)

/-- problem.py:785-798: process the finite elements of a stage; the index lists returned are
`ind_comp[k]`. -/
noncomputable def processFEs (hp : Heap) (o : PreOpts) (m : PreModel) (oc : PreOcp)
    (a : StageArgs) : Form → List FE → Except PyErr (Form × List FE × List (List (List Nat)))
  | f, [] => .ok (f, [], [])
  | f, fe :: rest => do
      let fe' ← fe.process hp o m oc a
      -- 797
      let f1 : Form := { f with cost := fun env => f.cost env + fe'.form.cost env }
      -- 699-704
      let ng := f1.g.length
      let (f2, _) ← f1.addConstraint fe'.form.g (some (fe'.form.lbg, fe'.form.ubg))
      let (f3, fes, ics) ← processFEs hp o m oc a f2 rest
      .ok (f3, fe' :: fes, fe'.indComp.map (List.map (· + ng)) :: ics)

/-- `sum([fe.h for fe in stage])` (problem.py:801, 838-839). -/
def sumH (fes : List FE) : Except PyErr Expr := do
  let hs ← fes.mapM FE.hExpr
  .ok (fun env => (hs.map (· env)).sum)

/-- State of the loop at problem.py:776-809. -/
structure ProcAcc where
  form : Form
  stages : List (List FE)
  indComp : List (List (List (List Nat)))

/-- problem.py:776-783: arguments of stage `k`. -/
def stageArgs (o : PreOpts) (d : Dims) (f : Form) (indU indSot : List (List Nat)) (k : Nat) :
    Except PyErr StageArgs := do
  let iu ← listGet indU k
  let u ← gather f.w iu
  let sot ← match o.sot with
    | .local => do
        let i ← listGet indSot k
        let s ← gather f.w i
        listGet (vars s) 0
    | .global => do
        let i ← listGet indSot 0
        let s ← gather f.w i
        listGet (vars s) 0
    | .none => .ok (const 1)
  .ok { uk := vars u, sot := sot, p := vars (blk (d.nPtv + d.nPgl) (.pStage k)),
        v := vars d.mV }

/-- problem.py:803-809: time-freezing constraint at the end of stage `k`. -/
noncomputable def timeFreezing (hp : Heap) (o : PreOpts) (m : PreModel) (k : Nat) (fes : List FE)
    (f : Form) : Except PyErr Form :=
  if o.timeFreezing = true ∧ o.equidistant = true then
    match m.tFun, fes.getLast? with
    | some t, some fe => do
        let x00 ← hp.fe0.read1 .x .last
        let t0 ← t.call1 [x00]
        let xe ← fe.read1 .x .last
        let te ← t.call1 [xe]
        let (f1, _) ← f.addConstraint
          [fun env => te env - (o.terminalTime / o.nStages * ((k : ℝ) + 1) + t0 env)]
          (some ([((-o.timeFreezingTol : ℝ) : EReal)], [((o.timeFreezingTol : ℝ) : EReal)]))
        .ok f1
    | _, _ => .error .attributeError
  else .ok f

/-- problem.py:800-801: equidistant control grid. -/
noncomputable def equidistantCon (o : PreOpts) (fes : List FE) (f : Form) : Except PyErr Form :=
  if o.useFesd = true ∧ o.equidistant = true then do
    let s ← sumH fes
    let (f1, _) ← f.addConstraint [fun env => s env - o.terminalTime / o.nStages] none
    .ok f1
  else .ok f

/-- problem.py:776-809: one control stage. -/
noncomputable def processStage (hp : Heap) (o : PreOpts) (m : PreModel) (oc : PreOcp)
    (indU indSot : List (List Nat)) (acc : ProcAcc) (kst : List FE × Nat) :
    Except PyErr ProcAcc := do
  let a ← stageArgs o m.dims acc.form indU indSot kst.2
  let (f1, fes, ic) ← processFEs hp o m oc a acc.form kst.1
  let f2 ← equidistantCon o fes f1
  let f3 ← timeFreezing hp o m kst.2 fes f2
  .ok { form := f3, stages := acc.stages ++ [fes], indComp := acc.indComp ++ [ic] }

/-- problem.py:706-712 `create_global_compl_constraints`. -/
noncomputable def globalCompl (o : PreOpts) (d : Dims) (oc : PreOcp) (p : List Sym) (f : Form) :
    Except PyErr (Form × Option (List Nat) × Option (List Nat)) := do
  let pg := (p.drop d.nPtv).take d.nPgl
  let ab ← callPair oc.gGlobalFun [vars pg, vars d.mV]
  f.createCompl o.toOpts .boolGlob [ab.1] ab.2

/-- problem.py:823-827: terminal constraint and cost (`p_ctrl_stages[-1]`). -/
noncomputable def terminal (o : PreOpts) (d : Dims) (oc : PreOcp) (stages : List (List FE))
    (f : Form) : Except PyErr Form :=
  match stages.getLast? with
  | none => .error .indexError
  | some st => match st.getLast? with
    | none => .error .indexError
    | some fe => do
        let x ← fe.read1 .x .last
        let args := [x, vars (blk (d.nPtv + d.nPgl) (.pStage (o.nStages - 1))), vars d.mV]
        let g ← oc.gTerminalFun.call args
        let (f1, _) ← f.addConstraint g none
        let c ← oc.fqTFun.call1 args
        .ok { f1 with cost := fun env => f1.cost env + c env }

/-- problem.py:829-834: elastic costs. -/
noncomputable def elasticCost (o : PreOpts) (f : Form) : Form :=
  if isElastic o.mpcc then
    if o.objScalingDirect then
      { f with cost := fun env => f.cost env + 1 / env .sigma * env .sElastic }
    else { f with cost := fun env => env .sigma * f.cost env + env .sElastic }
  else f

/-- problem.py:836-839: terminal numerical time. -/
noncomputable def terminalTimeCon (o : PreOpts) (stages : List (List FE)) (f : Form) :
    Except PyErr Form :=
  if 1 < o.nStages ∧ o.useFesd = true ∧ o.equidistant = false then do
    let s ← sumH stages.flatten
    let (f1, _) ← f.addConstraint [fun env => s env - o.terminalTime] none
    .ok f1
  else .ok f

/-- problem.py:852-863: least-squares reformulation. -/
noncomputable def lsq (o : PreOpts) (f : Form) : Except PyErr Form :=
  if o.constraintHandling = .leastSquares then
    if ∃ l ∈ f.lbg, l ≠ 0 then .error .exception
    else .ok { f with cost := fun env => f.cost env + (f.g.map fun e => e env ^ 2).sum,
                      g := [], lbg := [], ubg := [] }
  else .ok f

/-- The result of the first phase. -/
structure Primal where
  form : Form
  p : List Sym
  hp : Heap
  indU : List (List Nat)
  indSot : List (List Nat)
  indVGlobal : List (List Nat)
  indElastic : List (List Nat)

/-- problem.py:754-766: elastic variable. -/
noncomputable def elasticVar (o : PreOpts) : Except PyErr (Form × List (List Nat)) :=
  if isElastic o.mpcc then do
    let (f, i) ← Form.empty.addVariable [.sElastic] [((o.sElasticMin : ℝ) : EReal)]
      [((o.sElasticMax : ℝ) : EReal)] [o.sElastic0]
    .ok (f, [i])
  else .ok (Form.empty, [])

/-- problem.py:766 and model.py:202-203: `casadi_vertcat_list(p_ctrl_stages), sigma_p, tau`. -/
def pHead (o : PreOpts) (d : Dims) : List Sym :=
  (List.range o.nStages).flatMap (fun k => blk (d.nPtv + d.nPgl) (.pStage k)) ++ [.sigma, .tau]

/-- problem.py:728 and 754-769 (with 634-658 `__create_primal_variables`).
`h_ctrl_stage = terminal_time / N_stages` divides by zero when there are no stages;
`SpeedOfTimeVariableMode.GLOBAL` calls the method `add_variables`, which does not exist. -/
noncomputable def createPrimal (o : PreOpts) (m : PreModel) (oc : PreOcp) :
    Except PyErr Primal := do
  check (o.nStages ≠ 0) .zeroDivision
  let (f0, ie) ← elasticVar o
  let fe0 ← FE.init0 o.pss m
  let l00 ← lambda00Syms fe0
  let x00 ← fe0.get1 .x (.nat 0)
  let x0 ← gather fe0.form.w x00
  let (f1, iv) ← f0.addVariable m.dims.mV oc.lbv oc.ubv oc.vGuess
  check (o.sot ≠ .global) .attributeError
  let acc ← (List.range o.nStages).foldlM (createControlStage o m oc)
    ⟨f1, [], [], [], .zero⟩
  .ok { form := acc.form, p := pHead o m.dims ++ l00 ++ x0, hp := ⟨fe0, acc.stages⟩,
        indU := acc.indU, indSot := acc.indSot, indVGlobal := [iv], indElastic := ie }

/-- problem.py:714-863 `NosnocProblem.__init__` after `preprocess_ocp`. -/
noncomputable def build (o : PreOpts) (m : PreModel) (oc : PreOcp) (ocpTrivial : Bool) :
    Except PyErr Problem := do
  let pr ← createPrimal o m oc
  -- 776-809
  let acc ← pr.hp.stages.zipIdx.foldlM (processStage pr.hp o m oc pr.indU pr.indSot)
    ⟨pr.form, [], []⟩
  -- 812
  let (f1, bg, cg) ← globalCompl o m.dims oc pr.p acc.form
  -- 815-818
  let cv ← acc.stages.flatten.mapM (compVector pr.hp o)
  -- 823-839
  let f2 ← terminal o m.dims oc acc.stages f1
  let f3 := elasticCost o f2
  let f4 ← terminalTimeCon o acc.stages f3
  -- 842
  let (f5, idx) ← collectAll f4 acc.stages
  -- 853-863
  let f6 ← lsq o f5
  .ok { form := f6, p := pr.p, idx := idx, indU := pr.indU, indSot := pr.indSot,
        indVGlobal := pr.indVGlobal, indElastic := pr.indElastic, boolGlob := appendIdx [] bg,
        indComp := acc.indComp, compGlob := appendIdx [] cg, compVec := cv.flatten,
        w0Original := f5.w0, ocpTrivial := ocpTrivial }

/-- problem.py:714-726 and solver.py:17-25: from user data to the problem. -/
noncomputable def construct (colloc : IrkScheme → Nat → List ℝ) (o : Opts) (um : UserModel)
    (uo : Option UserOcp) : Except PyErr (PreOpts × PreModel × PreOcp × Problem) := do
  um.initCheck
  let po ← o.preprocess colloc
  let m ← um.preprocess po
  let oc ← (uo.getD UserOcp.trivial).preprocess m
  let p ← build po m oc uo.isNone
  .ok (po, m, oc, p)

/-- problem.py:890-897 `is_sim_problem`. -/
def Problem.isSim (pr : Problem) (o : PreOpts) (m : PreModel) : Bool :=
  decide (m.dims.nU = 0) && decide (o.nStages = 1) && pr.ocpTrivial

/-- The point `env` satisfies bounds and constraints of the problem (what an NLP solver is asked
for; parameters are the values of the symbols in `p`). -/
def Form.Feasible (f : Form) (env : Env) : Prop :=
  (∀ q ∈ f.w.zip (f.lbw.zip f.ubw), q.2.1 ≤ ((env q.1 : ℝ) : EReal) ∧
      ((env q.1 : ℝ) : EReal) ≤ q.2.2) ∧
  (∀ q ∈ f.g.zip (f.lbg.zip f.ubg), q.2.1 ≤ ((q.1 env : ℝ) : EReal) ∧
      ((q.1 env : ℝ) : EReal) ≤ q.2.2)

end Nosnoc
