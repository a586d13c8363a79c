import Verif.Model.Formulation
/-
Model of `FiniteElementZero` and `FiniteElement` (nosnoc/problem.py:178-606).
-/
namespace Nosnoc

/-- A cell of the nested index lists of a finite element: `ind_v/x/z[j]` or `ind_theta/…[j][s]`
(problem.py:253-267). -/
inductive Slot
  | one (f : Fam1) (j : Nat)
  | two (f : Fam2) (j s : Nat)
  deriving DecidableEq, Repr

/-- A reference to a finite element object: `fe0` or `stages[k][e]`. -/
inductive FERef
  | zero
  | fe (k e : Nat)
  deriving DecidableEq, Repr

/-- Objects of type `FiniteElementZero`/`FiniteElement`.  The nested index lists are given by
their numbers of rows (`len(self.ind_x)`, …, all rows of the two-level lists have `nSys` cells,
`create_empty_list_matrix`) and the content of each cell. -/
structure FE where
  form : Form
  nSys : Nat
  rows1 : Fam1 → Nat
  rows2 : Fam2 → Nat
  ind : Slot → List Nat
  k : Nat
  e : Nat
  prev : Option FERef
  h : Option Expr
  indH : List Nat
  indComp : List (List Nat)
  indBool : List (List Nat)

/-- Is a cell within the index lists? -/
def FE.inRange (fe : FE) : Slot → Prop
  | .one f j => j < fe.rows1 f
  | .two f j s => j < fe.rows2 f ∧ s < fe.nSys

instance (fe : FE) (s : Slot) : Decidable (fe.inRange s) := by
  cases s <;> unfold FE.inRange <;> infer_instance

/-- One call of `self.add_variable(sym, ind, lb, ub, initial, stage[, sys])`. -/
structure VarCall where
  slot : Slot
  syms : List Sym
  lb : List EReal
  ub : List EReal
  init : List ℝ

/-- problem.py:42-70 `add_variable` with `stage` given: the cell is overwritten, IndexError when
it does not exist. -/
def FE.addVar (fe : FE) (c : VarCall) : Except PyErr FE := do
  let (f, idx) ← fe.form.addVariable c.syms c.lb c.ub c.init
  if fe.inRange c.slot then
    .ok { fe with form := f, ind := fun s => if s = c.slot then idx else fe.ind s }
  else .error .indexError

/-- problem.py:188-219 `FiniteElementZero.__init__`: the `add_variable` calls. -/
noncomputable def fe0Calls (pss : PssMode) (d : Dims) (x0 : List ℝ) : List VarCall :=
  { slot := .one .x 0, syms := blk d.nX .x0, lb := x0.map (fun r => (r : EReal)),
    ub := x0.map (fun r => (r : EReal)), init := x0 }
  :: (List.range d.nSys).flatMap fun s =>
    let call (f : Fam2) (n : Nat) : VarCall :=
      { slot := .two f 0 s, syms := blk n (.lam00 f s), lb := List.replicate n ⊥,
        ub := List.replicate n ⊤, init := List.replicate n 1 }
    match pss with
    | .stewart => [call .lam (d.nF s)]
    | .step => [call .lamN (d.nC s), call .lamP (d.nC s)]

/-- problem.py:192-195: the index lists of `FiniteElementZero`. -/
noncomputable def FE.blank0 (d : Dims) : FE where
  form := Form.empty
  nSys := d.nSys
  rows1 := fun f => match f with | .x => 1 | _ => 0
  rows2 := fun f => match f with | .lam | .lamN | .lamP => 1 | _ => 0
  ind := fun _ => []
  k := 0
  e := 0
  prev := none
  h := none
  indH := []
  indComp := []
  indBool := []

/-- problem.py:188-219. -/
noncomputable def FE.init0 (pss : PssMode) (m : PreModel) : Except PyErr FE :=
  (fe0Calls pss m.dims m.x0).foldlM FE.addVar (FE.blank0 m.dims)

/-- problem.py:248-249 `create_right_boundary_point`. -/
def rightBoundary (o : PreOpts) (k e : Nat) : Bool :=
  o.useFesd && !o.rbe && decide (e + 1 < o.nfeList.getD k 0)

/-- problem.py:250 `end_allowance`. -/
def endAllowance (o : PreOpts) (k e : Nat) : Nat := if rightBoundary o k e then 1 else 0

/-- problem.py:387-388: is there a separate end-state variable? -/
def hasXEnd (o : PreOpts) : Bool := !o.rbe || decide (o.irkRep = .differential)

/-- problem.py:253-259: `len(self.ind_x)`. -/
def rowsX (o : PreOpts) : Nat :=
  if o.irkRep = .differential then 1 else if o.rbe then o.nS else o.nS + 1

/-- problem.py:274-275 `h0`. -/
noncomputable def h0Of (o : PreOpts) (k : Nat) : ℝ :=
  o.terminalTime / o.nStages / (o.nfeList.getD k 0 : ℕ)

/-- problem.py:284-287 `lb_dual`. -/
noncomputable def lbDual (mode : MpccMode) : EReal := match mode with
  | .scholtesEq | .scholtesIneq | .elasticIneq | .elasticEq => 0
  | _ => ⊥

/-- problem.py:253-287: index lists, step size variable (274-282, 393-400) of finite element
`(k, e)`. -/
noncomputable def FE.blank (o : PreOpts) (d : Dims) (k e : Nat) (prev : FERef) : FE :=
  let h0 := h0Of o k
  let ea := endAllowance o k e
  { form :=
      if o.useFesd then
        { Form.empty with w := [.h k e], lbw := [(((1 - o.gammaH) * h0 : ℝ) : EReal)],
                          ubw := [(((1 + o.gammaH) * h0 : ℝ) : EReal)], w0 := [h0] }
      else Form.empty
    nSys := d.nSys
    rows1 := fun f => match f with | .v => o.nS | .x => rowsX o | .z => o.nS
    rows2 := fun f => match f with | .theta | .alpha => o.nS | _ => o.nS + ea
    ind := fun _ => []
    k := k
    e := e
    prev := some prev
    h := some (if o.useFesd then var (.h k e) else const h0)
    indH := if o.useFesd then [0] else []
    indComp := []
    indBool := [] }

/-- A group of calls, one per subsystem (problem.py:305-348, 359-385). -/
noncomputable def famCalls (d : Dims) (f : Fam2) (k e j : Nat) (len : Nat → Nat) (lb ub : EReal)
    (init : Nat → ℝ) : List VarCall :=
  (List.range d.nSys).map fun s =>
    { slot := .two f j s, syms := blk (len s) (.st2 f k e j s),
      lb := List.replicate (len s) lb, ub := List.replicate (len s) ub,
      init := List.replicate (len s) (init s) }

/-- problem.py:290-353: the calls for Runge-Kutta stage `j`. -/
noncomputable def stageCalls (o : PreOpts) (m : PreModel) (oc : PreOcp) (k e j : Nat) :
    List VarCall :=
  let d := m.dims
  let lbd := lbDual o.mpcc
  -- 292-296
  (if o.irkRep = .differential ∨ o.irkRep = .differentialLiftX then
    [{ slot := .one .v j, syms := blk d.nX (.st1 .v k e j), lb := List.replicate d.nX ⊥,
       ub := List.replicate d.nX ⊤, init := List.replicate d.nX 0 }] else [])
  -- 298-301
  ++ (if o.irkRep = .integral ∨ o.irkRep = .differentialLiftX then
    [{ slot := .one .x j, syms := blk d.nX (.st1 .x k e j), lb := oc.lbx, ub := oc.ubx,
       init := m.x0 }] else [])
  ++ (match o.pss with
    | .stewart => -- 303-326
      famCalls d .theta k e j d.nF lbd ⊤ (fun s => o.sigma0 / d.nF s)
      ++ famCalls d .lam k e j d.nF lbd ⊤ (fun s => o.sigma0 / d.nF s)
      ++ famCalls d .mu k e j (fun _ => 1) ⊥ ⊤ (fun _ => 1)
    | .step => -- 327-348
      famCalls d .alpha k e j d.nC lbd 1 (fun _ => 1 / 2)
      ++ famCalls d .lamN k e j d.nC lbd ⊤ (fun _ => 1 / 2)
      ++ famCalls d .lamP k e j d.nC lbd ⊤ (fun _ => 1 / 2))
  -- 350-353
  ++ [{ slot := .one .z j, syms := blk d.nZ (.st1 .z k e j), lb := m.lbz, ub := m.ubz,
        init := m.z0 }]

/-- problem.py:356-385: the calls for the right boundary point. -/
noncomputable def boundaryCalls (o : PreOpts) (m : PreModel) (k e : Nat) : List VarCall :=
  let d := m.dims
  let lbd := lbDual o.mpcc
  if rightBoundary o k e then
    match o.pss with
    | .stewart =>
      famCalls d .lam k e o.nS d.nF lbd ⊤ (fun s => o.sigma0 / d.nF s)
      ++ famCalls d .mu k e o.nS (fun _ => 1) ⊥ ⊤ (fun _ => 1)
    | .step =>
      famCalls d .lamN k e o.nS d.nC lbd ⊤ (fun _ => 1 / 2)
      ++ famCalls d .lamP k e o.nS d.nC lbd ⊤ (fun _ => 1 / 2)
  else []

/-- problem.py:387-391: the call for the end state (`stage = -1`, the last row). -/
noncomputable def xEndCalls (o : PreOpts) (m : PreModel) (oc : PreOcp) (k e : Nat) :
    List VarCall :=
  if hasXEnd o then
    [{ slot := .one .x (rowsX o - 1), syms := blk m.dims.nX (.xEnd k e), lb := oc.lbx,
       ub := oc.ubx, init := m.x0 }]
  else []

/-- All `add_variable` calls of `FiniteElement.__init__`, in order. -/
noncomputable def feCalls (o : PreOpts) (m : PreModel) (oc : PreOcp) (k e : Nat) : List VarCall :=
  (List.range o.nS).flatMap (stageCalls o m oc k e) ++ boundaryCalls o m k e
    ++ xEndCalls o m oc k e

/-- problem.py:224-391 `FiniteElement.__init__`. -/
noncomputable def FE.init (o : PreOpts) (m : PreModel) (oc : PreOcp) (k e : Nat) (prev : FERef) :
    Except PyErr FE :=
  (feCalls o m oc k e).foldlM FE.addVar (FE.blank o m.dims k e prev)

/-! ### Reading variables through the index lists -/

/-- A Python list index: nonnegative, or `-1`. -/
inductive PyIdx
  | nat (j : Nat)
  | last

/-- Resolve an index for a list with `n` entries (IndexError when out of range). -/
def PyIdx.resolve (n : Nat) : PyIdx → Except PyErr Nat
  | .nat j => if j < n then .ok j else .error .indexError
  | .last => if 0 < n then .ok (n - 1) else .error .indexError

/-- `self.ind_x[i]` etc. -/
def FE.get1 (fe : FE) (f : Fam1) (i : PyIdx) : Except PyErr (List Nat) := do
  let j ← i.resolve (fe.rows1 f)
  .ok (fe.ind (.one f j))

/-- `flatten(self.ind_theta[i])` etc. -/
def FE.get2 (fe : FE) (f : Fam2) (i : PyIdx) : Except PyErr (List Nat) := do
  let j ← i.resolve (fe.rows2 f)
  .ok ((List.range fe.nSys).flatMap fun s => fe.ind (.two f j s))

/-- `self.w[self.ind_x[i]]` etc. -/
def FE.read1 (fe : FE) (f : Fam1) (i : PyIdx) : Except PyErr Vec := do
  let idx ← fe.get1 f i
  vars <$> gather fe.form.w idx

/-- `self.w[flatten(self.ind_theta[i])]` etc. -/
def FE.read2 (fe : FE) (f : Fam2) (i : PyIdx) : Except PyErr Vec := do
  let idx ← fe.get2 f i
  vars <$> gather fe.form.w idx

/-- problem.py:180-183 `Lambda(stage)`. -/
def FE.Lambda (fe : FE) (i : PyIdx) : Except PyErr Vec := do
  let a ← fe.read2 .lam i
  let b ← fe.read2 .lamN i
  let c ← fe.read2 .lamP i
  .ok (a ++ b ++ c)

/-- problem.py:402-407 `rk_stage_z(stage)`. -/
def FE.rkStageZ (fe : FE) (i : PyIdx) : Except PyErr Vec := do
  let a ← fe.get2 .theta i
  let b ← fe.get2 .lam i
  let c ← fe.get2 .mu i
  let d ← fe.get2 .alpha i
  let e ← fe.get2 .lamN i
  let f ← fe.get2 .lamP i
  let z ← fe.get1 .z i
  vars <$> gather fe.form.w (a ++ b ++ c ++ d ++ e ++ f ++ z)

/-- problem.py:409-414 `Theta(stage)`. -/
def FE.Theta (fe : FE) (i : PyIdx) : Except PyErr Vec := do
  let a ← fe.read2 .theta i
  let b ← fe.read2 .alpha i
  .ok (a ++ b ++ b.map (fun x env => 1 - x env))

/-- The objects that exist once all variables are created (problem.py:634-658). -/
structure Heap where
  fe0 : FE
  stages : List (List FE)

/-- Follow a `prev_fe` pointer. -/
def Heap.deref (hp : Heap) : FERef → Except PyErr FE
  | .zero => .ok hp.fe0
  | .fe k e => match hp.stages[k]? with
    | none => .error .indexError
    | some st => match st[e]? with
      | none => .error .indexError
      | some fe => .ok fe

/-- `self.prev_fe` (`None` has no attributes). -/
def Heap.prevOf (hp : Heap) (fe : FE) : Except PyErr FE := match fe.prev with
  | none => .error .attributeError
  | some r => hp.deref r

/-- `self.prev_fe.w[self.prev_fe.ind_x[-1]]` (problem.py:440, 457-463, 477). -/
def Heap.prevX (hp : Heap) (fe : FE) : Except PyErr Vec := do
  let p ← hp.prevOf fe
  p.read1 .x .last

/-- `self.h` (only a `FiniteElement` has one). -/
def FE.hExpr (fe : FE) : Except PyErr Expr := match fe.h with
  | some h => .ok h
  | none => .error .attributeError

/-- utils.py:57-61 `casadi_sum_list` (IndexError on the empty list). -/
def sumVecs : List Vec → Except PyErr Vec
  | [] => .error .indexError
  | v :: vs => vs.foldlM (fun acc x =>
      if acc.length = x.length then .ok (vadd acc x) else .error .casadi) v

/-- problem.py:422-425 `get_Lambdas_incl_last_prev_fe()`. -/
def Heap.lambdasInclPrev (hp : Heap) (fe : FE) : Except PyErr (List Vec) := do
  let ls ← (List.range (fe.rows2 .lam)).mapM fun j => fe.Lambda (.nat j)
  let p ← hp.prevOf fe
  let l ← p.Lambda .last
  .ok (ls ++ [l])

/-- problem.py:427-430 `sum_Lambda()`. -/
def Heap.sumLambda (hp : Heap) (fe : FE) : Except PyErr Vec := do
  let ls ← hp.lambdasInclPrev fe
  sumVecs ls

/-- problem.py:416-420 `sum_Theta()`. -/
def FE.sumTheta (fe : FE) : Except PyErr Vec := do
  let ls ← (List.range (fe.rows2 .theta)).mapM fun j => fe.Theta (.nat j)
  sumVecs ls

/-- `x_temp` of problem.py:440-442 and 463-465: `x_prev + sum_r h A[j,r] V_r`. -/
def rkState (o : PreOpts) (fe : FE) (xPrev : Vec) (h : Expr) (j : Nat) : Except PyErr Vec :=
  (List.range o.nS).foldlM (fun acc r => do
    let v ← fe.read1 .v (.nat r)
    .ok (vadd acc (vsmul (fun env => h env * o.aIrk j r) v))) xPrev

/-- problem.py:432-448 `X_fe()`. -/
def Heap.xFe (hp : Heap) (o : PreOpts) (fe : FE) : Except PyErr (List Vec) :=
  match o.irkRep with
  | .differential => do
      let xs ← (List.range o.nS).mapM fun j => do
        let xp ← hp.prevX fe
        let h ← fe.hExpr
        rkState o fe xp h j
      let xe ← fe.read1 .x .last
      .ok (xs ++ [xe])
  | _ => (List.range (fe.rows1 .x)).mapM fun j => fe.read1 .x (.nat j)

/-- Reading `X_fe[j]`. -/
def listGet {α : Type} (l : List α) (j : Nat) : Except PyErr α := match l[j]? with
  | some a => .ok a
  | none => .error .indexError

/-- What the finite element is told to do: one call of `add_constraint` (bounds optional), of
`create_complementarity([x…], y, …)`, or `self.cost += e`. -/
inductive Cmd
  | con (g : Vec) (bnd : Option (List EReal × List EReal))
  | compl (xs : List Vec) (y : Vec)
  | cost (e : Expr)

/-- The data of the enclosing control stage: `Uk`, `sot` and `p_ctrl_stages[k]`
(problem.py:776-783, 243, model.py:203). -/
structure StageArgs where
  uk : Vec
  sot : Expr
  p : Vec
  v : Vec

/-- `f(...)` for a scalar-valued function. -/
def CFun.call1 (f : CFun) (args : List Vec) : Except PyErr Expr := do
  let r ← f.call args
  listGet r 0

/-- problem.py:462-467: lifting constraints (DIFFERENTIAL_LIFT_X). -/
def liftCmds (hp : Heap) (o : PreOpts) (fe : FE) : Except PyErr (List Cmd) :=
  if o.irkRep = .differentialLiftX then
    (List.range o.nS).mapM fun j => do
      let xp ← hp.prevX fe
      let h ← fe.hExpr
      let xt ← rkState o fe xp h j
      let xj ← fe.read1 .x (.nat j)
      .ok (Cmd.con (vsub xj xt) none)
  else .ok []

/-- problem.py:469-487: the commands for stage `j` of the Runge-Kutta loop. -/
def stageCmds (hp : Heap) (o : PreOpts) (m : PreModel) (oc : PreOcp) (a : StageArgs) (fe : FE)
    (X : List Vec) (j : Nat) : Except PyErr (List Cmd) := do
  let xj ← listGet X j
  let z ← fe.rkStageZ (.nat j)
  let f ← m.fxFun.call [xj, z, a.uk, a.p, a.v]
  let fj := vsmul a.sot f
  let q ← oc.fqFun.call1 [xj, a.uk, a.p, a.v]
  let qj : Expr := fun env => a.sot env * q env
  let gj ← m.gzAllFun.call [xj, z, a.uk, a.p]
  let h ← fe.hExpr
  match o.irkRep with
  | .integral =>
      let xp ← hp.prevX fe
      let s ← (List.range o.nS).foldlM (fun acc r => do
        let xr ← listGet X r
        .ok (vadd acc (vsmul (const (o.CIrk (r + 1) (j + 1))) xr)))
        (vsmul (const (o.CIrk 0 (j + 1))) xp)
      .ok [.con gj none, .con (vsub (vsmul h fj) s) none,
           .cost (fun env => o.BIrk (j + 1) * h env * qj env)]
  | _ =>
      let v ← fe.read1 .v (.nat j)
      .ok [.con gj none, .con (vsub fj v) none, .cost (fun env => o.bIrk j * h env * qj env)]

/-- problem.py:456-461, 480, 485: the expression `Xk_end` after the loop. -/
def xkEnd (hp : Heap) (o : PreOpts) (fe : FE) (X : List Vec) : Except PyErr Vec := do
  let xp ← hp.prevX fe
  match o.irkRep with
  | .integral =>
      (List.range o.nS).foldlM (fun acc j => do
        let xj ← listGet X j
        .ok (vadd acc (vsmul (const (o.DIrk (j + 1))) xj)))
        (vsmul (const (o.DIrk 0)) xp)
  | _ => do
      let h ← fe.hExpr
      (List.range o.nS).foldlM (fun acc j => do
        let v ← fe.read1 .v (.nat j)
        .ok (vadd acc (vsmul (fun env => h env * o.bIrk j) v))) xp

/-- problem.py:489-492: continuity condition. -/
def continuityCmds (hp : Heap) (o : PreOpts) (fe : FE) (X : List Vec) :
    Except PyErr (List Cmd) :=
  if hasXEnd o then do
    let xk ← xkEnd hp o fe X
    let xe ← fe.read1 .x .last
    .ok [.con (vsub xk xe) none]
  else .ok []

/-- problem.py:494-505: generic path constraints. -/
def pathCmds (o : PreOpts) (oc : PreOcp) (a : StageArgs) (fe : FE) (X : List Vec) :
    Except PyErr (List Cmd) := do
  let last ← if fe.e + 1 = o.nfeList.getD fe.k 0 ∨ o.gPathAtFe = true then do
      let x ← listGet X (o.nS + (if o.rbe then 0 else 1) - 1)
      let g ← oc.gPathFun.call [x, a.uk, a.p, a.v]
      .ok [Cmd.con g (some (oc.lbg, oc.ubg))]
    else .ok []
  let stg ← if o.gPathAtStg then
      (List.range (o.nS - (if o.rbe then 1 else 0))).mapM fun j => do
        let x ← listGet X j
        let g ← oc.gPathFun.call [x, a.uk, a.p, a.v]
        .ok (Cmd.con g (some (oc.lbg, oc.ubg)))
    else .ok []
  .ok (last ++ stg)

/-- problem.py:507-510: switching equations at the boundary point. -/
def boundaryCmds (o : PreOpts) (m : PreModel) (a : StageArgs) (fe : FE) :
    Except PyErr (List Cmd) :=
  if o.rbe = false ∧ o.useFesd = true then do
    let x ← fe.read1 .x .last
    let z ← fe.rkStageZ .last
    let g ← m.gzSwitchingFun.call [x, z, a.uk, a.p]
    .ok [.con g none]
  else .ok []

/-- problem.py:450-512 `forward_simulation`. -/
def forwardSim (hp : Heap) (o : PreOpts) (m : PreModel) (oc : PreOcp) (a : StageArgs) (fe : FE) :
    Except PyErr (List Cmd) := do
  let X ← hp.xFe o fe
  let c1 ← liftCmds hp o fe
  let c2 ← (List.range o.nS).mapM (stageCmds hp o m oc a fe X)
  let c3 ← continuityCmds hp o fe X
  let c4 ← pathCmds o oc a fe X
  let c5 ← boundaryCmds o m a fe
  .ok (c1 ++ c2.flatten ++ c3 ++ c4 ++ c5)

/-- Call a two-column function and split the columns (problem.py:538-539). -/
def callPair (f : CFun × CFun) (args : List Vec) : Except PyErr (Vec × Vec) := do
  let a ← f.1.call args
  let b ← f.2.call args
  .ok (a, b)

/-- problem.py:533-544: path complementarities of the finite element. -/
def pathCompCmds (hp : Heap) (o : PreOpts) (oc : PreOcp) (a : StageArgs) (fe : FE) :
    Except PyErr (List Cmd) := do
  let X ← hp.xFe o fe
  let c1 ← (List.range o.nS).mapM fun j => do
    let z ← fe.rkStageZ (.nat j)
    let x ← listGet X j
    let ab ← callPair oc.gRkFun [x, a.uk, z, a.p, a.v]
    .ok (Cmd.compl [ab.1] ab.2)
  let c2 ← if fe.e + 1 = o.nFe then do
      let ab ← callPair oc.gCtrlFun [a.uk, a.p, a.v]
      .ok [Cmd.compl [ab.1] ab.2]
    else .ok []
  .ok (c1 ++ c2)

/-- problem.py:546-563: standard and cross complementarities. -/
def crossCompCmds (hp : Heap) (o : PreOpts) (fe : FE) : Except PyErr (List Cmd) :=
  if o.useFesd = false then
    (List.range o.nS).mapM fun j => do
      let l ← fe.Lambda (.nat j)
      let t ← fe.Theta (.nat j)
      .ok (Cmd.compl [l] t)
  else match o.crossComp with
  | .complementAll => do
      let cs ← (List.range o.nS).mapM fun j => do
        let t ← fe.Theta (.nat j)
        let p ← hp.prevOf fe
        let lp ← p.Lambda .last
        let inner ← (List.range o.nS).mapM fun jj => do
          let l ← fe.Lambda (.nat jj)
          .ok (Cmd.compl [t] l)
        .ok (Cmd.compl [t] lp :: inner)
      .ok cs.flatten
  | .sumLambdas =>
      (List.range o.nS).mapM fun j => do
        let ls ← hp.lambdasInclPrev fe
        let t ← fe.Theta (.nat j)
        .ok (Cmd.compl ls t)

/-- problem.py:587-592: `nu_k`. -/
def nuK (hp : Heap) (fe prev : FE) : Except PyErr Expr := do
  let lp ← hp.sumLambda prev
  let l ← hp.sumLambda fe
  let tp ← prev.sumTheta
  let t ← fe.sumTheta
  if lp.length = l.length ∧ tp.length = t.length ∧ lp.length = tp.length then
    let eta := vadd (vmul lp l) (vmul tp t)
    .ok (fun env => (evalVec eta env).prod)
  else .error .casadi

/-- problem.py:566-606 `step_equilibration`. -/
noncomputable def stepEqCmds (hp : Heap) (o : PreOpts) (fe : FE) : Except PyErr (List Cmd) :=
  if o.useFesd = false then .ok []
  else if o.stepEq = .heuristicMean then do
    let h ← fe.hExpr
    let hFe := o.terminalTime / ((o.nStages : ℝ) * (o.nfeList.getD fe.k 0 : ℕ))
    .ok [.cost fun env => o.rhoH * (h env - hFe) ^ 2]
  else if fe.e = 0 then .ok []
  else do
    let p ← hp.prevOf fe
    let h ← fe.hExpr
    let hp' ← p.hExpr
    let delta : Expr := fun env => h env - hp' env
    if o.stepEq = .heuristicDelta then
      .ok [.cost fun env => o.rhoH * delta env ^ 2]
    else do
      let nu ← nuK hp fe p
      match o.stepEq with
      | .l2RelaxedScaled =>
          .ok [.cost fun env => o.rhoH * Real.tanh (nu env / o.stepEqSigma) * delta env ^ 2]
      | .l2Relaxed => .ok [.cost fun env => o.rhoH * nu env * delta env ^ 2]
      | .direct => .ok [.con [fun env => nu env * delta env] none]
      | .directComplementarity => .ok [.compl [[nu]] [delta]]
      | .heuristicDeltaHComp => .ok [.compl [[const 0]] [delta]]
      | _ => .ok []

/-- problem.py:514-531 `get_complementarity_vector`; the products are elementwise. -/
def compVector (hp : Heap) (o : PreOpts) (fe : FE) : Except PyErr Vec :=
  if o.useFesd then do
    let cs ← (List.range o.nS).mapM fun j => do
      let t ← fe.Theta (.nat j)
      let p ← hp.prevOf fe
      let lp ← p.Lambda .last
      check (t.length = lp.length) .casadi
      let inner ← (List.range o.nS).mapM fun jj => do
        let l ← fe.Lambda (.nat jj)
        check (t.length = l.length) .casadi
        .ok (vmul t l)
      .ok (vmul t lp ++ inner.flatten)
    .ok cs.flatten
  else do
    let cs ← (List.range o.nS).mapM fun j => do
      let t ← fe.Theta (.nat j)
      let l ← fe.Lambda (.nat j)
      check (t.length = l.length) .casadi
      .ok (vmul t l)
    .ok cs.flatten

/-- Append an index list, if any (problem.py:83-86). -/
def appendIdx (l : List (List Nat)) : Option (List Nat) → List (List Nat)
  | none => l
  | some i => l ++ [i]

/-- Execute one command on a finite element. -/
noncomputable def FE.exec (o : PreOpts) (fe : FE) (c : Cmd) : Except PyErr FE := match c with
  | .con g bnd => do
      let (f, _) ← fe.form.addConstraint g bnd
      .ok { fe with form := f }
  | .compl xs y => do
      let (f, bi, ci) ← fe.form.createCompl o.toOpts (.boolFe fe.k fe.e) xs y
      .ok { fe with form := f, indBool := appendIdx fe.indBool bi,
                    indComp := appendIdx fe.indComp ci }
  | .cost e =>
      .ok { fe with form := { fe.form with cost := fun env => fe.form.cost env + e env } }

/-- problem.py:787-794: the processing of one finite element.  The commands are computed from the
variables as created in `__init__`; executing them only appends to `w` and to the lists of
constraint/boolean indices, so the reads are the same as in the interleaved original
(`Verif/Proofs/Rows.lean`, `exec_reads`). -/
noncomputable def FE.process (hp : Heap) (o : PreOpts) (m : PreModel) (oc : PreOcp)
    (a : StageArgs) (fe : FE) : Except PyErr FE := do
  let c1 ← forwardSim hp o m oc a fe
  let c2 ← pathCompCmds hp o oc a fe
  let c3 ← crossCompCmds hp o fe
  let c4 ← stepEqCmds hp o fe
  (c1 ++ c2 ++ c3 ++ c4).foldlM (FE.exec o) fe

end Nosnoc
