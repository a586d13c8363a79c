import Verif.Model.Solver
/-
The objects of a process that uses the library, and what operations on one of them do to the others.

Options, model and ocp objects are mutable and shared: preprocessing writes defaults into them, and
a solver only stores references to its options and its model (nosnoc/solver.py:34-39).  The IPOPT
options are a class attribute of `NosnocOpts` (nosnoc/nosnoc_opts.py:85-106), i.e. one dictionary
for all options objects.

Objects are numbered in the order of their creation.  An operation that refers to an object that does
not exist does nothing.
-/
namespace Nosnoc

/-- nosnoc_opts.py:85-106: the entries of the class attribute `opts_casadi_nlp['ipopt']` that are
reached through properties.  `none` is `None` (for `mu_target`: not present). -/
structure IpoptDict where
  tol : Option ℝ
  dualInfTol : Option ℝ
  complInfTol : Option ℝ
  muTarget : Option ℝ
  maxIter : Int

/-- nosnoc_opts.py:90, 101-103: the values after import. -/
def IpoptDict.initial : IpoptDict := ⟨none, none, none, none, 500⟩

/-- nosnoc_opts.py:93-100: assignment to `tol_ipopt`. -/
def IpoptDict.setTol (d : IpoptDict) (v : Option ℝ) : IpoptDict :=
  { d with tol := v, dualInfTol := v, complInfTol := v, muTarget := v }

/-- nosnoc_opts.py:136-137. -/
noncomputable def IpoptDict.defaultTol (d : IpoptDict) (compTol : ℝ) : IpoptDict := match d.tol with
  | none => d.setTol (some (compTol * (1 / 100)))
  | some _ => d

/-- `NosnocOpts(...)`: the attributes set by `preprocess` do not exist yet; they are never read before
`preprocess` sets them. -/
def Opts.fresh (o : Opts) : PreOpts :=
  { o with aIrk := fun _ _ => 0, bIrk := fun _ => 0, BIrk := fun _ => 0, CIrk := fun _ _ => 0,
           DIrk := fun _ => 0, timePts := [], rbe := false }

/-- nosnoc_opts.py:147-170: the options object after `preprocess`, which may raise on the way.
(Tableau attributes of the representation that is not used keep older values in Python; they are
not read.) -/
noncomputable def PreOpts.preprocessed (colloc : IrkScheme → Nat → List ℝ) (o : PreOpts) :
    PreOpts × Option PyErr :=
  match o.toOpts.maxIter with
  | .error e => (o, some e)
  | .ok k => match o.toOpts.preprocess colloc with
    | .error e => ({ o with maxIterHomotopy := k, nfeList := o.toOpts.nfeAfter }, some e)
    | .ok po => (po, none)

/-- A default is filled in. -/
def fill {α : Type} (given : Option (List α)) (n : Nat) (dflt : α) : Option (List α) :=
  some (given.getD (List.replicate n dflt))

/-- A vector that was left out or has the right length. -/
def lenOk {α : Type} (given : Option (List α)) (n : Nat) : Bool := match given with
  | none => true
  | some l => decide (l.length = n)

/-- model.py:127-191: the model object after `preprocess_model`, whether or not that raises: the
defaults of `z0`, `lbz`, `ubz` and `p_time_var_val` are stored, up to the point where it raises. -/
noncomputable def UserModel.touched (m : UserModel) (o : PreOpts) : UserModel :=
  if lenOk m.z0 m.nZ = false then m else
  let m1 := { m with z0 := fill m.z0 m.nZ 0 }
  if lenOk m.lbz m.nZ = false then m1 else
  let m2 := { m1 with lbz := fill m.lbz m.nZ ⊥ }
  if lenOk m.ubz m.nZ = false then m2 else
  let m3 := { m2 with ubz := fill m.ubz m.nZ ⊤ }
  match m.nCsys, m.nFsys o.pss with
  | .ok _, .ok _ =>
      if m.pGlobalVal.length = m.nPgl then
        { m3 with pTimeVarVal := some (m.ptv o.nStages) }
      else m3
  | _, _ => m3

/-- ocp.py:73-152: the ocp object after `preprocess_ocp`, whether or not that raises. -/
noncomputable def UserOcp.touched (oc : UserOcp) (d : Dims) : UserOcp :=
  if oc.gPathCompWidth ≠ 2 then oc else
  if lenOk oc.lbg oc.nGPath = false then oc else
  let oc := { oc with lbg := fill oc.lbg oc.nGPath 0 }
  if lenOk oc.ubg oc.nGPath = false then oc else
  let oc := { oc with ubg := fill oc.ubg oc.nGPath 0 }
  if lenOk oc.lbx d.nX = false then oc else
  let oc := { oc with lbx := fill oc.lbx d.nX ⊥ }
  if lenOk oc.ubx d.nX = false then oc else
  let oc := { oc with ubx := fill oc.ubx d.nX ⊤ }
  if lenOk oc.lbu d.nU = false then oc else
  let oc := { oc with lbu := fill oc.lbu d.nU ⊥ }
  if lenOk oc.ubu d.nU = false then oc else
  let oc := { oc with ubu := fill oc.ubu d.nU ⊤ }
  if lenOk oc.uGuess d.nU = false then oc else
  let oc := { oc with uGuess := fill oc.uGuess d.nU 0 }
  if lenOk oc.lbv d.nV = false then oc else
  let oc := { oc with lbv := fill oc.lbv d.nV ⊥ }
  if lenOk oc.ubv d.nV = false then oc else
  let oc := { oc with ubv := fill oc.ubv d.nV ⊤ }
  if lenOk oc.vGuess d.nV = false then oc else
  { oc with vGuess := fill oc.vGuess d.nV 0 }

/-- A model object: the constructor arguments, and what `preprocess_model` and
`add_smooth_step_representation` have computed (model.py:183-410).  `model.x0` is `user.x0`, and
also `pre.x0` once that exists. -/
structure ModelObj where
  user : UserModel
  pre : Option PreModel
  smooth : Option SmoothFuns

/-- solver.py:28-39, 306-324: a solver stores references to its options and model, the problem, and
the NLP solver, which was created with the IPOPT options at that time. -/
structure SolverObj where
  opts : Nat
  model : Nat
  P : Problem
  log : List NlpCall
  ipopt : IpoptDict

/-- The state of the process. -/
structure World where
  ipopt : IpoptDict
  opts : List PreOpts
  models : List ModelObj
  ocps : List UserOcp
  solvers : List SolverObj

/-- After importing the library. -/
def World.initial : World := ⟨IpoptDict.initial, [], [], [], []⟩

/-- What a user may do. `assign i f` stands for assignments to attributes of options object `i`. -/
inductive Action
  | newOpts (o : Opts)
  | assign (i : Nat) (f : Opts → Opts)
  | setTol (i : Nat) (v : Option ℝ)
  | setNlpMaxIter (i : Nat) (v : Int)
  | newModel (um : UserModel)
  | newOcp (oc : UserOcp)
  | newSolver (opts model : Nat) (ocp : Option Nat)
  | set (solver : Nat) (field : Field) (value : Arr)
  | solve (solver : Nat)

/-- What the user sees of an operation. -/
abbrev Seen := Except PyErr (Option SolveResult)

/-- The solver as seen by its methods: they follow the references. -/
def World.solver? (w : World) (s : Nat) : Option Solver := do
  let so ← w.solvers[s]?
  let po ← w.opts[so.opts]?
  let mo ← w.models[so.model]?
  let m ← mo.pre
  some ⟨po, m, so.P, mo.smooth, so.log⟩

/-- A method of solver `s` has changed the solver to `S`: `x0` and the parameter values live in the
model object. -/
def World.writeBack (w : World) (s : Nat) (S : Solver) : World := match w.solvers[s]? with
  | none => w
  | some so =>
      { w with
        solvers := w.solvers.set s { so with P := S.P, log := S.log }
        models := w.models.modify so.model fun mo =>
          { mo with user := { mo.user with x0 := S.m.x0 }, pre := some S.m } }

/-- The `ocp` argument. -/
def World.ocpArg (w : World) (ci : Option Nat) : Option UserOcp :=
  ci.map fun c => (w.ocps[c]?).getD UserOcp.trivial

/-- The objects after `NosnocSolver(opts, model, ocp)`, and the problem or exception. -/
structure Made where
  o : PreOpts
  mo : ModelObj
  oc : Option UserOcp
  res : Except PyErr Problem

/-- solver.py:17-25 `construct_problem` with problem.py:719-725.  When `preprocess_model` raises, the
attributes it has computed so far (`p_val_ctrl_stages`, `dims`, …) are set in Python; here the
previous ones stay. -/
noncomputable def makeProblem (colloc : IrkScheme → Nat → List ℝ) (o : PreOpts) (mo : ModelObj)
    (uo : Option UserOcp) : Made :=
  -- 19
  let po := o.preprocessed colloc
  match po.2 with
  | some e => ⟨po.1, mo, uo, .error e⟩
  | none =>
    -- 20
    let user := mo.user.touched po.1
    match mo.user.preprocess po.1 with
    | .error e => ⟨po.1, { mo with user := user }, uo, .error e⟩
    | .ok m =>
      -- 22-23
      match smoothFor mo.user po.1 m.dims with
      | .error e => ⟨po.1, { mo with user := user, pre := some m }, uo, .error e⟩
      | .ok sm =>
        -- 25
        ⟨po.1, ⟨user, some m, sm.or mo.smooth⟩, uo.map (UserOcp.touched · m.dims), do
          let oc ← (uo.getD UserOcp.trivial).preprocess m
          build po.1 m oc uo.isNone⟩

/-- solver.py:306-324: `NosnocSolver(opts, model, ocp)`; first `tol_ipopt` gets its default
(nosnoc_opts.py:136-137). -/
noncomputable def World.newSolver (colloc : IrkScheme → Nat → List ℝ) (w : World) (oi mi : Nat)
    (ci : Option Nat) : World × Seen :=
  match w.opts[oi]?, w.models[mi]? with
  | some o, some mo =>
    let d := w.ipopt.defaultTol o.compTol
    let r := makeProblem colloc o mo (w.ocpArg ci)
    let w' : World :=
      { ipopt := d, opts := w.opts.set oi r.o, models := w.models.set mi r.mo,
        ocps := match ci, r.oc with
          | some c, some oc => w.ocps.set c oc
          | _, _ => w.ocps
        solvers := w.solvers }
    match r.res with
    | .error e => (w', .error e)
    | .ok P => ({ w' with solvers := w.solvers ++ [⟨oi, mi, P, [], d⟩] }, .ok none)
  | _, _ => (w, .ok none)

/-- One operation. -/
noncomputable def World.step (colloc : IrkScheme → Nat → List ℝ) (orc : Nat → Oracle) (w : World) :
    Action → World × Seen
  | .newOpts o => ({ w with opts := w.opts ++ [o.fresh] }, .ok none)
  | .assign i f => ({ w with opts := w.opts.modify i fun o => { o with toOpts := f o.toOpts } }, .ok none)
  | .setTol i v => if i < w.opts.length then ({ w with ipopt := w.ipopt.setTol v }, .ok none) else (w, .ok none)
  | .setNlpMaxIter i v =>
      if i < w.opts.length then ({ w with ipopt := { w.ipopt with maxIter := v } }, .ok none)
      else (w, .ok none)
  | .newModel um => match um.initCheck with
      | .error e => (w, .error e)
      | .ok _ => ({ w with models := w.models ++ [⟨um, none, none⟩] }, .ok none)
  | .newOcp oc => ({ w with ocps := w.ocps ++ [oc] }, .ok none)
  | .newSolver oi mi ci => w.newSolver colloc oi mi ci
  | .set s field value => match w.solver? s with
      | none => (w, .ok none)
      | some S =>
          let r := S.set field value
          (w.writeBack s r.1, match r.2 with | some e => .error e | none => .ok none)
  | .solve s => match w.solver? s with
      | none => (w, .ok none)
      | some S =>
          let r := S.solve (orc s)
          (w.writeBack s r.1, r.2.map some)

/-- The state after a sequence of operations. -/
noncomputable def World.run (colloc : IrkScheme → Nat → List ℝ) (orc : Nat → Oracle) (w : World)
    (ops : List Action) : World :=
  ops.foldl (fun w op => (w.step colloc orc op).1) w

end Nosnoc
