import Verif.Model.Results
import Verif.Model.CompRes
import Verif.Model.Smooth
/-
Model of `NosnocSolverBase` and `NosnocSolver` (nosnoc/solver.py:28-469): setters, initialisation,
homotopy loop, polishing.  Real numbers stand for floats.  Printing is left out.

A method of the solver object returns the new object together with its return value or exception,
because an exception does not undo the changes made before it.
-/
namespace Nosnoc

/-! ### numpy -/

/-- A numpy array argument: one- or two-dimensional. -/
inductive Arr
  | vec (v : List ℝ)
  | mat (rows cols : Nat) (entry : Nat → Nat → ℝ)

/-- `a.shape[0]`. -/
def Arr.shape0 : Arr → Nat
  | .vec v => v.length
  | .mat r _ _ => r

/-- `a[i, :]`. -/
def Arr.row : Arr → Nat → Except PyErr (List ℝ)
  | .vec _, _ => .error .indexError
  | .mat r c f, i => if i < r then .ok ((List.range c).map (f i)) else .error .indexError

/-- Broadcasting of a one-dimensional array to length `n`. -/
def bcast (n : Nat) (v : List ℝ) : Except PyErr (List ℝ) :=
  if v.length = n then .ok v
  else match v with
    | [a] => .ok (List.replicate n a)
    | _ => .error .valueError

/-- Broadcasting of an array to shape `(r, c)`, as a list of rows. -/
def Arr.bcast2 (r c : Nat) : Arr → Except PyErr (List (List ℝ))
  | .vec v => do
      let v' ← bcast c v
      .ok (List.replicate r v')
  | .mat r' c' f =>
      if (r' = r ∨ r' = 1) ∧ (c' = c ∨ c' = 1) then
        .ok ((List.range r).map fun i => (List.range c).map fun j =>
          f (if r' = r then i else 0) (if c' = c then j else 0))
      else .error .valueError

/-- Broadcasting to shape `(n,)` in an assignment: leading dimensions must be 1. -/
def Arr.bcast1 (n : Nat) : Arr → Except PyErr (List ℝ)
  | .vec v => bcast n v
  | .mat r c f => if r = 1 then bcast n ((List.range c).map (f 0)) else .error .valueError

/-- The entries written by `w[ix] = v` for arrays of the same length, in order. -/
def writes (w : List ℝ) (ix : List Nat) (v : List ℝ) : List ℝ :=
  (ix.zip v).foldl (fun w q => w.set q.1 q.2) w

/-- `w[ix] = v` for a list `ix` of positions and a one-dimensional `v`. -/
def npAssign (w : List ℝ) (ix : List Nat) (v : List ℝ) : Except PyErr (List ℝ) :=
  if ∀ i ∈ ix, i < w.length then do
    let v' ← bcast ix.length v
    .ok (writes w ix v')
  else .error .indexError

/-- A loop of assignments: it stops at the first exception, keeping what has been written. -/
def npAssignAll : List ℝ → List (List Nat × List ℝ) → List ℝ × Option PyErr
  | w, [] => (w, none)
  | w, (ix, v) :: l => match npAssign w ix v with
    | .ok w' => npAssignAll w' l
    | .error e => (w, some e)

/-- All lists have the same length. -/
def sameLen {α : Type} (ls : List (List α)) : Bool :=
  ls.all fun a => ls.all fun b => a.length == b.length

/-- `np.array(ix)` of a list of rows of positions, used as an index: rows of different length raise
ValueError; an array without entries has dtype float and is not a valid index. -/
def npIndex2 (ix : List (List Nat)) : Except PyErr (List (List Nat)) :=
  if sameLen ix = false then .error .valueError
  else if ix.flatten = [] then .error .indexError
  else .ok ix

/-- As `npIndex2`, one level deeper. -/
def npIndex3 (ix : List (List (List Nat))) : Except PyErr (List (List Nat)) :=
  if sameLen ix = false then .error .valueError else npIndex2 ix.flatten

/-- Indexing with a nested list (not an array): as `npIndex2`, but an empty index is valid. -/
def listIndex2 (ix : List (List Nat)) : Except PyErr (List (List Nat)) :=
  if sameLen ix = false then .error .valueError else .ok ix

/-! ### The solver object -/

/-- The arguments of one call of the NLP solver (solver.py:396-401). -/
structure NlpCall where
  x0 : List ℝ
  lbg : List EReal
  ubg : List EReal
  lbx : List EReal
  ubx : List EReal
  p : List ℝ

/-- What a call of the NLP solver returns: the point, and the statistics used by the code
(`return_status`, `iter_count`, `t_proc_total`; `wall` is the time measured at solver.py:250-252). -/
structure NlpSol where
  x : List ℝ
  status : String
  iter : Nat
  tProc : ℝ
  wall : ℝ

/-- An NLP solver: its answer may depend on all calls so far (the last one is the current one).
Nothing is assumed about the answer except its length. `sol['f']` and `sol['g']` are the objective
and constraints at `sol['x']`. -/
structure Oracle where
  sol : List NlpCall → NlpSol
  len : ∀ log c, (sol (log ++ [c])).x.length = c.x0.length

/-- solver.py:28-39: the solver object with its references to options, model and problem.  The parts
that change after construction are `m.x0`, `m.pVal` (`p_val_ctrl_stages`) and `P.form.w0`.
`log` records the calls of the NLP solver; the program does not read it. -/
structure Solver where
  o : PreOpts
  m : PreModel
  P : Problem
  smooth : Option SmoothFuns
  log : List NlpCall

/-- `prob.w0 = …`. -/
def Solver.setW0 (S : Solver) (w0 : List ℝ) : Solver :=
  { S with P := { S.P with form := { S.P.form with w0 := w0 } } }

/-- `model.x0 = …`. -/
def Solver.setX0 (S : Solver) (x0 : List ℝ) : Solver := { S with m := { S.m with x0 := x0 } }

/-- `model.p_val_ctrl_stages[...] = …`. -/
def Solver.setPVal (S : Solver) (p : List (List ℝ)) : Solver :=
  { S with m := { S.m with pVal := p } }

/-- solver.py:22-23: the smoothed functions are only added for RK4_SMOOTHENED. -/
noncomputable def smoothFor (um : UserModel) (po : PreOpts) (d : Dims) :
    Except PyErr (Option SmoothFuns) :=
  if po.initStrategy = .rk4Smoothened then some <$> addSmooth um d po.smoothing else .ok none

/-- solver.py:17-39 and 306-324: construction.  (The smoothed functions are added before the problem
is built; here after it, so if both fail the exception is the other one.) -/
noncomputable def Solver.create (colloc : IrkScheme → Nat → List ℝ) (o : Opts) (um : UserModel)
    (uo : Option UserOcp) : Except PyErr Solver := do
  let q ← construct colloc o um uo
  let sm ← smoothFor um q.1 q.2.1.dims
  .ok ⟨q.1, q.2.1, q.2.2.2, sm, []⟩

/-! ### set (solver.py:41-103) -/

/-- The field names of `set`; `other` is any other string. -/
inductive Field | x0 | x | u | vGlobal | pGlobal | pTimeVar | theta | w | other
  deriving DecidableEq

/-- The result of a method: new object, and exception if one is raised. -/
abbrev Outcome := Solver × Option PyErr

/-- Write guesses. -/
def Solver.write (S : Solver) (l : List (List Nat × List ℝ)) : Outcome :=
  let r := npAssignAll S.P.form.w0 l
  (S.setW0 r.1, r.2)

/-- solver.py:72-75, 98-101: the warning is raised as an exception. -/
def Solver.warn (S : Solver) : Outcome :=
  (S, if S.o.initStrategy = .external then none else some .warning)

/-- One level of `ind_x`: positions of every state guess, each with the number of its control
stage. -/
def byStage (f : FEIdx → List (List Nat)) (idx : List (List FEIdx)) : List (List Nat × Nat) :=
  idx.zipIdx.flatMap fun q => q.1.flatMap fun fi => (f fi).map fun ix => (ix, q.2)

/-- Positions of every state guess, each with the number of its finite element. -/
def byElement (f : FEIdx → List (List Nat)) (idx : List (List FEIdx)) : List (List Nat × Nat) :=
  idx.flatten.zipIdx.flatMap fun q => (f q.1).map fun ix => (ix, q.2)

/-- `value[i, :]` for every entry of the list (all in range when this is called). -/
def withRows (value : Arr) (l : List (List Nat × Nat)) : Except PyErr (List (List Nat × List ℝ)) :=
  l.mapM fun q => do
    let r ← value.row q.2
    .ok (q.1, r)

/-- Run a writing loop whose rows may raise.  (Rows raise only for one-dimensional arrays, at the
first one.) -/
def Solver.writeRows (S : Solver) (value : Arr) (l : List (List Nat × Nat)) : Outcome :=
  match withRows value l with
  | .error e => (S, some e)
  | .ok l' => S.write l'

/-- Continue with the warning unless an exception was raised. -/
def thenWarn (r : Outcome) : Outcome := match r.2 with
  | some _ => r
  | none => r.1.warn

/-- solver.py:53-70. -/
def Solver.setXWrites (S : Solver) (value : Arr) : Outcome :=
  if value.shape0 = S.o.nStages then S.writeRows value (byStage (fun fi => fi.one .x) S.P.idx)
  else if value.shape0 = S.o.nfeList.sum then
    S.writeRows value (byElement (fun fi => fi.one .x) S.P.idx)
  else (S, some .valueError)

/-- `set('x', value)`, solver.py:52-75. -/
def Solver.setX (S : Solver) (value : Arr) : Outcome := thenWarn (S.setXWrites value)

/-- `prob.w0[np.array(ind)] = value`, solver.py:77, 79. -/
def Solver.setArr (S : Solver) (ind : List (List Nat)) (value : Arr) : Outcome :=
  match (do
    let ix ← npIndex2 ind
    let v ← value.bcast2 ix.length ((ix.headD []).length)
    (.ok (ix.zip v) : Except PyErr _)) with
  | .error e => (S, some e)
  | .ok l => S.write l

/-- solver.py:81-82: row `r` of the parameter values, its global part replaced. -/
def setGlobal (nPtv : Nat) (v r : List ℝ) : List ℝ := r.take nPtv ++ v

/-- solver.py:84-85. -/
def setTimeVar (nPtv : Nat) (v r : List ℝ) : List ℝ := v ++ r.drop nPtv

/-- `set('p_global', value)`, solver.py:81-82 (`p_val_ctrl_stages` has one row per stage). -/
def Solver.setPGlobal (S : Solver) (value : Arr) : Outcome :=
  match value.bcast1 S.m.dims.nPgl with
  | .error e => (S, some e)
  | .ok v => (S.setPVal (S.m.pVal.map (setGlobal S.m.dims.nPtv v)), none)

/-- `set('p_time_var', value)`, solver.py:84-85: the loop over the stages; it stops at the first
exception, keeping the rows written. -/
def timeVarLoop (nPtv : Nat) (value : Arr) : (i : Nat) → List (List ℝ) →
    List (List ℝ) × Option PyErr
  | _, [] => ([], none)
  | i, r :: rs => match (do
      let v ← value.row i
      bcast nPtv v) with
    | .error e => (r :: rs, some e)
    | .ok v =>
        let t := timeVarLoop nPtv value (i + 1) rs
        (setTimeVar nPtv v r :: t.1, t.2)

/-- `set('theta', value)`, solver.py:86-95: every point of a finite element gets the same row, which
is broadcast over the subsystems. -/
def Solver.setTheta (S : Solver) (value : Arr) : Outcome :=
  if value.shape0 = S.o.nfeList.sum then
    match (do
      let l ← S.P.idx.flatten.zipIdx.mapM fun (q : FEIdx × Nat) => do
        let rows ← (q.1.two .theta).mapM listIndex2
        (.ok (rows.flatten.map fun ix => (ix, q.2)) : Except PyErr (List (List Nat × Nat)))
      withRows value l.flatten) with
    | .error e => (S, some e)
    | .ok l => S.write l
  else (S, some .exception)

/-- solver.py:41-103 `set(field, value)`.  Assigned arrays are copied (in Python `model.x0` and
`prob.w0` refer to the caller's array afterwards); `x0` and `w` are one-dimensional (a
two-dimensional array, an error by the caller, is flattened here). -/
def Solver.set (S : Solver) (field : Field) (value : Arr) : Outcome := match field with
  | .x0 => match value with
    | .vec v => (S.setX0 v, none)
    | .mat r c f => (S.setX0 ((List.range r).flatMap fun i => (List.range c).map (f i)), none)
  | .x => S.setX value
  | .u => S.setArr S.P.indU value
  | .vGlobal => S.setArr S.P.indVGlobal value
  | .pGlobal => S.setPGlobal value
  | .pTimeVar =>
      let t := timeVarLoop S.m.dims.nPtv value 0 S.m.pVal
      (S.setPVal t.1, t.2)
  | .theta => S.setTheta value
  | .w => match value with
    | .vec v => (S.setW0 v).warn
    | .mat r c f => (S.setW0 ((List.range r).flatMap fun i => (List.range c).map (f i))).warn
  | .other => (S, some .notImplemented)

/-! ### Initialisation (solver.py:109-203) -/

/-- Calling a CasADi function on numbers. -/
def CFun.num (f : CFun) (args : List (List ℝ)) : Except PyErr (List ℝ) := do
  let v ← f.call (args.map (List.map const))
  .ok (evalVec v fun _ => 0)

/-- model.py:412-419 `compute_lambda00` (without `rootfinder_for_initial_z`). -/
def PreModel.computeLambda00 (m : PreModel) : Except PyErr (List ℝ) := do
  let p0 ← listGet m.pVal 0
  m.lambda00Fun.num [m.x0, m.z0, p0]

/-- solver.py:129-132: step lengths between the Runge-Kutta points. -/
noncomputable def rk4Grid (o : PreOpts) : Except PyErr (List ℝ) := do
  let t ← (List.range o.nS).mapM (listGet o.timePts)
  .ok ((List.zipWith (· - ·) t (0 :: t)).map
    fun d => o.terminalTime / ((o.nStages : ℝ) * (o.nFe : ℝ)) * d)

/-- solver.py:143-162: the values written for stage `k` of element `i`, given the state. -/
noncomputable def rk4Point (S : Solver) (sm : SmoothFuns) (p0 : List ℝ) (fi : FEIdx) (x : List ℝ)
    (k : Nat) : Except PyErr (List (List Nat × List ℝ)) := do
  let ix ← listGet (fi.one .x) k
  let lam ← S.m.lambda00Fun.num [x, [], p0]
  let mu ← sm.mu.num [x, p0]
  let theta ← sm.theta.num [x, p0]
  let d := S.m.dims
  let rest ← (List.range d.nSys).mapM fun s => do
    let off := ((List.range s).map d.nF).sum
    let ths ← listGet (fi.two .theta) k
    let th ← listGet ths s
    let lams ← listGet (fi.two .lam) k
    let la ← listGet lams s
    let mus ← listGet (fi.two .mu) k
    let m ← listGet mus s
    let muv ← listGet mu s
    let tv ← (List.range (d.nF s)).mapM fun i => listGet theta (off + i)
    let lv ← (List.range (d.nF s)).mapM fun i => listGet lam (off + i)
    .ok [(th, tv), (la, lv), (m, [muv])]
  .ok ((ix, x) :: rest.flatten)

/-- solver.py:136-171: the loop over the finite elements; `irk_time_points[-1] != 1.0` raises after
the element has been written (written values are lost here: the whole initialisation fails). -/
noncomputable def rk4Loop (S : Solver) (sm : SmoothFuns) (f : List ℝ → List ℝ) (p0 : List ℝ)
    (grid : List ℝ) : List FEIdx → List ℝ → Except PyErr (List (List Nat × List ℝ))
  | [], _ => .ok []
  | fi :: rest, x => do
      let xs := rk4OnTimegrid f x grid
      let pts ← (List.range S.o.nS).mapM fun k => do
        let xk ← listGet xs (k + 1)
        rk4Point S sm p0 fi xk k
      let xl ← lastOf xs
      check (S.o.timePts.getLast? = some 1) .notImplemented
      let ixl ← lastOf (fi.one .x)
      let more ← rk4Loop S sm f p0 grid rest xl
      .ok (pts.flatten ++ [(ixl, xl)] ++ more)

/-- solver.py:125-175: assignments of the RK4_SMOOTHENED initialisation (only the first control
stage). -/
noncomputable def rk4Writes (S : Solver) : Except PyErr (List (List Nat × List ℝ)) := do
  let sm ← optGet (some S.smooth.toList) 0
  let grid ← rk4Grid S.o
  let p0 ← listGet S.m.pVal 0
  let row ← listGet S.P.idx 0
  let fis ← (List.range S.o.nFe).mapM (listGet row)
  let _ ← sm.fx.num [S.m.x0]
  rk4Loop S sm (fun x => evalVec (sm.fx.outs.map fun e env =>
    e (rebind sm.fx.ins.flatten (x.map const) env)) fun _ => 0) p0 grid fis S.m.x0

/-- solver.py:120-121: the assignments `w0[np.array(ind_x[k])] = x0`, stage by stage. -/
def xcurrentLoop (x0 : List ℝ) : List ℝ → List (List FEIdx) → List ℝ × Option PyErr
  | w, [] => (w, none)
  | w, row :: rest => match npIndex3 (row.map fun fi => fi.one .x) with
    | .error e => (w, some e)
    | .ok ixs =>
        let r := npAssignAll w (ixs.map fun ix => (ix, x0))
        match r.2 with
        | some e => (r.1, some e)
        | none => xcurrentLoop x0 r.1 rest

/-- solver.py:116-176: the stored guess is updated. -/
noncomputable def Solver.initGuess (S : Solver) : Outcome := match S.o.initStrategy with
  | .allXcurrentW0Start | .allXcurrentWoptPrev =>
      let r := xcurrentLoop S.m.x0 S.P.form.w0 S.P.idx
      (S.setW0 r.1, r.2)
  | .external => (S, none)
  | .rk4Smoothened => match rk4Writes S with
      | .error e => (S, some e)
      | .ok l => S.write l

/-- Return a value unless an exception was raised. -/
def thenReturn {α : Type} (r : Outcome) (a : α) : Solver × Except PyErr α := match r.2 with
  | some e => (r.1, .error e)
  | none => (r.1, .ok a)

/-- solver.py:109-177 `initialize`; the value is `lambda00`. -/
noncomputable def Solver.initialize (S : Solver) : Solver × Except PyErr (List ℝ) :=
  match S.m.computeLambda00 with
  | .error e => (S, .error e)
  | .ok lam00 => thenReturn S.initGuess lam00

/-- solver.py:185-192 `homotopy_sigma_update`. -/
noncomputable def sigmaUpdate (o : Opts) (sigma : ℝ) : ℝ := match o.rule with
  | .linear => o.slope * sigma
  | .superlinear => max o.sigmaN (min (o.slope * sigma) (sigma ^ o.exponent))

/-- solver.py:198-203 `setup_p_val`. -/
def Solver.pValues (S : Solver) (lam00 : List ℝ) (sigma tau : ℝ) : List ℝ :=
  S.m.pVal.flatten ++ [sigma, tau] ++ lam00 ++ S.m.x0

/-! ### solve (solver.py:326-469) -/

/-- Local variables of `solve` that change in the homotopy loop.  `last` holds `w_opt`, `status` and
`cost_val`, unbound before the first iteration. -/
structure SolveSt where
  log : List NlpCall
  sigma : ℝ
  w0 : List ℝ
  wAll : List (List ℝ)
  cpu : List (Option ℝ)
  iter : List (Option Nat)
  last : Option (List ℝ × String × ℝ)

/-- solver.py:391 `tau_val`. -/
noncomputable def tauOf (sigma : ℝ) : ℝ := min (sigma ^ (3 / 2 : ℝ)) sigma

/-- solver.py:259, 409: `ca.norm_inf(sol['f'])`, the absolute value of the objective. -/
noncomputable def costVal (P : Problem) (w p : List ℝ) : ℝ := |P.form.cost (P.point w p)|

/-- Bounds used in a solve. -/
structure Bounds where
  lbw : List EReal
  ubw : List EReal

/-- solver.py:391-432: the loop body; the second component tells whether the loop is left. -/
noncomputable def solveBody (orc : Oracle) (S : Solver) (lam00 : List ℝ) (b : Bounds) (ii : Nat)
    (st : SolveSt) : SolveSt × Bool :=
  let p := S.pValues lam00 st.sigma (tauOf st.sigma)
  let call : NlpCall := ⟨st.w0, S.P.form.lbg, S.P.form.ubg, b.lbw, b.ubw, p⟩
  let log := st.log ++ [call]
  let sol := orc.sol log
  let st' : SolveSt :=
    { st with log := log, cpu := st.cpu.set ii (some sol.tProc),
              iter := st.iter.set ii (some sol.iter), w0 := sol.x, wAll := st.wAll ++ [sol.x],
              last := some (sol.x, sol.status, costVal S.P sol.x p) }
  if S.P.compRes (S.P.point sol.x p) < S.o.compTol then (st', true)
  else if st.sigma ≤ S.o.sigmaN then (st', true)
  else ({ st' with sigma := sigmaUpdate S.o.toOpts st.sigma }, false)

/-- solver.py:390-432: the loop; `n` iterations are left, `ii` is the index of the next one. -/
noncomputable def solveLoop (orc : Oracle) (S : Solver) (lam00 : List ℝ) (b : Bounds) :
    (n ii : Nat) → SolveSt → SolveSt
  | 0, _, st => st
  | n + 1, ii, st =>
      let r := solveBody orc S lam00 b ii st
      if r.2 then r.1 else solveLoop orc S lam00 b n (ii + 1) r.1

/-- `lbw[ix] = v` (positions in range). -/
def setBounds (l : List EReal) (ix : List Nat) (v : EReal) : List EReal :=
  ix.foldl (fun l i => l.set i v) l

/-- solver.py:357-365: positions of the multipliers of the first element to be fixed to 0.  (An
IndexError in the list comprehension starts the debugger; here it is an exception.) -/
noncomputable def activeZero (S : Solver) (lam00 : List ℝ) : Except PyErr (List Nat) := do
  let act := lam00.zipIdx.filterMap fun q =>
    if 10 * S.o.compTol < q.1 then some q.2 else none
  let row ← listGet S.P.idx 0
  let fi ← listGet row 0
  let l ← (List.range S.o.nS).mapM fun i => do
    let r ← listGet (fi.two .theta) i
    act.mapM (listGet r.flatten)
  .ok l.flatten

/-- solver.py:352-387: bounds and first guess of the homotopy loop. -/
noncomputable def activeSet (S : Solver) (lam00 : List ℝ) : Except PyErr (List ℝ × Bounds) :=
  if S.o.fixActiveSetFe0 = true ∧ S.o.pss = .stewart then do
    let ix ← activeZero S lam00
    .ok (writes S.P.form.w0 ix (List.replicate ix.length 0),
      ⟨setBounds S.P.form.lbw ix 0, setBounds S.P.form.ubw ix 0⟩)
  else .ok (S.P.form.w0, ⟨S.P.form.lbw, S.P.form.ubw⟩)

/-- solver.py:212-213. -/
def Problem.polishSet (P : Problem) : List Nat :=
  P.idx.flatten.flatMap fun fi => [Fam2.lam, .lamN, .lamP, .alpha, .theta, .mu].flatMap
    fun f => (fi.two f).flatten.flatten

/-- solver.py:214-215. -/
def Problem.polishKeep (P : Problem) : List Nat :=
  P.idx.flatten.flatMap FEIdx.h ++ P.indU.flatten
    ++ P.idx.flatten.flatMap (fun fi => [Fam1.x, .v, .z].flatMap fun f => (fi.one f).flatten)
    ++ P.indVGlobal.flatten ++ P.indElastic.flatten

/-- solver.py:222-228: positions with `cond`, except those not to be touched. -/
noncomputable def fixPos (w : List ℝ) (keep : List Nat) (cond : ℝ → Prop) [DecidablePred cond] :
    List Nat :=
  w.zipIdx.filterMap fun q => if cond q.1 ∧ q.2 ∉ keep then some q.2 else none

/-- solver.py:222-235: the bounds of the polishing problem. -/
noncomputable def polishBounds (S : Solver) (w : List ℝ) : Bounds :=
  let eps := 10 * S.o.compTol
  let z := fixPos w S.P.polishKeep fun v => v < eps
  let one := fixPos w S.P.polishKeep fun v => |v - 1| < eps
  ⟨setBounds (setBounds S.P.form.lbw z 0) one 1, setBounds (setBounds S.P.form.ubw z 0) one 1⟩

/-- solver.py:242-269: the NLP is solved once per control stage, always from the same guess; `n`
solves are left.  Indexing `w_guess[prob.ind_theta[k][e][:]]` (244) raises for lists of different
lengths. -/
def polishLoop (orc : Oracle) (S : Solver) (call : NlpCall) : List Nat → List NlpCall →
    Option NlpSol → Except PyErr (List NlpCall × Option NlpSol)
  | [], log, last => .ok (log, last)
  | k :: ks, log, _ => do
      let row ← listGet S.P.idx k
      let n ← listGet S.o.nfeList k
      let _ ← (List.range n).mapM fun e => do
        let fi ← listGet row e
        check (sameLen (fi.two .theta) = true) .valueError
        listIndex2 (fi.two .theta).flatten
      polishLoop orc S call ks (log ++ [call]) (some (orc.sol (log ++ [call])))

/-- solver.py:206-269 `polish_solution`: log, `w_opt`, time, iterations, status. -/
noncomputable def polish (orc : Oracle) (S : Solver) (lam00 w : List ℝ) (log : List NlpCall) :
    Except PyErr (List NlpCall × NlpSol) := do
  -- 216-220
  check (∀ iw < w.length, iw ∈ S.P.polishSet ++ S.P.polishKeep) .exception
  let b := polishBounds S w
  let call : NlpCall := ⟨w, S.P.form.lbg, S.P.form.ubg, b.lbw, b.ubw, S.pValues lam00 0 0⟩
  let (log', last) ← polishLoop orc S call (List.range S.o.nStages) log none
  match last with
  | some sol => .ok (log', sol)
  | none => .error .unboundLocal

/-- The result dictionary of `solve` (solver.py:439, 458-467). -/
structure SolveResult where
  res : Results
  cpuTimeNlp : List (Option ℝ)
  nlpIter : List (Option Nat)
  wAll : List (List ℝ)
  wSol : List ℝ
  costVal : ℝ
  status : Status

/-- solver.py:464-467. -/
def statusOf (s : String) : Status := if checkIpoptSuccess s then .success else .infeasible

/-- solver.py:434-469: what happens after the homotopy loop. -/
noncomputable def finish (orc : Oracle) (S : Solver) (lam00 : List ℝ) (st : SolveSt) :
    Solver × Except PyErr SolveResult :=
  let S1 := { S with log := st.log }
  match st.last with
  | none => (S1, .error .unboundLocal)
  | some (w, status, cost) =>
    match (if S.o.polish then do
        let (log, sol) ← polish orc S lam00 w st.log
        .ok (log, sol.x, st.cpu.set S.o.maxIterHomotopy (some sol.wall),
          st.iter.set S.o.maxIterHomotopy (some sol.iter), sol.status)
      else (.ok (st.log, w, st.cpu, st.iter, status) : Except PyErr _)) with
    | .error e => (S1, .error e)
    | .ok (log, w', cpu, iter, status') =>
      let S2 := { S with log := log }
      match getResults S.o S.m.x0 S.P w' with
      | .error e => (S2, .error e)
      | .ok r =>
        (if S.o.initStrategy = .allXcurrentWoptPrev then S2.setW0 w' else S2,
          .ok { res := r, cpuTimeNlp := cpu, nlpIter := iter, wAll := st.wAll, wSol := w',
                costVal := cost, status := statusOf status' })

/-- solver.py:341-469: `solve` after the call of `initialize`, whose outcome is `ini`.  The NLP solver
checks the dimensions of its arguments; they are the same in every call, so this is done once. -/
noncomputable def Solver.solveFrom (orc : Oracle) (S : Solver) (ini : Solver × Except PyErr (List ℝ)) :
    Solver × Except PyErr SolveResult :=
  match ini with
  | (S1, .error e) => (S1, .error e)
  | (S1, .ok lam00) =>
    match activeSet S1 lam00 with
    | .error e => (S1, .error e)
    | .ok (w0, b) =>
      let n := S.o.maxIterHomotopy + if S.o.polish then 1 else 0
      if w0.length = S1.P.form.w.length ∧ (S1.pValues lam00 0 0).length = S1.P.p.length then
        finish orc S1 lam00 (solveLoop orc S1 lam00 b S.o.maxIterHomotopy 0
          { log := S1.log, sigma := S.o.sigma0, w0 := w0, wAll := [S1.P.form.w0],
            cpu := List.replicate n none, iter := List.replicate n none, last := none })
      else (S1, .error .casadi)

/-- solver.py:326-469 `solve` (with `rootfinder_for_initial_z=False`; see `Root.lean`). -/
noncomputable def Solver.solve (orc : Oracle) (S : Solver) : Solver × Except PyErr SolveResult :=
  S.solveFrom orc S.initialize

end Nosnoc
