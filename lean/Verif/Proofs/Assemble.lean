import Verif.Proofs.Build
/-
Helper lemmas: the last phase of the construction (global complementarities, terminal terms,
collection of the finite elements) and the whole construction in closed form.
-/
namespace Nosnoc
section
variable {o : PreOpts} {m : PreModel} {oc : PreOcp}

/-! ### Reads on processed elements -/

theorem Executed.read2 {cs : List Cmd} {fe fe' : FE} (h : Executed o cs fe fe') {f : Fam2}
    {i : PyIdx} {v : Vec} (hv : fe.read2 f i = .ok v) : fe'.read2 f i = .ok v := by
  unfold FE.read2 FE.get2 at *
  rw [h.rows2, h.ind, h.w, h.nSys]
  simp only [bind_eq_ok] at hv
  obtain ⟨idx, ⟨j, hj, hidx⟩, hg⟩ := hv
  rw [hj]
  simp only [ok_bind]
  cases hidx
  rw [map_eq_ok] at hg
  obtain ⟨s, hs, hv⟩ := hg
  rw [gather_mono hs]
  simp [hv]

theorem Executed.lambda {cs : List Cmd} {fe fe' : FE} (h : Executed o cs fe fe')
    {i : PyIdx} {v : Vec} (hv : fe.Lambda i = .ok v) : fe'.Lambda i = .ok v := by
  unfold FE.Lambda at *
  simp only [bind_eq_ok] at hv
  obtain ⟨a, ha, b, hb, c, hc, hv⟩ := hv
  rw [h.read2 ha, h.read2 hb, h.read2 hc]
  exact hv

theorem Executed.theta {cs : List Cmd} {fe fe' : FE} (h : Executed o cs fe fe')
    {i : PyIdx} {v : Vec} (hv : fe.Theta i = .ok v) : fe'.Theta i = .ok v := by
  unfold FE.Theta at *
  simp only [bind_eq_ok] at hv
  obtain ⟨a, ha, b, hb, hv⟩ := hv
  rw [h.read2 ha, h.read2 hb]
  exact hv

theorem compVector_ok (hn : 0 < o.nS) (hp : PrimalOk o m) (hd : FEDataOk m oc)
    (hf : FunsOk o m oc) (ha : NoAugSum o) {k e : Nat} (h : FEIn o k e) :
    compVector (heapOf o m oc) o (feDone o m oc k e) = .ok (compVecOf o m.dims k e) := by
  have hE := feDone_facts hd hf ha k e
  have hL : ∀ j, j < o.nS → (feDone o m oc k e).Lambda (.nat j) = .ok (lamVec o m.dims k e j) :=
    fun j hj => hE.lambda (feInit_Lambda (by omega))
  have hT : ∀ j, j < o.nS → (feDone o m oc k e).Theta (.nat j) = .ok (thetaVec o m.dims k e j) :=
    fun j hj => hE.theta (feInit_Theta hj)
  have hprev : (heapOf o m oc).prevOf (feDone o m oc k e) = .ok (prevObj o m oc k e) := by
    rw [← prevOf_ok hp h]
    unfold Heap.prevOf
    rw [hE.prev]
  unfold compVector compVecOf
  by_cases hu : o.useFesd = true
  · simp only [hu, if_true]
    rw [mapM_ok (g := fun j => vmul (thetaVec o m.dims k e j) (startLam o m.dims k e)
      ++ (List.range o.nS).flatMap fun jj =>
        vmul (thetaVec o m.dims k e j) (lamVec o m.dims k e jj))]
    · simp [List.flatMap_def]
    · intro j hj
      rw [hT j (List.mem_range.1 hj), ok_bind, hprev, ok_bind, prevLam_ok hn, ok_bind,
        check_ok (by rw [length_thetaVec]; exact (length_startLam (o := o) m.dims k e).symm),
        ok_bind, mapM_ok (g := fun jj => vmul (thetaVec o m.dims k e j) (lamVec o m.dims k e jj))]
      · simp [List.flatMap_def, startLam]
      · intro jj hjj
        rw [hL jj (List.mem_range.1 hjj), ok_bind,
          check_ok (by rw [length_thetaVec, length_lamVec]), ok_bind]
  · rw [if_neg hu, if_neg hu]
    rw [mapM_ok (g := fun j => vmul (thetaVec o m.dims k e j) (lamVec o m.dims k e j))]
    · simp [List.flatMap_def]
    · intro j hj
      rw [hT j (List.mem_range.1 hj), ok_bind, hL j (List.mem_range.1 hj), ok_bind,
          check_ok (by rw [length_thetaVec, length_lamVec]), ok_bind]

/-! ### Global complementarities -/

/-- Arguments of the global complementarity functions. -/
def globArgs (d : Dims) : List Vec :=
  [vars (blk d.nPgl fun i => .pStage 0 (d.nPtv + i)), globV d]

def globC (m : PreModel) (oc : PreOcp) : Cmd :=
  .compl [oc.gGlobalFun.1.app (globArgs m.dims)] (oc.gGlobalFun.2.app (globArgs m.dims))

theorem globC_ok (hf : FunsOk o m oc) : CmdOk o (globC m oc) :=
  ⟨by simp, by simp [hf.globOuts], fun _ => rfl⟩

theorem globP_eq (hp : PrimalOk o m) :
    ((primalOf o m oc).p.drop m.dims.nPtv).take m.dims.nPgl
      = blk m.dims.nPgl fun i => .pStage 0 (m.dims.nPtv + i) := by
  obtain ⟨N, hN⟩ := Nat.exists_eq_succ_of_ne_zero hp.stages
  have h0 : blk (m.dims.nPtv + m.dims.nPgl) (.pStage 0)
      = blk m.dims.nPtv (.pStage 0) ++ blk m.dims.nPgl fun i => .pStage 0 (m.dims.nPtv + i) := by
    simp [blk, List.range_add, Function.comp_def]
  show (((pHead o m.dims ++ _) ++ _).drop _).take _ = _
  unfold pHead
  rw [hN, List.range_succ_eq_map, List.flatMap_cons, h0]
  simp only [List.append_assoc]
  rw [List.drop_left' (by simp), List.take_left' (by simp)]

theorem globalCompl_ok (hp : PrimalOk o m) (hf : FunsOk o m oc) (f : Form) :
    globalCompl o m.dims oc (primalOf o m oc).p f = .ok (execForm o .boolGlob f (globC m oc),
      (if o.mpcc = .boolean then some (List.range' f.w.length oc.gGlobalFun.2.outs.length) else none),
      (if (cmdG o (cmdVars o .boolGlob f.w.length (globC m oc)) (globC m oc)).length = 0
        then none else some (List.range' f.g.length
          (cmdG o (cmdVars o .boolGlob f.w.length (globC m oc)) (globC m oc)).length))) := by
  unfold globalCompl
  simp only [globP_eq hp]
  unfold callPair
  rw [CFun.call_ok (by rw [hf.globIns1]; simp)]
  simp only [ok_bind]
  rw [CFun.call_ok (by rw [hf.globIns2]; simp)]
  simp only [ok_bind]
  have := createCompl_ok (o := o) (f := f) (bs := .boolGlob) (globC_ok (o := o) hf)
  unfold globC globArgs at this
  simp only [globV] at this
  rw [this]
  simp [globC, globArgs, globV]

/-! ### Terminal terms -/

/-- The elements `(k, e)` of the problem, in temporal order. -/
def allFE (o : PreOpts) : List (Nat × Nat) :=
  (List.range o.nStages).flatMap fun k => (List.range (nfe o k)).map fun e => (k, e)

theorem mem_allFE {k e : Nat} : (k, e) ∈ allFE o ↔ FEIn o k e := by
  simp [allFE, FEIn]

/-- Arguments of the terminal functions. -/
def termArgs (o : PreOpts) (d : Dims) : List Vec :=
  [endState o d (o.nStages - 1) (nfe o (o.nStages - 1) - 1), ctrlP d (o.nStages - 1), globV d]

noncomputable def termBlk (o : PreOpts) (m : PreModel) (oc : PreOcp) : Blk where
  g := oc.gTerminalFun.app (termArgs o m.dims)
  lb := List.replicate oc.gTerminalFun.outs.length 0
  ub := List.replicate oc.gTerminalFun.outs.length 0
  cost := at' (oc.fqTFun.app (termArgs o m.dims)) 0

theorem doneFEs_last (hp : PrimalOk o m) {k : Nat} (hk : k < o.nStages) :
    (doneFEs o m oc k).getLast? = some (feDone o m oc k (nfe o k - 1)) := by
  have hpos := (hp.nfe k hk).2
  unfold doneFEs
  obtain ⟨n, hn⟩ := Nat.exists_eq_succ_of_ne_zero (by omega : nfe o k ≠ 0)
  rw [hn, List.range_succ]
  simp

theorem terminal_ok (hn : 0 < o.nS) (hp : PrimalOk o m) (hd : FEDataOk m oc)
    (hf : FunsOk o m oc) (ha : NoAugSum o) (f : Form) :
    terminal o m.dims oc (procAcc o m oc o.nStages).stages f = .ok (f.addB (termBlk o m oc)) := by
  obtain ⟨N, hN⟩ := Nat.exists_eq_succ_of_ne_zero hp.stages
  have hl : (procAcc o m oc o.nStages).stages.getLast? = some (doneFEs o m oc (o.nStages - 1)) := by
    simp only [procAcc, hN, List.range_succ]
    simp
  unfold terminal
  rw [hl]
  simp only
  rw [doneFEs_last hp (by omega)]
  simp only
  rw [feDone_lastX hn hd hf ha, ok_bind]
  rw [CFun.call_ok (by rw [hf.gTIns]; simp), ok_bind, Form.addConstraint_none,
    Form.addConstraint_ok (by simp) (by simp)]
  simp only [ok_bind]
  rw [CFun.call1_ok (by rw [hf.fqTIns]; simp) hf.fqTOuts, ok_bind]
  simp [Form.addB, termBlk, termArgs, ctrlP, globV]

/-- Total numerical time. -/
noncomputable def totalTime (o : PreOpts) : Expr := fun env =>
  ((allFE o).map fun q => hVal o q.1 q.2 env).sum

noncomputable def timeBlks (o : PreOpts) : List Blk :=
  if 1 < o.nStages ∧ o.useFesd = true ∧ o.equidistant = false then
    [⟨[fun env => totalTime o env - o.terminalTime], [0], [0], const 0⟩] else []

theorem allDone_flatten :
    (procAcc o m oc o.nStages).stages.flatten
      = (allFE o).map fun q => feDone o m oc q.1 q.2 := by
  simp [procAcc, allFE, List.flatMap_def, List.map_flatten, Function.comp_def]
  rfl

theorem terminalTimeCon_ok (hd : FEDataOk m oc) (hf : FunsOk o m oc) (ha : NoAugSum o) (f : Form) :
    terminalTimeCon o (procAcc o m oc o.nStages).stages f = .ok (f.addBs (timeBlks o)) := by
  unfold terminalTimeCon timeBlks
  split
  · rw [allDone_flatten, sumH_ok hd hf ha, ok_bind, Form.addConstraint_none]
    obtain ⟨r, hr⟩ := Form.addConstraint_add (f := f)
      (g := [fun env => totalTime o env - o.terminalTime]) (lb := [0]) (ub := [0]) rfl rfl
    have : (fun env : Env => ((allFE o).map fun q => hVal o q.1 q.2 env).sum - o.terminalTime)
        = fun env => totalTime o env - o.terminalTime := rfl
    rw [this]
    simp only [List.length_singleton, List.replicate_one]
    rw [hr]
    rfl
  · rfl

/-! ### Collection of the elements -/

/-- Index lists of an element whose variables start at position `n` of `w`. -/
def FE.idxAt (fe : FE) (n : Nat) : FEIdx where
  one := fun fam => (List.range (fe.rows1 fam)).map fun j => (fe.ind (.one fam j)).map (· + n)
  two := fun fam => (List.range (fe.rows2 fam)).map fun j =>
    (List.range fe.nSys).map fun s => (fe.ind (.two fam j s)).map (· + n)
  xCont := (fe.ind (.one .x (fe.rows1 .x - 1))).map (· + n)
  h := fe.indH.map (· + n)
  bool := fe.indBool.map (List.map (· + n))

def collectIdx : Nat → List FE → List FEIdx
  | _, [] => []
  | n, fe :: rest => fe.idxAt n :: collectIdx (n + fe.form.w.length) rest

def collectIdxs : Nat → List (List FE) → List (List FEIdx)
  | _, [] => []
  | n, st :: rest => collectIdx n st ::
      collectIdxs (n + (st.flatMap fun fe => fe.form.w).length) rest

/-- Append the variables of elements. -/
def Form.addFEs (f : Form) (fes : List FE) : Form :=
  { f with
    w := f.w ++ fes.flatMap fun fe => fe.form.w
    lbw := f.lbw ++ fes.flatMap fun fe => fe.form.lbw
    ubw := f.ubw ++ fes.flatMap fun fe => fe.form.ubw
    w0 := f.w0 ++ fes.flatMap fun fe => fe.form.w0 }

theorem collectStage_ok {fes : List FE} (h : ∀ fe ∈ fes, fe.form.Aligned ∧ 0 < fe.rows1 .x)
    (f : Form) : collectStage f fes = .ok (f.addFEs fes, collectIdx f.w.length fes) := by
  induction fes generalizing f with
  | nil => simp [collectStage, Form.addFEs, collectIdx]
  | cons fe fes ih =>
    obtain ⟨hal, hr⟩ := h fe (by simp)
    have h1 : collectFE f fe = .ok (f.addFEs [fe], fe.idxAt f.w.length) := by
      unfold collectFE
      dsimp only
      rw [check_ok ⟨hal.lbw, hal.ubw, hal.w0⟩, ok_bind]
      unfold FE.get1
      rw [resolve_last hr]
      simp [Form.addFEs, FE.idxAt]
    rw [collectStage, h1]
    simp only [ok_bind]
    rw [ih fun fe' h' => h fe' (by simp [h'])]
    simp [Form.addFEs, collectIdx]

theorem collectAll_ok {sts : List (List FE)}
    (h : ∀ st ∈ sts, ∀ fe ∈ st, fe.form.Aligned ∧ 0 < fe.rows1 .x) (f : Form) :
    collectAll f sts = .ok (f.addFEs sts.flatten, collectIdxs f.w.length sts) := by
  induction sts generalizing f with
  | nil => simp [collectAll, Form.addFEs, collectIdxs]
  | cons st sts ih =>
    rw [collectAll, collectStage_ok (h st (by simp))]
    simp only [ok_bind]
    rw [ih fun st' h' => h st' (by simp [h'])]
    simp [Form.addFEs, collectIdxs]

/-! ### The whole construction -/

noncomputable def lsqForm (o : PreOpts) (f : Form) : Form :=
  if o.constraintHandling = .leastSquares then
    { f with cost := fun env => f.cost env + (f.g.map fun e => e env ^ 2).sum,
             g := [], lbg := [], ubg := [] }
  else f

def LsqOk (o : PreOpts) (f : Form) : Prop :=
  o.constraintHandling = .leastSquares → ∀ l ∈ f.lbg, l = 0

theorem lsq_iff {f f' : Form} : lsq o f = .ok f' ↔ LsqOk o f ∧ f' = lsqForm o f := by
  unfold lsq lsqForm LsqOk
  by_cases h : o.constraintHandling = .leastSquares
  · simp only [h, if_true, true_implies]
    by_cases h2 : ∃ l ∈ f.lbg, l ≠ 0
    · rw [if_pos h2]
      constructor
      · intro h'; cases h'
      · rintro ⟨h3, _⟩
        obtain ⟨l, hl, hne⟩ := h2
        exact absurd (h3 l hl) hne
    · rw [if_neg h2]
      push Not at h2
      constructor
      · intro h'; cases h'; exact ⟨h2, rfl⟩
      · rintro ⟨_, rfl⟩; rfl
  · simp only [h, if_false, false_implies, true_and]
    constructor
    · intro h'; cases h'; rfl
    · rintro rfl; rfl

/-- All constraint groups of the control stages. -/
noncomputable def allBlks (o : PreOpts) (m : PreModel) (oc : PreOcp) : List Blk :=
  (List.range o.nStages).flatMap (stageBlks o m oc)

/-- Before the global complementarities. -/
noncomputable def form0 (o : PreOpts) (m : PreModel) (oc : PreOcp) : Form :=
  (primalOf o m oc).form.addBs (allBlks o m oc)
/-- Before the collection of the elements. -/
noncomputable def form4 (o : PreOpts) (m : PreModel) (oc : PreOcp) : Form :=
  (elasticCost o ((execForm o .boolGlob (form0 o m oc) (globC m oc)).addB (termBlk o m oc))).addBs
    (timeBlks o)
/-- The processed elements. -/
noncomputable def allDone (o : PreOpts) (m : PreModel) (oc : PreOcp) : List FE :=
  (allFE o).map fun q => feDone o m oc q.1 q.2
/-- The problem with EXACT constraint handling. -/
noncomputable def form5 (o : PreOpts) (m : PreModel) (oc : PreOcp) : Form :=
  (form4 o m oc).addFEs (allDone o m oc)

noncomputable def problemOf (o : PreOpts) (m : PreModel) (oc : PreOcp) (triv : Bool) : Problem where
  form := lsqForm o (form5 o m oc)
  p := (primalOf o m oc).p
  idx := collectIdxs (form4 o m oc).w.length ((List.range o.nStages).map (doneFEs o m oc))
  indU := (primalOf o m oc).indU
  indSot := (primalOf o m oc).indSot
  indVGlobal := (primalOf o m oc).indVGlobal
  indElastic := (primalOf o m oc).indElastic
  boolGlob := if o.mpcc = .boolean then
    [List.range' (form0 o m oc).w.length oc.gGlobalFun.2.outs.length] else []
  indComp := (procAcc o m oc o.nStages).indComp
  compGlob := cmdCompIdx o (cmdVars o .boolGlob (form0 o m oc).w.length (globC m oc))
    (form0 o m oc).g.length (globC m oc)
  compVec := (allFE o).flatMap fun q => compVecOf o m.dims q.1 q.2
  w0Original := (form5 o m oc).w0
  ocpTrivial := triv

/-- When does the construction succeed? -/
structure BuildOk (o : PreOpts) (m : PreModel) (oc : PreOcp) : Prop where
  primal : PrimalOk o m
  z : ZOk o m
  aug : NoAugSum o
  lsq : LsqOk o (form5 o m oc)

theorem DataOk.fe (hd : DataOk m oc) (hp : PrimalOk o m) : FEDataOk m oc :=
  ⟨hp.x0, hd.lbx, hd.ubx, hd.z0, hd.lbz, hd.ubz⟩

theorem build_iff (hn : 0 < o.nS) (hd : DataOk m oc) (hf : FunsOk o m oc) (triv : Bool)
    (P : Problem) :
    build o m oc triv = .ok P ↔ BuildOk o m oc ∧ P = problemOf o m oc triv := by
  have hpost : PrimalOk o m → NoAugSum o →
      (do
        let (f1, bg, cg) ← globalCompl o m.dims oc (primalOf o m oc).p
          (procAcc o m oc o.nStages).form
        let cv ← (procAcc o m oc o.nStages).stages.flatten.mapM
          (compVector (primalOf o m oc).hp o)
        let f2 ← terminal o m.dims oc (procAcc o m oc o.nStages).stages f1
        let f3 := elasticCost o f2
        let f4 ← terminalTimeCon o (procAcc o m oc o.nStages).stages f3
        let (f5, idx) ← collectAll f4 (procAcc o m oc o.nStages).stages
        let f6 ← lsq o f5
        Except.ok { form := f6, p := (primalOf o m oc).p, idx := idx,
                    indU := (primalOf o m oc).indU, indSot := (primalOf o m oc).indSot,
                    indVGlobal := (primalOf o m oc).indVGlobal,
                    indElastic := (primalOf o m oc).indElastic, boolGlob := appendIdx [] bg,
                    indComp := (procAcc o m oc o.nStages).indComp, compGlob := appendIdx [] cg,
                    compVec := cv.flatten, w0Original := f5.w0, ocpTrivial := triv })
      = (do
        let f6 ← lsq o (form5 o m oc)
        Except.ok { problemOf o m oc triv with form := f6 }) := by
    intro hp ha
    have hx := hd.fe hp
    rw [globalCompl_ok hp hf]
    simp only [ok_bind]
    have hcv : (procAcc o m oc o.nStages).stages.flatten.mapM (compVector (primalOf o m oc).hp o)
        = .ok ((allFE o).map fun q => compVecOf o m.dims q.1 q.2) := by
      rw [allDone_flatten, List.mapM_map]
      exact mapM_ok fun q hq => compVector_ok hn hp hx hf ha (mem_allFE.1 hq)
    rw [hcv, ok_bind, terminal_ok hn hp hx hf ha, ok_bind, terminalTimeCon_ok hx hf ha, ok_bind]
    rw [collectAll_ok (fun st hst fe hfe => by
      simp only [procAcc, List.mem_map] at hst
      obtain ⟨k, hk, rfl⟩ := hst
      simp only [doneFEs, List.mem_map] at hfe
      obtain ⟨e, he, rfl⟩ := hfe
      have hE := feDone_facts hx hf ha k e
      exact ⟨hE.aligned, by rw [hE.rows1]; exact rowsX_pos (o := o) hn⟩)]
    simp only [ok_bind]
    have h5 : Form.addFEs ((elasticCost o ((execForm o .boolGlob (procAcc o m oc o.nStages).form
        (globC m oc)).addB (termBlk o m oc))).addBs (timeBlks o))
        (procAcc o m oc o.nStages).stages.flatten = form5 o m oc := by
      rw [allDone_flatten]; rfl
    rw [h5]
    congr 1
    funext f6
    congr 1
    simp only [problemOf]
    congr 1
    · unfold form0 allBlks
      by_cases hb : o.mpcc = .boolean <;> simp [hb, appendIdx, procAcc]
    · have hf0 : (procAcc o m oc o.nStages).form = form0 o m oc := rfl
      rw [hf0]
      have hc : isCompl (globC m oc) = true := rfl
      simp only [cmdCompIdx, hc, true_and]
      split <;> simp_all [appendIdx]
  unfold build
  constructor
  · intro h
    rw [bind_eq_ok] at h
    obtain ⟨pr, h1, h⟩ := h
    rw [createPrimal_iff hn hd] at h1
    obtain ⟨hp, rfl⟩ := h1
    have hx := hd.fe hp
    rw [bind_eq_ok] at h
    obtain ⟨acc, h2, h⟩ := h
    have h2' := (processStages_iff hn hp hx hf acc).1 h2
    obtain ⟨hz, ha, rfl⟩ := h2'
    rw [hpost hp ha, bind_eq_ok] at h
    obtain ⟨f6, h6, h⟩ := h
    rw [lsq_iff] at h6
    cases h
    rw [h6.2]
    exact ⟨⟨hp, hz, ha, h6.1⟩, rfl⟩
  · rintro ⟨hb, rfl⟩
    rw [(createPrimal_iff hn hd _).2 ⟨hb.primal, rfl⟩, ok_bind]
    have h2 := (processStages_iff hn hb.primal (hd.fe hb.primal) hf _).2 ⟨hb.z, hb.aug, rfl⟩
    have h2' : (primalOf o m oc).hp.stages.zipIdx.foldlM (processStage (primalOf o m oc).hp o m oc
        (primalOf o m oc).indU (primalOf o m oc).indSot) ⟨(primalOf o m oc).form, [], []⟩
        = .ok (procAcc o m oc o.nStages) := h2
    rw [h2', ok_bind, hpost hb.primal hb.aug, lsq_iff.2 ⟨hb.lsq, rfl⟩]
    rfl

end
end Nosnoc
