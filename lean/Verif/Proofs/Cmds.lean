import Verif.Spec.Disc
import Verif.Proofs.Vecs
/-
Helper lemmas: the commands issued for a finite element, in closed form.
-/
namespace Nosnoc

/-- What the preprocessing of model and ocp guarantees about the CasADi functions. -/
structure FunsOk (o : PreOpts) (m : PreModel) (oc : PreOcp) : Prop where
  fxIns : m.fxFun.ins = [m.dims.mX, m.zAll, m.dims.mU, m.dims.mP, m.dims.mV]
  fxOuts : m.fxFun.outs.length = m.dims.nX
  gzIns : m.gzAllFun.ins = [m.dims.mX, m.zAll, m.dims.mU, m.dims.mP]
  swIns : m.gzSwitchingFun.ins = [m.dims.mX, m.zAll, m.dims.mU, m.dims.mP]
  tFun : ∀ t, m.tFun = some t → t.ins = [m.dims.mX] ∧ t.outs.length = 1
  tSome : o.timeFreezing = true → m.tFun.isSome
  fqIns : oc.fqFun.ins = [m.dims.mX, m.dims.mU, m.dims.mP, m.dims.mV]
  fqOuts : oc.fqFun.outs.length = 1
  gPathIns : oc.gPathFun.ins = [m.dims.mX, m.dims.mU, m.dims.mP, m.dims.mV]
  gPathLb : oc.lbg.length = oc.gPathFun.outs.length
  gPathUb : oc.ubg.length = oc.gPathFun.outs.length
  fqTIns : oc.fqTFun.ins = [m.dims.mX, m.dims.mP, m.dims.mV]
  fqTOuts : oc.fqTFun.outs.length = 1
  gTIns : oc.gTerminalFun.ins = [m.dims.mX, m.dims.mP, m.dims.mV]
  rkIns1 : oc.gRkFun.1.ins = [m.dims.mX, m.dims.mU, m.zAll, m.dims.mP, m.dims.mV]
  rkIns2 : oc.gRkFun.2.ins = [m.dims.mX, m.dims.mU, m.zAll, m.dims.mP, m.dims.mV]
  rkOuts : oc.gRkFun.1.outs.length = oc.gRkFun.2.outs.length
  ctrlIns1 : oc.gCtrlFun.1.ins = [m.dims.mU, m.dims.mP, m.dims.mV]
  ctrlIns2 : oc.gCtrlFun.2.ins = [m.dims.mU, m.dims.mP, m.dims.mV]
  ctrlOuts : oc.gCtrlFun.1.outs.length = oc.gCtrlFun.2.outs.length
  globIns1 : oc.gGlobalFun.1.ins = [blk m.dims.nPgl .mPgl, m.dims.mV]
  globIns2 : oc.gGlobalFun.2.ins = [blk m.dims.nPgl .mPgl, m.dims.mV]
  globOuts : oc.gGlobalFun.1.outs.length = oc.gGlobalFun.2.outs.length

/-- Number of algebraic variables per stage. -/
def nZall (o : PreOpts) (d : Dims) : Nat := (zSyms o d 0 0 0 0).length

theorem length_rowSyms (o : PreOpts) (d : Dims) (k e : Nat) (f : Fam2) (j : Nat) :
    (rowSyms o d k e f j).length = (rowSyms o d 0 0 f 0).length := by
  simp [rowSyms, List.length_flatMap]

theorem length_zSyms (o : PreOpts) (d : Dims) (k e j jl : Nat) :
    (zSyms o d k e j jl).length = nZall o d := by
  unfold nZall zSyms
  simp only [List.length_append, length_blk, length_rowSyms o d k e]

/-- The model's algebraic variables are as many as the finite element creates. -/
def ZOk (o : PreOpts) (m : PreModel) : Prop := m.zAll.length = nZall o m.dims

section
variable {o : PreOpts} {m : PreModel} {oc : PreOcp}

/-- The finite element `(k, e)` right after creation. -/
noncomputable def feOf (o : PreOpts) (m : PreModel) (oc : PreOcp) (k e : Nat) : FE :=
  feInit o m oc k e (prevRef o k e)

noncomputable def heapOf (o : PreOpts) (m : PreModel) (oc : PreOcp) : Heap := (primalOf o m oc).hp

/-- Element `(k, e)` exists. -/
def FEIn (o : PreOpts) (k e : Nat) : Prop := k < o.nStages ∧ e < nfe o k

theorem heapOf_deref {k e : Nat} (h : FEIn o k e) :
    (heapOf o m oc).deref (.fe k e) = .ok (feOf o m oc k e) := by
  simp [Heap.deref, heapOf, primalOf, h.1, stageFEs, h.2, feOf]

theorem FEIn.prev (hp : PrimalOk o m) {k e : Nat} (h : FEIn o k e) {k' e' : Nat}
    (hq : prevFe o k e = some (k', e')) : FEIn o k' e' := by
  unfold prevFe at hq
  split at hq
  · cases hq; exact ⟨h.1, by have := h.2; omega⟩
  · split at hq
    · cases hq
      have := hp.nfe (k - 1) (by have := h.1; omega)
      exact ⟨by have := h.1; omega, by omega⟩
    · cases hq

/-- The object before `(k, e)`. -/
noncomputable def prevObj (o : PreOpts) (m : PreModel) (oc : PreOcp) (k e : Nat) : FE :=
  match prevFe o k e with
  | some (k', e') => feOf o m oc k' e'
  | none => fe0Init o.pss m

theorem prevOf_ok (hp : PrimalOk o m) {k e : Nat} (h : FEIn o k e) :
    (heapOf o m oc).prevOf (feOf o m oc k e) = .ok (prevObj o m oc k e) := by
  have h1 : (feOf o m oc k e).prev = some (prevRef o k e) := rfl
  unfold Heap.prevOf
  rw [h1]
  simp only
  unfold prevRef prevObj
  cases hq : prevFe o k e with
  | none => rfl
  | some q => obtain ⟨k', e'⟩ := q; exact heapOf_deref (h.prev hp hq)

theorem prevX_ok (hn : 0 < o.nS) (hp : PrimalOk o m) {k e : Nat} (h : FEIn o k e) :
    (heapOf o m oc).prevX (feOf o m oc k e) = .ok (vars (blk m.dims.nX (startX o k e))) := by
  unfold Heap.prevX
  rw [prevOf_ok hp h, ok_bind]
  unfold prevObj
  cases hq : prevFe o k e with
  | none =>
    simp only [fe0Init_lastX]
    have : startX o k e = .x0 := by funext i; simp [startX, hq]
    rw [this]
  | some q =>
    obtain ⟨k', e'⟩ := q
    have : startX o k e = endX o k' e' := by funext i; simp [startX, hq]
    simp only [feOf, feInit_lastX hn, this]

theorem prevLam_ok (hn : 0 < o.nS) {k e : Nat} :
    (prevObj o m oc k e).Lambda .last = .ok (vars (startLamSyms o m.dims k e)) := by
  unfold prevObj startLamSyms
  cases hq : prevFe o k e with
  | none => simp only [fe0Init_Lambda_last]
  | some q => obtain ⟨k', e'⟩ := q; simp only [feOf, feInit_Lambda_last hn]

theorem hExpr_ok {k e : Nat} : (feOf o m oc k e).hExpr = .ok (hVal o k e) := by
  show (FE.blank o m.dims k e (prevRef o k e)).hExpr = _
  unfold FE.hExpr FE.blank hVal
  by_cases h : o.useFesd = true <;> simp [h, nominalH_h0]

/-- `x_start + h Σ_r a_jr v_r`. -/
noncomputable def rkX (o : PreOpts) (k e j i : Nat) : Expr := fun env =>
  env (startX o k e i) +
    ∑ r ∈ Finset.range o.nS, hVal o k e env * o.aIrk j r * env (.st1 .v k e r i)

theorem rkState_ok (hr : o.irkRep ≠ .integral) {k e : Nat} (j : Nat) :
    rkState o (feOf o m oc k e) (vars (blk m.dims.nX (startX o k e))) (hVal o k e) j
      = .ok (vec m.dims.nX (rkX o k e j)) := by
  unfold rkState
  rw [vars_blk, foldlM_vadd (ψ := fun r i env => hVal o k e env * o.aIrk j r * env (.st1 .v k e r i))]
  · rfl
  · intro χ r hr'
    simp only [feOf, feInit_stageV hr hr', ok_bind, vars_blk, vsmul_vec]
    rfl

theorem stageX_diff (hr : o.irkRep = .differential) (d : Dims) (k e j : Nat) :
    stageX o d k e j = vec d.nX (rkX o k e j) := by
  unfold stageX; rw [if_pos hr]; rfl
theorem stageX_var (hr : o.irkRep ≠ .differential) (d : Dims) (k e j : Nat) :
    stageX o d k e j = vars (blk d.nX (.st1 .x k e j)) := by
  unfold stageX; rw [if_neg hr]

@[simp] theorem length_stageX (d : Dims) (k e j : Nat) : (stageX o d k e j).length = d.nX := by
  unfold stageX; split <;> simp

/-- `X_fe` in closed form. -/
noncomputable def xFeOf (o : PreOpts) (d : Dims) (k e : Nat) : List Vec :=
  (List.range o.nS).map (stageX o d k e) ++ (if hasXEnd o then [endState o d k e] else [])

theorem xFe_ok (hn : 0 < o.nS) (hp : PrimalOk o m) {k e : Nat} (h : FEIn o k e) :
    (heapOf o m oc).xFe o (feOf o m oc k e) = .ok (xFeOf o m.dims k e) := by
  unfold Heap.xFe xFeOf
  by_cases hr : o.irkRep = .differential
  · rw [hr]
    simp only
    rw [mapM_ok (g := stageX o m.dims k e)]
    · have hx : hasXEnd o = true := by simp [hasXEnd, hr]
      simp only [ok_bind, hx, if_true]
      simp only [feOf, feInit_lastX hn, ok_bind]
      rfl
    · intro j _
      rw [prevX_ok hn hp h, ok_bind, hExpr_ok, ok_bind, rkState_ok (by rw [hr]; simp),
        stageX_diff hr]
  · have hX : ∀ l : List Nat, (∀ j ∈ l, j < o.nS) →
        l.mapM (fun j => (feOf o m oc k e).read1 .x (.nat j)) = .ok (l.map (stageX o m.dims k e)) := by
      intro l hl
      apply mapM_ok
      intro j hj
      rw [stageX_var hr]
      exact feInit_stageX hr (hl j hj)
    have hres : (List.range ((feOf o m oc k e).rows1 .x)).mapM
          (fun j => (feOf o m oc k e).read1 .x (.nat j))
        = .ok ((List.range o.nS).map (stageX o m.dims k e) ++
            (if hasXEnd o then [endState o m.dims k e] else [])) := by
      show (List.range (rowsX o)).mapM _ = _
      by_cases hb : o.rbe = true
      · have h1 : rowsX o = o.nS := by simp [rowsX, hr, hb]
        have h2 : hasXEnd o = false := by simp [hasXEnd, hr, hb]
        rw [h1, h2, hX _ fun j hj => List.mem_range.1 hj]
        simp
      · have h1 : rowsX o = o.nS + 1 := by simp [rowsX, hr, hb]
        have h2 : hasXEnd o = true := by simp [hasXEnd, hb]
        rw [h1, h2, List.range_succ, List.mapM_append, hX _ fun j hj => List.mem_range.1 hj]
        have := feInit_lastX (o := o) (m := m) (oc := oc) (k := k) (e := e) (prev := prevRef o k e) hn
        have h3 : (feOf o m oc k e).read1 .x (.nat o.nS) = .ok (endState o m.dims k e) := by
          rw [← show (feOf o m oc k e).read1 .x .last = .ok (endState o m.dims k e) from this]
          unfold FE.read1 FE.get1
          have h4 : (feOf o m oc k e).rows1 .x = o.nS + 1 := h1
          rw [h4, resolve_last (by omega), resolve_nat (by omega)]
          rfl
        simp [h3]
    cases hq : o.irkRep with
    | differential => exact absurd hq hr
    | integral => exact hres
    | differentialLiftX => exact hres

theorem xFeOf_get {d : Dims} {k e j : Nat} (hj : j < o.nS) :
    listGet (xFeOf o d k e) j = .ok (stageX o d k e j) := by
  rw [listGet_eq_ok]
  unfold xFeOf
  rw [List.getElem?_append_left (by simpa using hj)]
  simp [hj]

theorem xFeOf_end {d : Dims} {k e : Nat} (hx : hasXEnd o = true) :
    listGet (xFeOf o d k e) o.nS = .ok (endState o d k e) := by
  rw [listGet_eq_ok]
  unfold xFeOf
  rw [List.getElem?_append_right (by simp)]
  simp [hx]

/-! ### Commands -/

/-- Arguments of control stage `k`. -/
def argsOf (o : PreOpts) (d : Dims) (k : Nat) : StageArgs :=
  { uk := ctrlU d k, sot := sotVal o k, p := ctrlP d k, v := globV d }

noncomputable def liftC (o : PreOpts) (d : Dims) (k e : Nat) : List Cmd :=
  if o.irkRep = .differentialLiftX then
    (List.range o.nS).map fun j =>
      .con (vec d.nX fun i env => env (.st1 .x k e j i) - rkX o k e j i env) none
  else []

theorem liftC_ok (hn : 0 < o.nS) (hp : PrimalOk o m) {k e : Nat} (h : FEIn o k e) :
    liftCmds (heapOf o m oc) o (feOf o m oc k e) = .ok (liftC o m.dims k e) := by
  unfold liftCmds liftC
  by_cases hr : o.irkRep = .differentialLiftX
  · rw [if_pos hr, if_pos hr]
    apply mapM_ok
    intro j hj
    rw [prevX_ok hn hp h, ok_bind, hExpr_ok, ok_bind, rkState_ok (by rw [hr]; simp), ok_bind]
    simp only [feOf]
    rw [feInit_stageX (by rw [hr]; simp) (List.mem_range.1 hj), ok_bind, vars_blk, vsub_vec]
    rfl
  · rw [if_neg hr, if_neg hr]

/-- Right-hand side, running cost and algebraic equations at stage `j`. -/
noncomputable def fxAt (o : PreOpts) (m : PreModel) (k e j : Nat) : Vec :=
  m.fxFun.app [stageX o m.dims k e j, stageZ o m.dims k e j, ctrlU m.dims k, ctrlP m.dims k,
    globV m.dims]
noncomputable def fqAt (o : PreOpts) (m : PreModel) (oc : PreOcp) (k e j : Nat) : Expr :=
  at' (oc.fqFun.app [stageX o m.dims k e j, ctrlU m.dims k, ctrlP m.dims k, globV m.dims]) 0
noncomputable def gzAt (o : PreOpts) (m : PreModel) (k e j : Nat) : Vec :=
  m.gzAllFun.app [stageX o m.dims k e j, stageZ o m.dims k e j, ctrlU m.dims k, ctrlP m.dims k]

/-- Residual of the Runge-Kutta equation of stage `j`, component `i`. -/
noncomputable def rkRes (o : PreOpts) (m : PreModel) (k e j i : Nat) : Expr :=
  if o.irkRep = .integral then fun env =>
    hVal o k e env * (sotVal o k env * at' (fxAt o m k e j) i env)
      - (o.CIrk 0 (j + 1) * env (startX o k e i)
        + ∑ r ∈ Finset.range o.nS, o.CIrk (r + 1) (j + 1) * env (.st1 .x k e r i))
  else fun env => sotVal o k env * at' (fxAt o m k e j) i env - env (.st1 .v k e j i)

/-- Quadrature weight of stage `j`. -/
def qW (o : PreOpts) (j : Nat) : ℝ := if o.irkRep = .integral then o.BIrk (j + 1) else o.bIrk j

noncomputable def stageC (o : PreOpts) (m : PreModel) (oc : PreOcp) (k e j : Nat) : List Cmd :=
  [.con (gzAt o m k e j) none, .con (vec m.dims.nX (rkRes o m k e j)) none,
   .cost fun env => qW o j * hVal o k e env * (sotVal o k env * fqAt o m oc k e j env)]

theorem length_stageZ (d : Dims) (k e j : Nat) : (stageZ o d k e j).length = nZall o d := by
  simp [stageZ, length_zSyms]

@[simp] theorem length_ctrlU (d : Dims) (k : Nat) : (ctrlU d k).length = d.nU := by simp [ctrlU]
@[simp] theorem length_ctrlP (d : Dims) (k : Nat) : (ctrlP d k).length = d.nPtv + d.nPgl := by
  simp [ctrlP]
@[simp] theorem length_globV (d : Dims) : (globV d).length = d.nV := by simp [globV, Dims.mV]
@[simp] theorem length_endState (d : Dims) (k e : Nat) : (endState o d k e).length = d.nX := by
  simp [endState]
@[simp] theorem length_mX (d : Dims) : d.mX.length = d.nX := by simp [Dims.mX]
@[simp] theorem length_mU (d : Dims) : d.mU.length = d.nU := by simp [Dims.mU]
@[simp] theorem length_mP (d : Dims) : d.mP.length = d.nPtv + d.nPgl := by simp [Dims.mP]
@[simp] theorem length_mV (d : Dims) : d.mV.length = d.nV := by simp [Dims.mV]

theorem stageC_ok (hn : 0 < o.nS) (hp : PrimalOk o m) (hf : FunsOk o m oc) (hz : ZOk o m)
    {k e j : Nat} (h : FEIn o k e) (hj : j < o.nS) :
    stageCmds (heapOf o m oc) o m oc (argsOf o m.dims k) (feOf o m oc k e) (xFeOf o m.dims k e) j
      = .ok (stageC o m oc k e j) := by
  have hfx : m.fxFun.call [stageX o m.dims k e j, stageZ o m.dims k e j, ctrlU m.dims k,
      ctrlP m.dims k, globV m.dims] = .ok (fxAt o m k e j) :=
    CFun.call_ok (by rw [hf.fxIns]; simp [length_stageZ, show m.zAll.length = _ from hz])
  have hfq : oc.fqFun.call1 [stageX o m.dims k e j, ctrlU m.dims k, ctrlP m.dims k, globV m.dims]
      = .ok (fqAt o m oc k e j) :=
    CFun.call1_ok (by rw [hf.fqIns]; simp) hf.fqOuts
  have hgz : m.gzAllFun.call [stageX o m.dims k e j, stageZ o m.dims k e j, ctrlU m.dims k,
      ctrlP m.dims k] = .ok (gzAt o m k e j) :=
    CFun.call_ok (by rw [hf.gzIns]; simp [length_stageZ, show m.zAll.length = _ from hz])
  have hfl : fxAt o m k e j = vec m.dims.nX (at' (fxAt o m k e j)) :=
    vec_eta (by simp [fxAt, hf.fxOuts])
  unfold stageCmds
  rw [xFeOf_get hj, ok_bind]
  have hZ : (feOf o m oc k e).rkStageZ (.nat j) = .ok (stageZ o m.dims k e j) :=
    feInit_rkStageZ_nat hj
  rw [hZ]
  simp only [ok_bind, argsOf, hfx, hfq, hgz, hExpr_ok]
  cases hr : o.irkRep with
  | integral =>
    simp only [prevX_ok hn hp h, ok_bind]
    rw [vars_blk, vsmul_vec, foldlM_vadd (ψ := fun r i env =>
      const (o.CIrk (r + 1) (j + 1)) env * env (.st1 .x k e r i))]
    · simp only [ok_bind, stageC]
      rw [hfl, vsmul_vec, vsmul_vec, vsub_vec]
      have h1 : rkRes o m k e j = fun i env =>
          hVal o k e env * (sotVal o k env * at' (fxAt o m k e j) i env)
            - (o.CIrk 0 (j + 1) * env (startX o k e i)
              + ∑ r ∈ Finset.range o.nS, o.CIrk (r + 1) (j + 1) * env (.st1 .x k e r i)) := by
        funext i; simp [rkRes, hr]
      rw [h1]
      simp only [qW, hr, if_true]
      rfl
    · intro χ r hr'
      rw [xFeOf_get hr', ok_bind, stageX_var (by rw [hr]; simp), vars_blk, vsmul_vec]
      rfl
  | differential =>
    simp only [feOf, feInit_stageV (show o.irkRep ≠ .integral by rw [hr]; simp) hj, ok_bind, stageC]
    have h1 : rkRes o m k e j = fun i env =>
        sotVal o k env * at' (fxAt o m k e j) i env - env (.st1 .v k e j i) := by
      funext i; simp [rkRes, hr]
    rw [hfl, vsmul_vec, vars_blk, vsub_vec, h1]
    simp only [qW, hr, reduceCtorEq, if_false]
    rfl
  | differentialLiftX =>
    simp only [feOf, feInit_stageV (show o.irkRep ≠ .integral by rw [hr]; simp) hj, ok_bind, stageC]
    have h1 : rkRes o m k e j = fun i env =>
        sotVal o k env * at' (fxAt o m k e j) i env - env (.st1 .v k e j i) := by
      funext i; simp [rkRes, hr]
    rw [hfl, vsmul_vec, vars_blk, vsub_vec, h1]
    simp only [qW, hr, reduceCtorEq, if_false]
    rfl

/-- The Runge-Kutta approximation of the state at the end of the element. -/
noncomputable def xkEndC (o : PreOpts) (k e i : Nat) : Expr :=
  if o.irkRep = .integral then fun env => o.DIrk 0 * env (startX o k e i)
    + ∑ j ∈ Finset.range o.nS, o.DIrk (j + 1) * env (.st1 .x k e j i)
  else fun env => env (startX o k e i)
    + ∑ j ∈ Finset.range o.nS, hVal o k e env * o.bIrk j * env (.st1 .v k e j i)

noncomputable def contC (o : PreOpts) (d : Dims) (k e : Nat) : List Cmd :=
  if hasXEnd o then [.con (vec d.nX fun i env => xkEndC o k e i env - env (.xEnd k e i)) none]
  else []

theorem contC_ok (hn : 0 < o.nS) (hp : PrimalOk o m) {k e : Nat} (h : FEIn o k e) :
    continuityCmds (heapOf o m oc) o (feOf o m oc k e) (xFeOf o m.dims k e)
      = .ok (contC o m.dims k e) := by
  unfold continuityCmds contC
  by_cases hx : hasXEnd o = true
  · have hend : ∀ i, endX o k e i = .xEnd k e i := fun i => by simp [endX, ownEnd_eq, hx]
    have hxk : xkEnd (heapOf o m oc) o (feOf o m oc k e) (xFeOf o m.dims k e)
        = .ok (vec m.dims.nX (xkEndC o k e)) := by
      unfold xkEnd
      rw [prevX_ok hn hp h, ok_bind]
      have hd : o.irkRep ≠ .integral → (List.range o.nS).foldlM (fun acc j => do
          let v ← (feOf o m oc k e).read1 .v (.nat j)
          .ok (vadd acc (vsmul (fun env => hVal o k e env * o.bIrk j) v)))
            (vars (blk m.dims.nX (startX o k e))) = .ok (vec m.dims.nX (xkEndC o k e)) := by
        intro hr
        rw [vars_blk, foldlM_vadd (ψ := fun j i env =>
          hVal o k e env * o.bIrk j * env (.st1 .v k e j i))]
        · have h1 : xkEndC o k e = fun i env => env (startX o k e i)
              + ∑ j ∈ Finset.range o.nS, hVal o k e env * o.bIrk j * env (.st1 .v k e j i) := by
            funext i; simp [xkEndC, hr]
          rw [h1]; rfl
        · intro χ j hj
          simp only [feOf, feInit_stageV hr hj, ok_bind]
          rw [vars_blk, vsmul_vec]
          rfl
      cases hr : o.irkRep with
      | integral =>
        simp only
        rw [vars_blk, vsmul_vec, foldlM_vadd (ψ := fun j i env =>
          const (o.DIrk (j + 1)) env * env (.st1 .x k e j i))]
        · have h1 : xkEndC o k e = fun i env => o.DIrk 0 * env (startX o k e i)
              + ∑ j ∈ Finset.range o.nS, o.DIrk (j + 1) * env (.st1 .x k e j i) := by
            funext i; simp [xkEndC, hr]
          rw [h1]; rfl
        · intro χ j hj
          rw [xFeOf_get hj, ok_bind, stageX_var (by rw [hr]; simp), vars_blk, vsmul_vec]
          rfl
      | differential => simp only [hExpr_ok, ok_bind]; exact hd (by rw [hr]; simp)
      | differentialLiftX => simp only [hExpr_ok, ok_bind]; exact hd (by rw [hr]; simp)
    rw [if_pos hx, if_pos hx, hxk, ok_bind]
    simp only [feOf]
    rw [feInit_lastX hn, ok_bind, vars_blk, vsub_vec]
    simp only [hend]
    rfl
  · rw [if_neg hx, if_neg hx]

/-- State at which path constraints are evaluated at the end of an element. -/
noncomputable def pathX (o : PreOpts) (d : Dims) (k e : Nat) : Vec :=
  if o.rbe then stageX o d k e (o.nS - 1) else endState o d k e

/-- Path constraints at a state. -/
noncomputable def gPathAt (m : PreModel) (oc : PreOcp) (k : Nat) (x : Vec) : Vec :=
  oc.gPathFun.app [x, ctrlU m.dims k, ctrlP m.dims k, globV m.dims]

noncomputable def pathC (o : PreOpts) (m : PreModel) (oc : PreOcp) (k e : Nat) : List Cmd :=
  (if e + 1 = nfe o k ∨ o.gPathAtFe = true then
    [.con (gPathAt m oc k (pathX o m.dims k e)) (some (oc.lbg, oc.ubg))] else [])
  ++ (if o.gPathAtStg then
    (List.range (o.nS - (if o.rbe then 1 else 0))).map fun j =>
      .con (gPathAt m oc k (stageX o m.dims k e j)) (some (oc.lbg, oc.ubg)) else [])

theorem gPath_call (hf : FunsOk o m oc) {k : Nat} {x : Vec} (hx : x.length = m.dims.nX) :
    oc.gPathFun.call [x, ctrlU m.dims k, ctrlP m.dims k, globV m.dims]
      = .ok (gPathAt m oc k x) :=
  CFun.call_ok (by rw [hf.gPathIns]; simp [hx])

theorem pathC_ok (hn : 0 < o.nS) (hf : FunsOk o m oc) {k e : Nat} :
    pathCmds o oc (argsOf o m.dims k) (feOf o m oc k e) (xFeOf o m.dims k e)
      = .ok (pathC o m oc k e) := by
  have hX : listGet (xFeOf o m.dims k e) (o.nS + (if o.rbe then 0 else 1) - 1)
      = .ok (pathX o m.dims k e) := by
    unfold pathX
    by_cases hb : o.rbe = true
    · simp only [hb, if_true]
      exact xFeOf_get (by omega)
    · rw [Bool.not_eq_true] at hb
      simp only [hb]
      exact xFeOf_end (by simp [hasXEnd, hb])
  have hl : (pathX o m.dims k e).length = m.dims.nX := by unfold pathX; split <;> simp
  have hs : ∀ n, n ≤ o.nS → (List.range n).mapM (fun j => do
        let x ← listGet (xFeOf o m.dims k e) j
        let g ← oc.gPathFun.call [x, ctrlU m.dims k, ctrlP m.dims k, globV m.dims]
        .ok (Cmd.con g (some (oc.lbg, oc.ubg))))
      = .ok ((List.range n).map fun j =>
          Cmd.con (gPathAt m oc k (stageX o m.dims k e j)) (some (oc.lbg, oc.ubg))) := by
    intro n hle
    apply mapM_ok
    intro j hj
    rw [xFeOf_get (lt_of_lt_of_le (List.mem_range.1 hj) hle), ok_bind,
      gPath_call hf (by simp), ok_bind]
  unfold pathCmds pathC
  have he : (feOf o m oc k e).e = e := rfl
  have hk : (feOf o m oc k e).k = k := rfl
  simp only [argsOf, he, hk]
  have hnfe : o.nfeList.getD k 0 = nfe o k := rfl
  rw [hnfe]
  by_cases h1 : e + 1 = nfe o k ∨ o.gPathAtFe = true
  · rw [if_pos h1, if_pos h1, hX]
    simp only [ok_bind, gPath_call hf hl]
    by_cases h2 : o.gPathAtStg = true
    · simp only [h2, if_true, hs _ (Nat.sub_le _ _), ok_bind]
    · simp [h2]
  · rw [if_neg h1, if_neg h1]
    by_cases h2 : o.gPathAtStg = true
    · simp only [h2, if_true, hs _ (Nat.sub_le _ _), ok_bind]
    · simp [h2]

/-- Switching equations imposed at the boundary point. -/
noncomputable def swAt (o : PreOpts) (m : PreModel) (k e : Nat) : Vec :=
  m.gzSwitchingFun.app [endState o m.dims k e,
    vars (zSyms o m.dims k e (o.nS - 1) (lastLam o k e)), ctrlU m.dims k, ctrlP m.dims k]

noncomputable def boundC (o : PreOpts) (m : PreModel) (k e : Nat) : List Cmd :=
  if o.rbe = false ∧ o.useFesd = true then [.con (swAt o m k e) none] else []

theorem boundC_ok (hn : 0 < o.nS) (hf : FunsOk o m oc) (hz : ZOk o m) {k e : Nat} :
    boundaryCmds o m (argsOf o m.dims k) (feOf o m oc k e) = .ok (boundC o m k e) := by
  unfold boundaryCmds boundC
  by_cases hb : o.rbe = false ∧ o.useFesd = true
  · rw [if_pos hb, if_pos hb]
    simp only [feOf]
    rw [feInit_lastX hn, ok_bind, feInit_rkStageZ_last hn, ok_bind]
    simp only [argsOf]
    rw [CFun.call_ok]
    · rfl
    · rw [hf.swIns]; simp [length_zSyms, show m.zAll.length = _ from hz]
  · rw [if_neg hb, if_neg hb]

/-- Path complementarities of stage `j`, and of the control stage. -/
noncomputable def rkCompAt (o : PreOpts) (m : PreModel) (f : CFun) (k e j : Nat) : Vec :=
  f.app [stageX o m.dims k e j, ctrlU m.dims k, stageZ o m.dims k e j, ctrlP m.dims k,
    globV m.dims]
noncomputable def ctrlCompAt (m : PreModel) (f : CFun) (k : Nat) : Vec :=
  f.app [ctrlU m.dims k, ctrlP m.dims k, globV m.dims]

noncomputable def pathCompC (o : PreOpts) (m : PreModel) (oc : PreOcp) (k e : Nat) : List Cmd :=
  ((List.range o.nS).map fun j =>
    .compl [rkCompAt o m oc.gRkFun.1 k e j] (rkCompAt o m oc.gRkFun.2 k e j))
  ++ (if e + 1 = o.nFe then
    [.compl [ctrlCompAt m oc.gCtrlFun.1 k] (ctrlCompAt m oc.gCtrlFun.2 k)] else [])

theorem pathCompC_ok (hn : 0 < o.nS) (hp : PrimalOk o m) (hf : FunsOk o m oc) (hz : ZOk o m)
    {k e : Nat} (h : FEIn o k e) :
    pathCompCmds (heapOf o m oc) o oc (argsOf o m.dims k) (feOf o m oc k e)
      = .ok (pathCompC o m oc k e) := by
  unfold pathCompCmds pathCompC
  rw [xFe_ok hn hp h, ok_bind]
  rw [mapM_ok (g := fun j =>
    Cmd.compl [rkCompAt o m oc.gRkFun.1 k e j] (rkCompAt o m oc.gRkFun.2 k e j))]
  · have he : (feOf o m oc k e).e = e := rfl
    simp only [ok_bind, he]
    by_cases h1 : e + 1 = o.nFe
    · rw [if_pos h1, if_pos h1]
      simp only [callPair, argsOf]
      rw [CFun.call_ok (by rw [hf.ctrlIns1]; simp), ok_bind,
        CFun.call_ok (by rw [hf.ctrlIns2]; simp)]
      rfl
    · rw [if_neg h1, if_neg h1]
  · intro j hj
    have hj := List.mem_range.1 hj
    have hZ : (feOf o m oc k e).rkStageZ (.nat j) = .ok (stageZ o m.dims k e j) :=
      feInit_rkStageZ_nat hj
    rw [hZ, ok_bind, xFeOf_get hj, ok_bind]
    simp only [callPair, argsOf]
    have hz' : m.zAll.length = _ := hz
    rw [CFun.call_ok (by rw [hf.rkIns1]; simp [length_stageZ, hz']), ok_bind,
      CFun.call_ok (by rw [hf.rkIns2]; simp [length_stageZ, hz'])]
    rfl

/-- Multiplier vectors. -/
def lamVec (o : PreOpts) (d : Dims) (k e j : Nat) : Vec := vars (lamSyms o d k e j)
def startLam (o : PreOpts) (d : Dims) (k e : Nat) : Vec := vars (startLamSyms o d k e)

/-- All multiplier vectors of the element, and the one of its beginning. -/
def allLam (o : PreOpts) (d : Dims) (k e : Nat) : List Vec :=
  (List.range (o.nS + endAllowance o k e)).map (lamVec o d k e) ++ [startLam o d k e]

theorem lambdasInclPrev_ok (hn : 0 < o.nS) (hp : PrimalOk o m) {k e : Nat} (h : FEIn o k e) :
    (heapOf o m oc).lambdasInclPrev (feOf o m oc k e) = .ok (allLam o m.dims k e) := by
  unfold Heap.lambdasInclPrev
  have h1 : (feOf o m oc k e).rows2 .lam = o.nS + endAllowance o k e := rfl
  rw [h1, mapM_ok (g := lamVec o m.dims k e)]
  · rw [ok_bind, prevOf_ok hp h, ok_bind, prevLam_ok hn, ok_bind]
    rfl
  · intro j hj
    exact feInit_Lambda (List.mem_range.1 hj)

noncomputable def crossC (o : PreOpts) (d : Dims) (k e : Nat) : List Cmd :=
  if o.useFesd = false then
    (List.range o.nS).map fun j => .compl [lamVec o d k e j] (thetaVec o d k e j)
  else if o.crossComp = .complementAll then
    (List.range o.nS).flatMap fun j =>
      .compl [thetaVec o d k e j] (startLam o d k e) ::
        (List.range o.nS).map fun jj => .compl [thetaVec o d k e j] (lamVec o d k e jj)
  else (List.range o.nS).map fun j => .compl (allLam o d k e) (thetaVec o d k e j)

theorem crossC_ok (hn : 0 < o.nS) (hp : PrimalOk o m) {k e : Nat} (h : FEIn o k e) :
    crossCompCmds (heapOf o m oc) o (feOf o m oc k e) = .ok (crossC o m.dims k e) := by
  have hL : ∀ j, j < o.nS → (feOf o m oc k e).Lambda (.nat j) = .ok (lamVec o m.dims k e j) :=
    fun j hj => feInit_Lambda (by omega)
  have hT : ∀ j, j < o.nS → (feOf o m oc k e).Theta (.nat j) = .ok (thetaVec o m.dims k e j) :=
    fun j hj => feInit_Theta hj
  unfold crossCompCmds crossC
  by_cases hu : o.useFesd = false
  · rw [if_pos hu, if_pos hu]
    apply mapM_ok
    intro j hj
    rw [hL j (List.mem_range.1 hj), ok_bind, hT j (List.mem_range.1 hj), ok_bind]
  · rw [if_neg hu, if_neg hu]
    cases hc : o.crossComp with
    | complementAll =>
      simp only
      rw [mapM_ok (g := fun j => Cmd.compl [thetaVec o m.dims k e j] (startLam o m.dims k e) ::
        (List.range o.nS).map fun jj =>
          Cmd.compl [thetaVec o m.dims k e j] (lamVec o m.dims k e jj))]
      · simp [List.flatMap_def]
      · intro j hj
        rw [hT j (List.mem_range.1 hj), ok_bind, prevOf_ok hp h, ok_bind, prevLam_ok hn, ok_bind,
          mapM_ok (g := fun jj => Cmd.compl [thetaVec o m.dims k e j] (lamVec o m.dims k e jj))]
        · rfl
        · intro jj hjj
          rw [hL jj (List.mem_range.1 hjj), ok_bind]
    | sumLambdas =>
      simp only
      rw [if_neg (by simp)]
      apply mapM_ok
      intro j hj
      rw [lambdasInclPrev_ok hn hp h, ok_bind, hT j (List.mem_range.1 hj), ok_bind]

end
end Nosnoc
