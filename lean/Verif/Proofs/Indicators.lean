import Verif.Spec.Indicators
import Verif.Proofs.ModelPre
import Verif.Proofs.SolverObj
import Verif.Proofs.Accept
/-
Lemmas for C135: in Stewart's representation the number of switching functions plays no role.
-/
namespace Nosnoc

/-- The same dimensions with other numbers of switching functions. -/
def Dims.setC (d : Dims) (n : Nat → Nat) : Dims := { d with nC := n }

/-- The same model with other numbers of switching functions. -/
def PreModel.setC (m : PreModel) (n : Nat → Nat) : PreModel := { m with dims := m.dims.setC n }

section
variable {o : PreOpts} {m : PreModel} {oc : PreOcp} {n : Nat → Nat}

theorem init0_setC (h : o.pss = .stewart) : FE.init0 o.pss (m.setC n) = FE.init0 o.pss m := by
  rw [h]; rfl

theorem feInit_setC (h : o.pss = .stewart) (k e : Nat) (prev : FERef) :
    FE.init o (m.setC n) oc k e prev = FE.init o m oc k e prev := by
  have h1 : ∀ j, stageCalls o (m.setC n) oc k e j = stageCalls o m oc k e j := fun j => by
    unfold stageCalls; rw [h]; rfl
  have h2 : boundaryCalls o (m.setC n) k e = boundaryCalls o m k e := by
    unfold boundaryCalls; rw [h]; rfl
  unfold FE.init feCalls
  rw [funext h1, h2]
  rfl

theorem createFEs_setC (h : o.pss = .stewart) (k : Nat) : ∀ (l ii : Nat) (prev : FERef),
    createFEs o (m.setC n) oc k l ii prev = createFEs o m oc k l ii prev
  | 0, _, _ => rfl
  | l + 1, ii, prev => by
      rw [createFEs, createFEs, feInit_setC h]
      simp only [createFEs_setC h k l]

theorem createControlStage_setC (h : o.pss = .stewart) (acc : PrimalAcc) (k : Nat) :
    createControlStage o (m.setC n) oc acc k = createControlStage o m oc acc k := by
  unfold createControlStage
  simp only [createFEs_setC h]
  rfl

theorem createPrimal_setC (h : o.pss = .stewart) : createPrimal o (m.setC n) oc = createPrimal o m oc := by
  unfold createPrimal
  have e : createControlStage o (m.setC n) oc = createControlStage o m oc :=
    funext fun a => funext fun k => createControlStage_setC h a k
  rw [init0_setC h, e]
  rfl

theorem processFEs_setC (hp : Heap) (a : StageArgs) : ∀ (fes : List FE) (f : Form),
    processFEs hp o (m.setC n) oc a f fes = processFEs hp o m oc a f fes
  | [], _ => rfl
  | fe :: rest, f => by
      rw [processFEs, processFEs]
      simp only [processFEs_setC hp a rest]
      rfl

theorem processStage_setC (hp : Heap) (iu is : List (List Nat)) (acc : ProcAcc) (kst : List FE × Nat) :
    processStage hp o (m.setC n) oc iu is acc kst = processStage hp o m oc iu is acc kst := by
  unfold processStage
  simp only [processFEs_setC]
  rfl

theorem build_setC (h : o.pss = .stewart) (b : Bool) : build o (m.setC n) oc b = build o m oc b := by
  unfold build
  rw [createPrimal_setC h]
  have e : ∀ hp iu is, processStage hp o (m.setC n) oc iu is = processStage hp o m oc iu is := fun hp iu is =>
    funext fun acc => funext fun kst => processStage_setC hp iu is acc kst
  simp only [e]
  rfl

theorem ocp_setC (uo : UserOcp) : uo.preprocess (m.setC n) = uo.preprocess m := rfl

end

/-- The same solver object with other numbers of switching functions. -/
def Solver.setC (S : Solver) (n : Nat → Nat) : Solver := { S with m := S.m.setC n }

section
variable {orc : Oracle} {S : Solver} {n : Nat → Nat}

theorem solveLoop_setC (lam00 : List ℝ) (b : Bounds) : ∀ (l ii : Nat) (st : SolveSt),
    solveLoop orc (S.setC n) lam00 b l ii st = solveLoop orc S lam00 b l ii st
  | 0, _, _ => rfl
  | l + 1, ii, st => by
      rw [solveLoop, solveLoop]
      simp only [solveLoop_setC lam00 b l]
      rfl

theorem polishLoop_setC (call : NlpCall) : ∀ (ks : List Nat) (log : List NlpCall) (last : Option NlpSol),
    polishLoop orc (S.setC n) call ks log last = polishLoop orc S call ks log last
  | [], _, _ => rfl
  | k :: ks, log, last => by
      rw [polishLoop, polishLoop]
      simp only [polishLoop_setC call ks]
      rfl

theorem polish_setC (lam00 w : List ℝ) (log : List NlpCall) :
    polish orc (S.setC n) lam00 w log = polish orc S lam00 w log := by
  unfold polish
  simp only [polishLoop_setC]
  rfl

/-- The outcome of a method on the object with other numbers of switching functions. -/
theorem finish_setC (lam00 : List ℝ) (st : SolveSt) :
    finish orc (S.setC n) lam00 st = ((finish orc S lam00 st).1.setC n, (finish orc S lam00 st).2) := by
  unfold finish
  simp only [polish_setC]
  cases st.last with
  | none => rfl
  | some q =>
    obtain ⟨w, status, cost⟩ := q
    have e1 : (S.setC n).o = S.o := rfl
    have e2 : (S.setC n).m.x0 = S.m.x0 := rfl
    have e3 : (S.setC n).P = S.P := rfl
    simp only [e1, e2, e3]
    split
    · rfl
    · split
      · rfl
      · split <;> rfl

theorem write_setC (l : List (List Nat × List ℝ)) :
    (S.setC n).write l = ((S.write l).1.setC n, (S.write l).2) := rfl

theorem initialize_setC (h : S.o.initStrategy ≠ .rk4Smoothened) :
    (S.setC n).initialize = (S.initialize.1.setC n, S.initialize.2) := by
  have hg : (S.setC n).initGuess = (S.initGuess.1.setC n, S.initGuess.2) := by
    unfold Solver.initGuess
    have e1 : (S.setC n).o = S.o := rfl
    rw [e1]
    split
    · rfl
    · rfl
    · rfl
    · rename_i h'; exact absurd h' h
  unfold Solver.initialize
  have e : (S.setC n).m.computeLambda00 = S.m.computeLambda00 := rfl
  rw [e]
  split
  · rfl
  · rw [hg]
    unfold thenReturn
    simp only
    split <;> rfl

theorem solve_setC (h : S.o.initStrategy ≠ .rk4Smoothened) :
    (S.setC n).solve orc = ((S.solve orc).1.setC n, (S.solve orc).2) := by
  unfold Solver.solve Solver.solveFrom
  rw [initialize_setC h]
  generalize S.initialize = ini
  obtain ⟨S1, r⟩ := ini
  cases r with
  | error e => rfl
  | ok lam00 =>
    simp only
    have e : activeSet (S1.setC n) lam00 = activeSet S1 lam00 := rfl
    rw [e]
    split
    · rfl
    · simp only [solveLoop_setC, finish_setC]
      have e1 : (S1.setC n).P = S1.P := rfl
      have e2 : (S1.setC n).pValues = S1.pValues := rfl
      have e3 : (S.setC n).o = S.o := rfl
      have e4 : (S1.setC n).log = S1.log := rfl
      simp only [e1, e2, e3, e4]
      split <;> rfl

theorem writeRows_setC (v : Arr) (l : List (List Nat × Nat)) :
    (S.setC n).writeRows v l = ((S.writeRows v l).1.setC n, (S.writeRows v l).2) := by
  unfold Solver.writeRows; split <;> rfl

theorem setX_setC (v : Arr) : (S.setC n).setX v = ((S.setX v).1.setC n, (S.setX v).2) := by
  have h : (S.setC n).setXWrites v = ((S.setXWrites v).1.setC n, (S.setXWrites v).2) := by
    unfold Solver.setXWrites
    have e1 : (S.setC n).o = S.o := rfl
    have e2 : (S.setC n).P = S.P := rfl
    simp only [writeRows_setC, e1, e2]
    split
    · rfl
    · split <;> rfl
  unfold Solver.setX thenWarn
  rw [h]
  simp only
  split <;> rfl

theorem set_setC (f : Field) (v : Arr) : (S.setC n).set f v = ((S.set f v).1.setC n, (S.set f v).2) := by
  have ha : ∀ ind : List (List Nat), (S.setC n).setArr ind v = ((S.setArr ind v).1.setC n, (S.setArr ind v).2) := by
    intro ind
    unfold Solver.setArr
    split <;> rfl
  cases f
  case x0 => cases v <;> rfl
  case x => exact setX_setC v
  case u => exact ha _
  case vGlobal => exact ha _
  case pGlobal =>
    show (S.setC n).setPGlobal v = _
    unfold Solver.set Solver.setPGlobal
    have e1 : (S.setC n).m.dims.nPgl = S.m.dims.nPgl := rfl
    rw [e1]
    simp only
    split <;> rfl
  case pTimeVar => rfl
  case theta =>
    show (S.setC n).setTheta v = ((S.setTheta v).1.setC n, (S.setTheta v).2)
    unfold Solver.setTheta
    have e1 : (S.setC n).o = S.o := rfl
    have e2 : (S.setC n).P = S.P := rfl
    rw [e1, e2]
    split
    · split <;> rfl
    · rfl
  case w => cases v <;> rfl
  case other => rfl

theorem set_o (f : Field) (v : Arr) : (S.set f v).1.o = S.o := by
  have hw : ∀ l, (S.write l).1.o = S.o := fun _ => rfl
  have hr : ∀ l, (S.writeRows v l).1.o = S.o := fun l => by unfold Solver.writeRows; split <;> rfl
  have ha : ∀ ind, (S.setArr ind v).1.o = S.o := fun ind => by unfold Solver.setArr; split <;> rfl
  cases f
  case x0 => cases v <;> rfl
  case x =>
    have h : (S.setXWrites v).1.o = S.o := by
      unfold Solver.setXWrites
      split
      · exact hr _
      · split
        · exact hr _
        · rfl
    show (S.setX v).1.o = S.o
    unfold Solver.setX thenWarn
    split <;> exact h
  case u => exact ha _
  case vGlobal => exact ha _
  case pGlobal =>
    show (S.setPGlobal v).1.o = S.o
    unfold Solver.setPGlobal
    split <;> rfl
  case pTimeVar => rfl
  case theta =>
    show (S.setTheta v).1.o = S.o
    unfold Solver.setTheta
    split
    · split <;> rfl
    · rfl
  case w => cases v <;> rfl
  case other => rfl

theorem observe_setC : ∀ (cs : List UserCall) (S : Solver), S.o.initStrategy ≠ .rk4Smoothened →
    observe orc cs (S.setC n) = observe orc cs S
  | [], _, _ => rfl
  | .set f v :: cs, S, h => by
      simp only [observe, set_setC]
      rw [observe_setC cs _ (by rw [set_o]; exact h)]
  | .solve :: cs, S, h => by
      simp only [observe, solve_setC h]
      rw [observe_setC cs _ (by rw [(solve_only orc S).1]; exact h)]

end

/-- The same looper with other numbers of switching functions. -/
def Looper.setC (L : Looper) (n : Nat → Nat) : Looper := { L with solver := L.solver.setC n }

section
variable {orc : Oracle} {L : Looper} {n : Nat → Nat}

theorem sets_setC (i : Nat) : (L.setC n).sets i = ((L.sets i).1.setC n, (L.sets i).2) := by
  have h1 : ∀ S : Solver, setWInit L.wInit i (S.setC n)
      = ((setWInit L.wInit i S).1.setC n, (setWInit L.wInit i S).2) := by
    intro S
    unfold setWInit
    split
    · rfl
    · split
      · rfl
      · exact set_setC _ _
  have h2 : ∀ S : Solver, setPRow L.pValues i (S.setC n)
      = ((setPRow L.pValues i S).1.setC n, (setPRow L.pValues i S).2) := by
    intro S
    unfold setPRow
    split
    · rfl
    · split
      · rfl
      · exact set_setC _ _
  have h3 : ∀ (r : Outcome) (f : Solver → Outcome), (∀ S : Solver, f (S.setC n) = ((f S).1.setC n, (f S).2)) →
      andThen (r.1.setC n, r.2) f = ((andThen r f).1.setC n, (andThen r f).2) := by
    intro r f hf
    unfold andThen
    simp only
    split
    · rfl
    · exact hf _
  show andThen (andThen ((L.solver.setC n).set .x0 (.vec L.xcurrent)) (setWInit L.wInit i)) (setPRow L.pValues i) = _
  rw [set_setC, h3 _ _ h1, h3 _ _ h2]
  rfl

theorem sets_o (i : Nat) : (L.sets i).1.o = L.solver.o := by
  have h3 : ∀ (r : Outcome) (f : Solver → Outcome), (∀ S : Solver, (f S).1.o = S.o) → r.1.o = L.solver.o →
      (andThen r f).1.o = L.solver.o := by
    intro r f hf hr
    unfold andThen
    split
    · exact hr
    · rw [hf]; exact hr
  unfold Looper.sets
  refine h3 _ _ (fun S => ?_) (h3 _ _ (fun S => ?_) (set_o _ _))
  · unfold setPRow
    split
    · rfl
    · split
      · rfl
      · exact set_o _ _
  · unfold setWInit
    split
    · rfl
    · split
      · rfl
      · exact set_o _ _

theorem step_setC (h : L.solver.o.initStrategy ≠ .rk4Smoothened) (i : Nat) :
    (L.setC n).step orc i = ((L.step orc i).1.setC n, (L.step orc i).2) := by
  unfold Looper.step
  rw [sets_setC]
  have ho := sets_o (L := L) i
  generalize L.sets i = q at ho ⊢
  obtain ⟨S, r⟩ := q
  cases r with
  | some e => rfl
  | none =>
    simp only at ho ⊢
    rw [solve_setC (by rw [ho]; exact h)]
    generalize S.solve orc = t
    obtain ⟨S', r⟩ := t
    cases r <;> rfl

theorem step_o (i : Nat) : (L.step orc i).1.solver.o = L.solver.o := by
  unfold Looper.step
  have ho := sets_o (L := L) i
  generalize L.sets i = q at ho ⊢
  obtain ⟨S, r⟩ := q
  cases r with
  | some e => exact ho
  | none =>
    simp only at ho ⊢
    have h1 := (solve_only orc S).1
    generalize S.solve orc = t at h1 ⊢
    obtain ⟨S', r⟩ := t
    cases r with
    | error e => exact h1.trans ho
    | ok r => exact h1.trans ho

theorem runLoop_setC (stop : Bool) : ∀ (l i : Nat) (L : Looper), L.solver.o.initStrategy ≠ .rk4Smoothened →
    Looper.runLoop orc stop l i (L.setC n)
      = ((Looper.runLoop orc stop l i L).1.setC n, (Looper.runLoop orc stop l i L).2)
  | 0, _, _, _ => rfl
  | l + 1, i, L, h => by
      rw [Looper.runLoop, Looper.runLoop, step_setC h]
      have ho := step_o (orc := orc) (L := L) i
      generalize L.step orc i = q at ho ⊢
      obtain ⟨L', r⟩ := q
      cases r with
      | error e => rfl
      | ok r =>
        simp only at ho ⊢
        split
        · rfl
        · exact runLoop_setC stop l (i + 1) L' (by rw [ho]; exact h)

end

section
variable {um : UserModel} {o : PreOpts} {m : PreModel} {Fs : List UMat}

theorem byIndicators_preprocess (hF : um.F = some Fs) (hne : Fs ≠ []) (hg : um.gStewart = none)
    (hs : o.pss = .stewart) (h : um.preprocess o = .ok m) :
    um.byIndicators.preprocess o = .ok (m.setC fun i => [0].getD i 0) := by
  have hn : um.nSys = Fs.length := by simp [UserModel.nSys, hF]
  have hn' : um.byIndicators.nSys = um.nSys := by simp [UserModel.nSys, UserModel.byIndicators]
  have ht : um.gStewartTruthy = false := by simp [UserModel.gStewartTruthy, hg]
  unfold UserModel.preprocess at h
  simp only [hs, bind_eq_ok] at h
  obtain ⟨z0, hz0, lbz, hlbz, ubz, hubz, nC, hnC, nF, hnF, pv, hpv, g, hgv, up, hup, f0, hf0, acc, hacc, _, hchk, h⟩ := h
  unfold UserModel.nFsys at hnF
  rw [hF] at hnF
  simp only [ht, bind_eq_ok, check_eq_ok, Bool.false_eq_true, if_false] at hnF
  obtain ⟨_, h1, hnF⟩ := hnF
  cases hc : um.c with
  | none => rw [hc] at hnF; cases hnF
  | some cs =>
  cases hS : um.S with
  | none => rw [hc, hS] at hnF; cases hnF
  | some Ss =>
  rw [hc, hS] at hnF
  simp only [bind_eq_ok, check_eq_ok] at hnF
  obtain ⟨_, hl, _, hz, hnF⟩ := hnF
  unfold UserModel.gStewartVecs at hgv
  simp only [ht, Bool.false_eq_true, if_false] at hgv
  rw [mapM_eq_ok] at hgv
  have hgl : g.length = um.nSys := by rw [← hgv.length_eq]; simp
  have hi : ∀ i (h : i < um.nSys), ∃ S c, Ss[i]? = some S ∧ cs[i]? = some c ∧ S.cols = c.len ∧
      g[i]'(by omega) = UVec.vec ⟨um.nX, um.nU, um.nZ, um.nSys, um.nPtv, um.nPgl, um.nV, fun i => [0].getD i 0, fun i => nF.getD i 0⟩
        (negMul S c) := by
    intro i h
    have := (List.forall₂_iff_get.1 hgv).2 i (by simpa using h) (by omega)
    simp only [List.get_eq_getElem, List.getElem_range, bind_eq_ok, hS, hc] at this
    obtain ⟨S, e1, c, e2, e3⟩ := this
    rw [optGet_eq_ok] at e1 e2
    obtain ⟨_, e, e4⟩ := e1
    cases e
    obtain ⟨_, e, e5⟩ := e2
    cases e
    unfold negSmulC at e3
    have el : (UVec.vec ⟨um.nX, um.nU, um.nZ, um.nSys, um.nPtv, um.nPgl, um.nV, fun i => nC.getD i 0, fun i => nF.getD i 0⟩ c).length = c.len := by
      simp [UVec.vec]
    rw [el] at e3
    split at e3
    case isFalse => cases e3
    rename_i e6
    refine ⟨S, c, e4, e5, e6, ?_⟩
    injection e3 with e3
    rw [← e3]
    unfold UVec.vec
    refine List.map_congr_left fun j hj => ?_
    funext env
    simp only [UVec.expr, negMul]
    congr 1
    refine List.map_congr_left fun k hk => ?_
    rw [List.mem_range, e6] at hk
    congr 1
    exact congrFun (at'_vec _ hk) env
  have hlen : um.nSys ≤ Ss.length ∧ um.nSys ≤ cs.length := by
    have h0 : 0 < Fs.length := List.length_pos_iff.2 hne
    obtain ⟨S, c, e1, e2, -⟩ := hi (um.nSys - 1) (by omega)
    have := (List.getElem?_eq_some_iff.1 e1).1
    have := (List.getElem?_eq_some_iff.1 e2).1
    omega
  set gs := (List.zipWith negMul Ss cs).take um.nSys with hgs
  have hgsl : gs.length = um.nSys := by rw [hgs]; simp; omega
  have hgi : ∀ i (h : i < um.nSys), ∃ S c, Ss[i]? = some S ∧ gs[i]'(by omega) = negMul S c ∧
      g[i]'(by omega) = UVec.vec ⟨um.nX, um.nU, um.nZ, um.nSys, um.nPtv, um.nPgl, um.nV, fun i => [0].getD i 0, fun i => nF.getD i 0⟩
        (negMul S c) := by
    intro i h
    obtain ⟨S, c, e1, e2, -, e3⟩ := hi i h
    refine ⟨S, c, e1, ?_, e3⟩
    obtain ⟨_, e1⟩ := List.getElem?_eq_some_iff.1 e1
    obtain ⟨_, e2⟩ := List.getElem?_eq_some_iff.1 e2
    simp [hgs, e1, e2]
  have hg' : um.byIndicators.gStewart = some gs := by simp [UserModel.byIndicators, hc, hS, hgs]
  have ht' : um.byIndicators.gStewartTruthy = true := by
    unfold UserModel.gStewartTruthy
    rw [hg']
    cases hq : gs with
    | nil => rw [hq] at hgsl; have := List.length_pos_iff.2 hne; simp at hgsl; omega
    | cons _ _ => rfl
  have k1 : um.byIndicators.nCsys = .ok [0] := by simp [UserModel.nCsys, ht']
  have k2 : um.byIndicators.nFsys .stewart = .ok nF := by
    unfold UserModel.nFsys
    have : um.byIndicators.F = some Fs := hF
    rw [this]
    simp only [ht', if_true, hg', Option.getD_some, bind_eq_ok, check_eq_ok]
    refine ⟨(), h1, (), trivial, (), (checkGStewart_iff).2 ?_, hnF⟩
    · intro s hs'
      rw [hgsl] at hs'
      obtain ⟨S, c, e1, e2, -⟩ := hgi s hs'
      rw [e2]
      have hsF : s < Fs.length := by omega
      refine ⟨Fs[s], by simp [hsF], ?_⟩
      obtain ⟨hsS, e1⟩ := List.getElem?_eq_some_iff.1 e1
      have := hz (Fs[s], Ss[s]) (by
        rw [List.mem_iff_getElem]
        exact ⟨s, by simp; omega, by simp⟩)
      simp only at this
      rw [this, e1]
      rfl
  have k3 : um.byIndicators.gStewartVecs ⟨um.nX, um.nU, um.nZ, um.nSys, um.nPtv, um.nPgl, um.nV, fun i => [0].getD i 0, fun i => nF.getD i 0⟩
      .stewart = .ok g := by
    unfold UserModel.gStewartVecs
    simp only [ht', if_true, hg', Option.getD_some]
    congr 1
    refine List.ext_getElem (by simp [hgsl, hgl]) fun i h1 h2 => ?_
    obtain ⟨S, c, -, e2, e3⟩ := hgi i (by omega)
    rw [e3, List.getElem_map, e2]
  have k4 : up = [] := by
    unfold UserModel.upsilon at hup
    simp at hup
    exact hup
  unfold UserModel.preprocess
  rw [hs]
  have z1 : orDefault um.byIndicators.z0 um.byIndicators.nZ 0 = .ok z0 := hz0
  have z2 : orDefault um.byIndicators.lbz um.byIndicators.nZ ⊥ = .ok lbz := hlbz
  have z3 : orDefault um.byIndicators.ubz um.byIndicators.nZ ⊤ = .ok ubz := hubz
  have z4 : um.byIndicators.pValCtrl o.nStages = .ok pv := hpv
  rw [z1, z2, z3, k1, k2, z4]
  have k5 : ∀ al, um.byIndicators.upsilon al .stewart = .ok up := fun al => by
    unfold UserModel.upsilon; rw [k4]; simp
  have k6 : ∀ d l al, um.byIndicators.fx0 d l al = .ok f0 := fun d l al => by
    unfold UserModel.fx0 at hf0 ⊢
    have : um.byIndicators.F = some Fs := hF
    rw [this]
    rw [hF] at hf0
    exact hf0
  simp only [ok_bind]
  refine Eq.trans (congrArg (fun q => q >>= _) k3) ?_
  simp only [ok_bind, k5, k6]
  refine Eq.trans (congrArg (fun q => q >>= _) hacc) ?_
  simp only [ok_bind]
  refine Eq.trans (congrArg (fun q => q >>= _) hchk) ?_
  simp only [ok_bind]
  injection h with h
  rw [← h]
  rfl

end

end Nosnoc
