import Verif.Proofs.WellPosed
import Verif.Props.Complete
import Verif.Props.Nested
import Verif.Props.StepStewartViol
/-
C98: a simulation with one switching function and at least two elements per stage is never infeasible.
-/
namespace Nosnoc

section
variable {colloc : IrkScheme → Nat → List ℝ} {o : Opts} {um : UserModel} {uo : Option UserOcp}
  {po : PreOpts} {m : PreModel} {oc : PreOcp} {P : Problem} {b : Nat → ℝ}

/-- C98: for every initial state, all controls and global variables within their bounds and all parameters
(those of the switching function the same in all stages), the generated problem has a solution with exact
complementarity. -/
theorem C98_simulation (h : SetupEx colloc o um uo po m oc P) (hp : o.pss = .stewart)
    (hf : o.useFesd = true) (hr : po.rbe = true) (hm : ExactMode o) (hg : um.gStewartTruthy = false)
    (hC : OneSwitch um (uo.getD UserOcp.trivial) po)
    (hpl : PlainProblem o um (uo.getD UserOcp.trivial))
    (hc : o.irkRep = .integral → CollocOk (colloc o.scheme o.nS) o.nS ∧
      ∀ t ∈ colloc o.scheme o.nS, 0 ≤ t ∧ t ≤ 1)
    (hb : SchemeWeights colloc o b) (x0 : Nat → ℝ) (u : Nat → Nat → ℝ) (v : Nat → ℝ)
    (p : Nat → Nat → ℝ)
    (hps : ∀ k < po.nStages, ∀ x,
      (um.cVec 0).entry 0 x [] ((List.range (um.nPtv + um.nPgl)).map (p k))
        = (um.cVec 0).entry 0 x [] ((List.range (um.nPtv + um.nPgl)).map (p 0)))
    (hu : ∀ k < po.nStages, ∀ i < um.nU, getOr (uo.getD UserOcp.trivial).lbu ⊥ i ≤ ((u k i : ℝ) : EReal) ∧
      ((u k i : ℝ) : EReal) ≤ getOr (uo.getD UserOcp.trivial).ubu ⊤ i)
    (hv : ∀ i < um.nV, getOr (uo.getD UserOcp.trivial).lbv ⊥ i ≤ ((v i : ℝ) : EReal) ∧
      ((v i : ℝ) : EReal) ≤ getOr (uo.getD UserOcp.trivial).ubv ⊤ i) :
    ∃ env, ExactPoint o po m P env ∧ um.InitialMultipliers po m.dims env ∧
      (∀ i, env (.x0 i) = x0 i) ∧ (∀ k i, env (.u k i) = u k i) ∧ (∀ i, env (.vGlob i) = v i) ∧
      (∀ k i, env (.pStage k i) = p k i) ∧
      ∀ s i, env (.lam00 .lam s i) = um.lam00St ((List.range um.nX).map x0) []
        ((List.range (um.nPtv + um.nPgl)).map (p 0)) s i := by
  obtain ⟨T, e1, e2, e3, e4, hT⟩ := path_exists (W := ∑ j ∈ Finset.range o.nS, b j) hC
    ⟨x0, u, v, p, fun _ => 0, fun _ _ => 0, fun _ _ _ => 0, fun _ _ _ _ => 0⟩ hps hu hv
  have hS : SignsOk o um := by
    intro s hs
    rw [hC.sys] at hs
    obtain rfl : s = 0 := by omega
    exact ⟨hC.part, fun _ => ⟨hg, hC.dense⟩, fun hc => by rw [hp] at hc; cases hc⟩
  obtain ⟨env, D, i1, i2, i3, i4, i5, i6, -⟩ := C93_no_solution_lost h hp hf hr hm hS hC.pc hpl hc hb hT
  unfold Path.pL at i6
  simp only [e1, e2, e3, e4] at i2 i3 i4 i5 i6
  exact ⟨env, D, i1, i2, i3, i4, i5, i6⟩

/-- C98: in the modes of C96 every problem of the homotopy has a feasible point with these data. -/
theorem C98_homotopy {env : Env} {σ τ : ℝ} (h : SetupEx colloc o um uo po m oc P)
    (hm : o.RelaxesByInequality) (hσ : 0 ≤ σ) (D : ExactPoint o po m P env) :
    P.form.Feasible (withSigma env σ τ) :=
  C96_nested_partial h hm (fun _ => D.sigma.trans_le hσ) D.feas

/-- C98, Step mode: the same for the step representation of a model that both modes accept. -/
theorem C98_simulation_step {po' : PreOpts} {m' : PreModel} {oc' : PreOcp} {P' : Problem}
    (h : SetupEx colloc o um uo po m oc P)
    (h' : SetupEx colloc { o with pss := .step } um uo po' m' oc' P') (hp : o.pss = .stewart)
    (hf : o.useFesd = true) (hr : po.rbe = true) (hm : ExactMode o) (hF : FullSigns um)
    (hC : OneSwitch um (uo.getD UserOcp.trivial) po)
    (hpl : PlainProblem o um (uo.getD UserOcp.trivial))
    (hc : o.irkRep = .integral → CollocOk (colloc o.scheme o.nS) o.nS ∧
      ∀ t ∈ colloc o.scheme o.nS, 0 ≤ t ∧ t ≤ 1)
    (hb : SchemeWeights colloc o b) (x0 : Nat → ℝ) (u : Nat → Nat → ℝ) (v : Nat → ℝ)
    (p : Nat → Nat → ℝ)
    (hps : ∀ k < po.nStages, ∀ x,
      (um.cVec 0).entry 0 x [] ((List.range (um.nPtv + um.nPgl)).map (p k))
        = (um.cVec 0).entry 0 x [] ((List.range (um.nPtv + um.nPgl)).map (p 0)))
    (hu : ∀ k < po.nStages, ∀ i < um.nU, getOr (uo.getD UserOcp.trivial).lbu ⊥ i ≤ ((u k i : ℝ) : EReal) ∧
      ((u k i : ℝ) : EReal) ≤ getOr (uo.getD UserOcp.trivial).ubu ⊤ i)
    (hv : ∀ i < um.nV, getOr (uo.getD UserOcp.trivial).lbv ⊥ i ≤ ((v i : ℝ) : EReal) ∧
      ((v i : ℝ) : EReal) ≤ getOr (uo.getD UserOcp.trivial).ubv ⊤ i) :
    ∃ env, ExactSolution { o with pss := .step } po' m' P' env ∧
      (∀ i, env (.x0 i) = x0 i) ∧ (∀ k i, env (.u k i) = u k i) ∧ (∀ i, env (.vGlob i) = v i) ∧
      (∀ k i, env (.pStage k i) = p k i) := by
  obtain ⟨T, e1, e2, e3, e4, hT⟩ := path_exists (W := ∑ j ∈ Finset.range o.nS, b j) hC
    ⟨x0, u, v, p, fun _ => 0, fun _ _ => 0, fun _ _ _ => 0, fun _ _ _ _ => 0⟩ hps hu hv
  have hS : SignsOk o um := by
    intro s hs
    rw [hC.sys] at hs
    obtain rfl : s = 0 := by omega
    exact ⟨hC.part, fun _ => ⟨hF.2.1, hC.dense⟩, fun hc => by rw [hp] at hc; cases hc⟩
  obtain ⟨env, D, i2, i3, i4, i5, -⟩ := C95_filippov_step_partial h h' hp hf hr hm hS hF hpl.mode.2 hC.pc
    hpl hc hb hT fun k e _ s hs => .inl (by
      rw [hC.sys] at hs
      obtain rfl : s = 0 := by omega
      exact hC.one)
  simp only [e1, e2, e3, e4] at i2 i3 i4 i5
  exact ⟨env, D, i2, i3, i4, i5⟩

/-- `ẋ = -sign x` with the default options meets the hypotheses, for any number of stages and at least two
elements per stage. -/
theorem slide_oneSwitch {N nf : Nat} (hN : 0 < N) (hn : 2 ≤ nf)
    (h : SetupEx demoColloc (slideOpts N nf) slideModel (some UserOcp.trivial) po m oc P) :
    OneSwitch slideModel UserOcp.trivial po where
  sys := rfl
  one := rfl
  dense := signMat_dense
  part := signMat_partition
  cols := rfl
  pc := slide_pc
  gamma := h.e_gammaH
  time := by rw [h.e_terminalTime]; simp [slideOpts, Opts.default]
  speed := by rw [h.e_sot]; simp [slideOpts, Opts.default]
  stages := by rw [h.e_nStages]; exact hN.ne'
  elems := by
    intro k hk
    have hk : k < N := by rw [h.e_nStages] at hk; exact hk
    have : po.nfeList = List.replicate N nf := h.e_nfeList
    unfold nfe
    rw [this]
    simpa [hk] using hn
  xfree := fun i _ => ⟨rfl, rfl⟩
  noPath := rfl
  noTerm := rfl

/-- All hypotheses of C98_simulation are met, and the conclusion holds from every initial state. -/
example (N nf : Nat) (hN : 0 < N) (hn : 2 ≤ nf) (x0 : ℝ) : ∃ po m oc P env,
    SetupEx demoColloc (slideOpts N nf) slideModel (some UserOcp.trivial) po m oc P ∧
    ExactPoint (slideOpts N nf) po m P env ∧ env (.x0 0) = x0 := by
  obtain ⟨po, m, oc, P, h, hr⟩ := slide_setup_pos .stewart hN (by omega : 0 < nf)
  obtain ⟨env, D, -, i, -⟩ := C98_simulation h rfl rfl hr
    (.inl (by simp [SignedMode, slideOpts, Opts.default])) rfl (slide_oneSwitch hN hn h) (slide_plain N nf)
    (fun _ => slide_colloc N nf) (slide_weights N nf) (fun _ => x0) (fun _ _ => 0) (fun _ => 0)
    (fun _ _ => 0) (fun _ _ _ => rfl) (fun k _ i hi => absurd hi (by simp [slideModel]))
    fun i hi => absurd hi (by simp [slideModel])
  exact ⟨po, m, oc, P, env, h, D, i 0⟩

/-- C98, two elements are needed: `ẋ = -sign x` over one time unit from `x = 1/2` with one control
stage and one element (all other options default) has no exact solution. -/
theorem C98_one_element_infeasible : ∃ po m oc P,
    SetupEx demoColloc (slideOpts 1 1) slideModel (some UserOcp.trivial) po m oc P ∧
    ∀ env, ExactPoint (slideOpts 1 1) po m P env → slideModel.InitialMultipliers po m.dims env →
      env (.x0 0) ≠ 1 / 2 := by
  obtain ⟨po, m, oc, P, h, hr⟩ := slide_setup_pos .stewart Nat.one_pos Nat.one_pos
  replace h : SetupEx demoColloc (slideOpts 1 1) slideModel (some UserOcp.trivial) po m oc P := h
  refine ⟨po, m, oc, P, h, fun env D h0 hx => ?_⟩
  have e1 : po.nStages = 1 := h.e_nStages
  have e2 : nfe po 0 = 1 := by
    have : po.nfeList = List.replicate 1 1 := h.e_nfeList
    unfold nfe; rw [this]; rfl
  have hk : HasFE po 0 0 := ⟨by omega, by omega⟩
  have hz : m.dims.nZ = 0 := h.toSetup.dims.2.2.1
  have hstart : startVal po m.dims 0 0 env = [1 / 2] := by
    rw [startVal_first (by simp [prevFe]), h.toSetup.dims.1]
    show (List.range 1).map (fun i => env (.x0 i)) = [1 / 2]
    simp [List.range_succ, hx]
  have same : slideModel.SameSwitching po m.dims env := by
    intro k _ s hs n x
    obtain rfl := slide_sys hs
    rfl
  have hs : 0 < slideModel.nSys := Nat.one_pos
  have cl := fun j (hj : j < 2) i (hi : i < 2) (hw : wgt (slideOpts 1 1) slideModel env 0 0 j 0 i ≠ 0) =>
    D.closed h rfl (slide_signs 1 1) hz h0 same hk (.inl hr) (j := j) hj hs (i := i) hi hw
  -- region 1 is not used
  have w1 : ∀ j < 2, wgt (slideOpts 1 1) slideModel env 0 0 j 0 1 = 0 := by
    intro j hj
    by_contra hw
    have := (cl j hj 1 (by omega) hw).1 0 Nat.one_pos
    rw [hstart] at this
    norm_num [slideModel, UserModel.Smat, UserModel.cVec, signMat] at this
  have w0 : ∀ j < 2, wgt (slideOpts 1 1) slideModel env 0 0 j 0 0 = 1 := by
    intro j hj
    have := ((D.weights h rfl (slide_signs 1 1) hk (j := j) hj).1 0 hs).2
    change ∑ i ∈ Finset.range 2, _ = _ at this
    rw [Finset.sum_range_succ, Finset.sum_range_one, w1 j hj] at this
    linarith
  have hrhs : ∀ j < 2, slideModel.stageRhs po m.dims 0 0 j 0 env = -1 := by
    intro j hj
    rw [(D.weights h rfl (slide_signs 1 1) hk (j := j) hj).2 0]
    unfold UserModel.rhsStewart
    rw [show slideModel.nSys = 1 from rfl, Finset.sum_range_one,
      show (slideModel.Fmat 0).nCols = 2 from rfl, Finset.sum_range_succ, Finset.sum_range_one,
      w0 j hj, w1 j hj]
    norm_num [slideModel, UserModel.Fmat]
  have hone : hVal po 0 0 env = 1 := by
    have := (h.spec D.feas).equi h.e_useFesd h.e_equidistant 0 (by omega)
    rw [e2, Finset.sum_range_one, e1, h.e_terminalTime] at this
    rw [this]
    simp [slideOpts, Opts.default]
  have st := (slide_weights 1 1).step h D.feas (fun _ => (slide_colloc 1 1).1) hk (i := 0) Nat.one_pos
  have hsot : sotVal po 0 env = 1 := by
    unfold sotVal
    rw [if_neg (by rw [h.e_sot]; simp [slideOpts, Opts.default])]
    rfl
  rw [hstart, hone, hsot] at st
  have e3 : ∑ j ∈ Finset.range (slideOpts 1 1).nS, slideW j * (1 * slideModel.stageRhs po m.dims 0 0 j 0 env)
      = -1 := by
    rw [Finset.sum_congr rfl fun j hj => by rw [hrhs j (Finset.mem_range.1 hj)]]
    simp [slideOpts, Opts.default, Finset.sum_range_succ, slideW]; norm_num
  rw [e3] at st
  have := (cl 0 (by omega) 0 (by omega) (by rw [w0 0 (by omega)]; exact one_ne_zero)).2 0 Nat.one_pos
  have e4 : (slideModel.cVec 0).entry 0 (xEndVal po m.dims 0 0 env) [] (pVal m.dims 0 env)
      = (xEndVal po m.dims 0 0 env).getD 0 0 := rfl
  have e5 : (slideModel.Smat 0).entry 0 0 = 1 := by norm_num [slideModel, UserModel.Smat, signMat]
  rw [e4, e5, st] at this
  norm_num at this

end
end Nosnoc
