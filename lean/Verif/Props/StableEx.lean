import Verif.Props.Stable
/-
Cases that meet the hypotheses of C130: `ṫ = 1`, `ẇ = t`, from any two initial states.
-/
namespace Nosnoc

theorem clock_smoothRhs : clockModel.SmoothRhs clockG := by
  intro row hrow
  refine ⟨fun _ x _ _ _ _ => if row = 0 then 1 else x.getD 0 0, ?_, ?_⟩
  · intro s hs i _ x z u p v
    obtain rfl := clock_sys hs
    rfl
  · intro x z u p v
    show ∑ _s ∈ Finset.range 1, (if row = 0 then 1 else x.getD 0 0) = _
    simp [clockG]

theorem clock_solves (b : Bool) {nf : Nat} (hnf : 0 < nf) : ∃ po m oc P, ∀ y z : ℝ, ∃ S r,
    SmoothSolve demoColloc (clockOpts nf b) clockModel none po m oc P (exactOracle P) S r 1 clockG ∧
    S.m.x0 = [y, z] ∧ S.m.pVal = m.pVal := by
  obtain ⟨po, m, oc, P, h0, hr⟩ := clock_setup' b hnf
  obtain ⟨P', hfe, h⟩ : ∃ P' : Problem, (∀ y z σ τ : ℝ, 0 ≤ σ → P'.form.Feasible (clockEnv nf y z σ τ)) ∧
      SetupEx demoColloc (clockOpts nf b) clockModel none po m oc P' :=
    ⟨{ P with ocpTrivial := true }, fun y z σ τ hσ => clock_feasible' h0 hr hnf hσ,
      ⟨h0.toSetup.toNone, rfl, by simp [UserOcp.trivial]⟩⟩
  have h' := h.toSetup
  obtain ⟨hcr, hS, hrd⟩ := h'.create (exactOracle P') (by simp [clockOpts, slideOpts, Opts.default])
  have hL : (clockOpts nf b).nfeAfter.length = (clockOpts nf b).nStages := by
    simp [clockOpts, slideOpts, Opts.default, Opts.nfeAfter]
  refine ⟨po, m, oc, P', fun y z => ?_⟩
  have hS' := hS.set .x0 (.vec [y, z])
  obtain ⟨w0, lam00, hini, -⟩ := C54_initialise_writes_x0 h' hS' ⟨rfl, hrd.guess⟩ Nat.two_pos (.inl rfl)
  obtain ⟨r, hok⟩ := C49_solve_succeeds _ h' hS' ⟨rfl, hrd.guess⟩ rfl hini Nat.two_pos hL
    (fun _ s hs s' hs' => by rw [clock_sys hs, clock_sys hs'])
  refine ⟨_, r, ⟨h, hS', hL, exactOracle_exact _, hok, clock_success' h hfe hS' hok,
    by simp [clockOpts, slideOpts, Opts.default], by simp [clockOpts, slideOpts, Opts.default], fun _ => rfl,
    fun hc => absurd hc (by simp [clockOpts, slideOpts, Opts.default]), rfl, clock_smoothRhs, clock_lipschitz⟩, rfl, rfl⟩

/-- `C130_stable`, `C130_unique`, `C130_no_fesd`: with any number of finite elements, any two initial states,
without FESD; the reported controls, global variables and step lengths agree. -/
example {nf : Nat} (hnf : 0 < nf) (y z y' z' : ℝ) : ∃ po m oc P S r S' r',
    SmoothSolve demoColloc (clockOpts nf false) clockModel none po m oc P (exactOracle P) S r 1 clockG ∧
    SmoothSolve demoColloc (clockOpts nf false) clockModel none po m oc P (exactOracle P) S' r' 1 clockG ∧
    S.m.x0 = [y, z] ∧ S'.m.x0 = [y', z'] ∧
    (∀ k < (clockOpts nf false).nStages, S'.m.pVal.getD k [] = S.m.pVal.getD k []) ∧
    r'.res.uList = r.res.uList ∧ r'.res.vGlobal = r.res.vGlobal ∧ r'.res.timeSteps = r.res.timeSteps ∧
    (∀ h ∈ r.res.timeSteps, 0 ≤ h ∧ h ≤ 1 / nf) ∧
    (clockOpts nf false).useFesd = false ∧ clockModel.nU = 0 ∧ clockModel.nV = 0 ∧
    0 < (clockOpts nf false).nS ∧
    CollocOk (demoColloc (clockOpts nf false).scheme (clockOpts nf false).nS) (clockOpts nf false).nS ∧
    (∀ t ∈ demoColloc (clockOpts nf false).scheme (clockOpts nf false).nS, 0 ≤ t ∧ t ≤ 1) ∧
    0 ≤ (clockOpts nf false).terminalTime ∧
    (∀ k < (clockOpts nf false).nStages, nf ≤ (clockOpts nf false).nfeAfter.getD k 0) ∧
    (clockOpts nf false).terminalTime / ((clockOpts nf false).nStages * nf) = 1 / nf := by
  obtain ⟨po, m, oc, P, hs⟩ := clock_solves false hnf
  obtain ⟨S, r, A, a1, a2⟩ := hs y z
  obtain ⟨S', r', A', a1', a2'⟩ := hs y' z'
  have h := A.setup.toSetup
  have hq : ∀ k < (clockOpts nf false).nStages, nf ≤ (clockOpts nf false).nfeAfter.getD k 0 := by
    intro k hk
    obtain rfl : k = 0 := by simpa [clockOpts, slideOpts] using hk
    simp [clockOpts, slideOpts, Opts.default, Opts.nfeAfter]
  have hT : (clockOpts nf false).terminalTime / ((clockOpts nf false).nStages * nf) = 1 / nf := by
    simp [clockOpts, slideOpts, Opts.default]
  have hT0 : 0 ≤ (clockOpts nf false).terminalTime := by norm_num [clockOpts, slideOpts, Opts.default]
  obtain ⟨env, sigma, tau, f1, -, hR, -⟩ := C87_success_is_feasible A.setup A.reach A.lists A.exact A.ok A.success
  obtain ⟨env', sigma', tau', -, -, hR', -⟩ :=
    C87_success_is_feasible A'.setup A'.reach A'.lists A'.exact A'.ok A'.success
  refine ⟨po, m, oc, P, S, r, S', r', A, A', a1, a1', fun k _ => by rw [a2, a2'], ?_, ?_, ?_, ?_, rfl, rfl, rfl,
    Nat.two_pos, (slide_colloc 1 nf).1, (slide_colloc 1 nf).2, hT0, hq, hT⟩
  · rw [hR.uList, hR'.uList]
    refine List.map_congr_left fun k _ => ?_
    unfold uVal
    rw [h.dims.2.1]
    rfl
  · rw [hR.v, hR'.v]
    unfold vVal
    rw [h.dims.2.2.2.1]
    rfl
  · rw [hR.steps, hR'.steps]
    refine List.map_congr_left fun q _ => ?_
    unfold hVal
    rw [if_neg (by rw [h.e_useFesd]; simp [clockOpts])]
    rfl
  · intro s hs
    have := steps_small A.setup f1 hR (by simp [clockOpts]) hT0 hnf hq s hs
    rwa [if_neg (by simp [clockOpts]), one_mul, hT] at this

end Nosnoc
