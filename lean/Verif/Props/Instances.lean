import Verif.Props.Objective
import Verif.Props.Params
import Verif.Props.Time
/-
Further concrete cases: hypotheses of theorems in the other files of this directory which the cases given
there do not cover.  Every case applies the theorem.
-/
namespace Nosnoc

/-- Options for the cases: the default (one stage with two elements) with another step equilibration and
another treatment of the complementarities. -/
noncomputable def caseOpts (s : StepEqMode) (md : MpccMode) : Opts :=
  { Opts.default with stepEq := s, mpcc := md }

theorem caseOpts_demo (s : StepEqMode) {md : MpccMode} (h1 : md ≠ .boolean)
    (h2 : md ≠ .fischerBurmeisterIpAug) : DemoOpts (caseOpts s md) := by
  constructor <;> simp [caseOpts, Opts.default, Opts.nfeAfter, h1, h2]

theorem caseOpts_fe {s : StepEqMode} {md : MpccMode}
    (h : SetupEx demoColloc (caseOpts s md) demoModel (some demoOcp) po m oc P) : HasFE po 0 1 := by
  have e2 : po.nStages = 1 := h.e_nStages
  have e5 : po.nfeList = [2] := h.e_nfeList
  exact ⟨by omega, by simp [nfe, e5]⟩

/-- `C41_direct_complementarity_partial`: Fischer-Burmeister mode. -/
example : ∃ po m oc P env,
    SetupEx demoColloc (caseOpts .directComplementarity .fischerBurmeister) demoModel (some demoOcp) po m oc P ∧
    P.form.Feasible env ∧ (hVal po 0 1 env = hVal po 0 0 env ∨ Switches po m.dims 0 1 env) := by
  obtain ⟨po, m, oc, P, h, hf, -⟩ :=
    demo_setup (caseOpts_demo .directComplementarity (md := .fischerBurmeister) (by simp) (by simp))
  exact ⟨po, m, oc, P, _, h, hf, C41_direct_complementarity_partial h hf rfl rfl (by simp [caseOpts]) rfl rfl
    (caseOpts_fe h) Nat.one_pos⟩

/-- `C41_h_comp_meaning`. -/
example : ∃ po m oc P env,
    SetupEx demoColloc (caseOpts .heuristicDeltaHComp .fischerBurmeister) demoModel (some demoOcp) po m oc P ∧
    P.form.Feasible env ∧ hVal po 0 0 env ≤ hVal po 0 1 env := by
  obtain ⟨po, m, oc, P, h, hf, -⟩ :=
    demo_setup (caseOpts_demo .heuristicDeltaHComp (md := .fischerBurmeister) (by simp) (by simp))
  exact ⟨po, m, oc, P, _, h, hf, C41_h_comp_meaning h hf rfl rfl rfl rfl (caseOpts_fe h) Nat.one_pos⟩

/-- `C41_h_comp_infeasible_violated`: the problem is constructed, and infeasible for every positive
relaxation parameter. -/
example : ∃ po m oc P,
    SetupEx demoColloc (caseOpts .heuristicDeltaHComp .scholtesEq) demoModel (some demoOcp) po m oc P ∧
    ∀ env : Env, 0 < env .sigma → ¬ P.form.Feasible env := by
  obtain ⟨po, m, oc, P, h, -⟩ :=
    demo_setup (caseOpts_demo .heuristicDeltaHComp (md := .scholtesEq) (by simp) (by simp))
  exact ⟨po, m, oc, P, h, fun env hσ =>
    C41_h_comp_infeasible_violated h rfl rfl rfl hσ (caseOpts_fe h) Nat.one_pos⟩

/-- `C40_indicator`, `C42_nonneg`, `C42_zero`: the demo point has no negative multiplier. -/
example : ∃ po m oc P env,
    SetupEx demoColloc (caseOpts .l2RelaxedScaled .scholtesIneq) demoModel (some demoOcp) po m oc P ∧
    P.form.Feasible env ∧ AllNonneg po m.dims env ∧
    0 ≤ 1 * Real.tanh (((pairList po m.dims).map (indicator po 0 1 env)).prod / 1)
      * (hVal po 0 1 env - hVal po 0 0 env) ^ 2 := by
  obtain ⟨po, m, oc, P, h, hf, -⟩ :=
    demo_setup (caseOpts_demo .l2RelaxedScaled (md := .scholtesIneq) (by simp) (by simp))
  have hn : AllNonneg po m.dims (demoEnv po) := fun q _ k e _ =>
    ⟨fun j _ => (demo_lamAt po k e j q).ge, fun j _ => by rw [demo_thetaAt]; norm_num,
      (demo_lamStart po k e q).ge⟩
  exact ⟨po, m, oc, P, _, h, hf, hn, (C42_nonneg hn zero_le_one one_pos (caseOpts_fe h)).2⟩

/-- `C54_external`, `C53_guess_entries`, `C53_repeated_solve`: a solver with the strategy EXTERNAL. -/
example : ∃ po m oc P S,
    Setup demoColloc { Opts.default with initStrategy := .external } demoModel (some demoOcp) po m oc P ∧
    Reachable demoColloc { Opts.default with initStrategy := .external } demoModel (some demoOcp) echoOracle S ∧
    (∃ lam00, S.initialize = (S, .ok lam00)) ∧
    (S.solve echoOracle).1.P.form.w0 = S.P.form.w0 ∧
    ((S.solve echoOracle).1.solve echoOracle).2 = (S.solve echoOracle).2 := by
  obtain ⟨po, m, oc, P, h, -⟩ := demo_setup (o := { Opts.default with initStrategy := .external })
    (by constructor <;> simp [Opts.default, Opts.nfeAfter])
  obtain ⟨-, h2, h3⟩ := h.toSetup.create echoOracle (by simp)
  exact ⟨po, m, oc, P, _, h.toSetup, h2, C54_external h.toSetup h2 h3 rfl,
    (C53_guess_entries echoOracle h.toSetup h2 h3).1 rfl,
    (C53_repeated_solve h.toSetup (fun log c => by simp [echoOracle]) h2 h3 (.inl rfl)).1⟩

/-- `C10_step_box`, `C10_grid_monotone`, `C11_equidistant_grid`, `C12_total_time_partial`: the feasible point of
the demo problem with two stages, three elements in the second one. -/
example : ∃ po m oc P r, SetupEx demoColloc gaussOpts demoModel (some demoOcp) po m oc P ∧
    getResults po [0] P (P.form.w.map (demoEnv po)) = .ok r ∧
    r.tGrid.Pairwise (· ≤ ·) ∧ r.tGridU = [0, 1 / 2, 1] ∧ r.tGrid.getLast? = some 1 := by
  obtain ⟨po, m, oc, P, h, hf, _⟩ := demo_setup demo_gauss
  have hL : gaussOpts.nfeAfter.length = gaussOpts.nStages := by simp [gaussOpts, Opts.default, Opts.nfeAfter]
  obtain ⟨r, hr⟩ := (C61_results_partial (x0 := [0]) h.toSetup hL (w := P.form.w.map (demoEnv po))
    (by simp)).2.2 (by simp [demoModel]) (fun hc => by simp [gaussOpts] at hc)
  have hT : gaussOpts.terminalTime = 1 := by simp [gaussOpts, Opts.default]
  refine ⟨po, m, oc, P, r, h, hr, ?_, ?_, ?_⟩
  · exact (C10_grid_monotone h.toSetup hL rfl (by simp) hf.inBounds hr (by rw [hT]; norm_num)
      (by simp [gaussOpts, Opts.default])).1
  · rw [C11_equidistant_grid h hL rfl rfl hf hr, hT]
    simp [gaussOpts, List.range_succ]
  · rw [(C12_total_time_partial h hL rfl (.inl rfl) hf hr).1, hT]

end Nosnoc
