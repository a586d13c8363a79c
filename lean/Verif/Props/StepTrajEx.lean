import Verif.Props.StepTrajSim
import Verif.Props.OscillatorEx
/-
The hypotheses of C137 are met.
-/
namespace Nosnoc

/-- By the trajectory that reaches the switching surface and slides along it (here the step function has the value
1/2), in Step mode; the point it yields meets the hypotheses of the converse. -/
example : ∃ (po : PreOpts) (m : PreModel) (oc : PreOcp) (P : Problem) (T : Traj)
    (a : Nat → Nat → Nat → Nat → Nat → ℝ) (env : Env),
    SetupEx demoColloc { slideOpts 1 2 with pss := .step } slideModel (some UserOcp.trivial) po m oc P ∧
    po.rbe = true ∧ T.Solves demoColloc slideModel UserOcp.trivial po ∧ T.StepWeights a slideModel po ∧
    PlainProblem { slideOpts 1 2 with pss := .step } slideModel UserOcp.trivial ∧
    ExactPoint { slideOpts 1 2 with pss := .step } po m P env ∧ slideModel.InitialMultipliers po m.dims env ∧
    SignsOk { slideOpts 1 2 with pss := .step } slideModel ∧
    T.x0 0 = 1 / 2 ∧ T.stageL slideModel 0 0 1 = [0] ∧ T.theta 0 1 0 0 0 = 1 / 2 := by
  obtain ⟨po, m, oc, P, env, h, D, h0, -, hr, fe, -, hx, he, hw⟩ := slide_point (N := 1) (nf := 2) (.inl ⟨rfl, rfl⟩)
  obtain ⟨T, hT, t1, -, -, -, t2⟩ := C132_exact_point_is_trajectory h rfl hr rfl (slide_signs 1 2) rfl
    (fun _ => (slide_colloc 1 2).1) D h0
  obtain ⟨po', m', oc', P', h', hr'⟩ := slide_setup_pss .step (N := 1) (nf := 2) (.inl ⟨rfl, rfl⟩)
  have hT' := hT.pss h h'
  obtain ⟨a, hA⟩ := hT'.stepWeights fun s hs => by
    obtain rfl := slide_sys hs
    exact ⟨signMat_dense, signMat_partition, rfl, rfl, rfl⟩
  have hpl : PlainProblem { slideOpts 1 2 with pss := .step } slideModel UserOcp.trivial :=
    ⟨rfl, rfl, fun _ => rfl, rfl, (slide_plain 1 2).stepEq, (slide_plain 1 2).mode, (slide_plain 1 2).slack⟩
  obtain ⟨env', D', h0', -⟩ := C137_no_trajectory_lost h' rfl rfl rfl hr'
    (.inl (by simp [SignedMode, slideOpts, Opts.default])) rfl hpl (fun _ => (slide_colloc 1 2).1) hT' hA
  refine ⟨po', m', oc', P', T, a, env', h', hr', hT', hA, hpl, D', h0', fun s hs => ?_, by rw [t1, hx], ?_, ?_⟩
  · obtain rfl := slide_sys hs
    exact ⟨signMat_partition, fun hc => absurd hc (by simp), fun _ => signMat_dense.isSign⟩
  · exact ((t2 0 0 ((fe 0 0).2 ⟨by omega, by omega⟩)).2.2.1).trans he
  · have hk := (fe 0 1).2 ⟨by omega, by omega⟩
    rw [((t2 0 1 hk).2.2.2 0 h.nS).2 0 0]
    exact hw 0 1 hk (by omega) 0 (by omega) 0

/-- Simulations of the oscillator in Step mode: for every step length up to 1/10 and every number of steps there is an
NLP solver that answers with solutions of the NLPs it is given, with which all steps are reported as SUCCESS. -/
theorem osc_step_simulated {t : ℝ} (t0 : 0 ≤ t) (t1 : t ≤ 1 / 10) (N : Nat) {ct sn : ℝ} (hct : 0 < ct) :
    ∃ po m oc P orc S L L' R,
      SetupEx demoColloc { shipOpts t 2 false ct sn with pss := .step } oscillatorModel none po m oc P ∧
      orc.Exact P ∧ Solver.create demoColloc { shipOpts t 2 false ct sn with pss := .step } oscillatorModel none = .ok S ∧
      Looper.create S oscillatorModel.x0 N none none = .ok L ∧ L.run orc false = (L', .ok true) ∧
      L'.getResults = .ok R ∧ R.status = List.replicate N .success := by
  obtain ⟨po0, m0, oc0, P0, h0, -⟩ := osc_setup t hct false sn
  obtain ⟨po, m, oc, P, h, hr⟩ := osc_setup_pss .step t hct false sn
  have e2 : nfe po 0 = 2 := by
    unfold nfe
    rw [h.e_nfeList]
    rfl
  choose G0 G1 s0 s1 hG using fun c : ℂ => oscStep_exists t0 t1 c
  let next : ℂ → ℂ := fun c => oscStage c (G0 c) (G1 c) (s0 c) (s1 c) 1 1
  let path : Nat → ℂ := fun k => next^[k] ⟨Real.exp (-1), 0⟩
  let st : ℂ → List ℝ := fun c => [c.re, c.im]
  let F : List ℝ → Traj := fun l =>
    let c : ℂ := ⟨l.getD 0 0, l.getD 1 0⟩
    oscTraj c (G0 c) (G1 c) (s0 c) (s1 c)
  have hF : ∀ l, (F l).Solves demoColloc oscillatorModel UserOcp.trivial po := fun l =>
    (osc_solves h0 t1 (hG _)).pss h0 h
  choose A hA using fun l => (hF l).stepWeights fun s hs => by
    obtain rfl := osc_sys hs
    exact ⟨((osc_signs (o := shipOpts t 2 false ct sn) 0 hs).2.1 rfl).2,
      (osc_signs (o := shipOpts t 2 false ct sn) 0 hs).1, rfl, rfl, rfl⟩
  obtain ⟨orc, S, L, L', R, hex, hcr, hSr, hc, hrun, hR, hst, -⟩ := C137_simulated (F := F) (A := A)
    (x := fun k => st (path k)) (N := N) h rfl rfl le_rfl rfl hr
    (.inl rfl) (.inl (by simp [SignedMode, shipOpts, simplestOpts, Opts.default])) rfl
    ⟨rfl, rfl, fun _ => rfl, rfl, by simp [shipOpts, simplestOpts, Opts.default],
      by simp [shipOpts, simplestOpts, Opts.default], by simp [shipOpts, simplestOpts, Opts.default]⟩
    (fun _ => (simplest_colloc (t := t) (nf := 2) (pol := false) (ct := ct) (sn := sn)).1) (fun hc => absurd hc (by simp [shipOpts])) rfl
    (by norm_num [shipOpts, simplestOpts, Opts.default])
    (by norm_num [shipOpts, simplestOpts, Opts.default]) rfl rfl rfl 
    (by simp [shipOpts, simplestOpts, Opts.default, Opts.nfeAfter]) two_pos
    (by simp [shipOpts, simplestOpts, Opts.default]) (.inl rfl) rfl
    (fun k hk => by
      refine ⟨rfl, hF _, hA _, fun hc => absurd hc (by simp [shipOpts]), ?_⟩
      rw [e2]
      show st (next^[k + 1] _) = _
      rw [Function.iterate_succ_apply']
      rfl)
  exact ⟨po, m, oc, P, orc, S, L, L', R, h, hex, hcr, hc, hrun, hR, hst⟩

end Nosnoc
