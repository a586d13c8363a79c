import Verif.Props.Window
import Verif.Props.Complete
/-
The hypotheses of C127 are met.
-/
namespace Nosnoc

/-- C127_split, C127_part, C127_restart_multipliers: two control stages with two and three elements, with
controls, parameters, path and terminal constraints; the demo point is split after the first stage. -/
example : ∃ po m oc P m1 oc1 P1 m2 oc2 P2,
    SetupEx demoColloc gaussOpts demoModel (some demoOcp) po m oc P ∧
    P.form.Feasible (demoEnv po) ∧
    SetupEx demoColloc (gaussOpts.window 0 1) (demoModel.window 0 1) (some demoOcp.noTerminal) (po.window 0 1)
      m1 oc1 P1 ∧
    SetupEx demoColloc (gaussOpts.window 1 1) (demoModel.window 1 1) (some demoOcp) (po.window 1 1) m2 oc2 P2 ∧
    (gaussOpts.window 0 1).nfeList = [2] ∧ (gaussOpts.window 1 1).nfeList = [3] ∧
    (gaussOpts.window 1 1).terminalTime = 1 / 2 ∧
    P1.form.Feasible (demoEnv po) ∧ P2.form.Feasible (windowEnv po 1 (demoEnv po)) ∧
    P.form.cost (demoEnv po) + elasticPenalty gaussOpts (demoEnv po)
      = P1.form.cost (demoEnv po) + P2.form.cost (windowEnv po 1 (demoEnv po)) ∧
    ∀ q, IsPair po m.dims q → lam00At (windowEnv po 1 (demoEnv po)) q
      = demoModel.lam00Val ((List.range 1).map fun i => windowEnv po 1 (demoEnv po) (.x0 i))
          (zVal m.dims 0 (nfe po 0 - 1) 1 (demoEnv po)) (pVal m.dims 0 (demoEnv po)) q := by
  obtain ⟨po, m, oc, P, h, hf, -⟩ := demo_setup demo_gauss
  obtain ⟨m1, oc1, P1, m2, oc2, P2, h1, h2, key⟩ := C127_split (a := 1) (b := 1) h (by simp [gaussOpts])
    Nat.one_pos Nat.one_pos rfl (fun _ => rfl) rfl
  obtain ⟨k1, k2⟩ := key (demoEnv po) fun _ _ _ _ => rfl
  obtain ⟨f1, f2⟩ := k1.1 hf
  have D : ExactPoint gaussOpts po m P (demoEnv po) := ⟨rfl, .inl (by simp [gaussOpts, SignedMode]), hf, rfl,
    fun _ => rfl, fun q _ => by cases q <;> exact le_rfl⟩
  refine ⟨po, m, oc, P, m1, oc1, P1, m2, oc2, P2, h, hf, h1, h2, ?_, ?_, ?_, f1, f2, k2, fun q hq => ?_⟩
  · simp [Opts.window, gaussOpts, Opts.nfeAfter]
  · simp [Opts.window, gaussOpts, Opts.nfeAfter]
  · simp [Opts.window, gaussOpts, Opts.default]
  · exact C127_restart_multipliers (a := 1) h D Nat.one_pos (by simp [gaussOpts]) hq

/-- C127_tail_optimal, C127_tail_optimal_plain: the trajectory of `ẋ = -sign x` that reaches the switching surface at
the end of the first of two control stages; the tail begins on the surface. -/
example : ∃ po m oc P env m2 oc2 P2,
    SetupEx demoColloc (slideOpts 2 1) slideModel (some UserOcp.trivial) po m oc P ∧
    SameGlobals (slideOpts 2 1) slideModel env ∧ P.Optimal (fun _ => False) env ∧ env (.x0 0) = 1 / 2 ∧
    SetupEx demoColloc ((slideOpts 2 1).window 1 1) (slideModel.window 1 1) (some UserOcp.trivial) (po.window 1 1)
      m2 oc2 P2 ∧
    P2.Optimal (fun _ => False) (windowEnv po 1 env) ∧ windowEnv po 1 env (.x0 0) = 0 := by
  obtain ⟨po, m, oc, P, env, h, D, -, -, -, hfe, -, hx0, hend, -⟩ := slide_point (.inr ⟨rfl, rfl⟩)
  have e1 : po.nStages = 2 := h.e_nStages
  have e2 : po.nfeList = [1, 1] := h.e_nfeList
  have hg : SameGlobals (slideOpts 2 1) slideModel env := fun k _ i hi => absurd hi (Nat.not_lt_zero _)
  have cost0 : ∀ env', P.form.cost env' = 0 := by
    intro env'
    rw [h.toSetup.built.cost h.exact']
    have em : po.mpcc = .scholtesIneq := h.e_mpcc
    have es : po.stepEq = .heuristicDelta := by rw [h.toSetup.opts]; rfl
    unfold objectiveSpec plainObjective runningCost stepCosts terminalCost stepCost
    rw [em, e1, es]
    simp [UserOcp.trivial, Finset.sum_range_succ, nfe, e2]
  have hopt : P.Optimal (fun _ => False) env := ⟨D.feas, fun env' _ _ _ => by rw [cost0, cost0]⟩
  obtain ⟨m2, oc2, P2, h2, key⟩ := C127_tail_optimal_plain (a := 1) (b := 1) h
    (by simp [slideOpts, Opts.default]) (by simp [slideOpts, Opts.default]) rfl Nat.one_pos Nat.one_pos rfl
    (fun _ => rfl) rfl
  refine ⟨po, m, oc, P, env, m2, oc2, P2, h, hg, hopt, hx0, h2, key env hg hopt, ?_⟩
  have hn0 : nfe po 0 = 1 := by simp [nfe, e2]
  have d1 := h.toSetup.dims.1
  have : xEndVal po m.dims 0 0 env = [env (endX po 0 0 0)] := by
    unfold xEndVal
    rw [d1]
    rfl
  rw [this] at hend
  simp only [windowEnv, startX, prevFe, lt_irrefl, if_false, Nat.lt_one_iff, if_true, Nat.sub_self, hn0]
  exact (List.cons.inj hend).1

end Nosnoc
