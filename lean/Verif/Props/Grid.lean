import Verif.Props.Accuracy
import Verif.Props.Time
/-
C13: the reported steps are the step lengths of the discretisation.
-/
namespace Nosnoc

section
variable {colloc : IrkScheme → Nat → List ℝ} {o : Opts} {um : UserModel} {uo : Option UserOcp}
  {po : PreOpts} {m : PreModel} {oc : PreOcp} {P : Problem} {env : Env}

/-- C13: with and without FESD, at feasible points two consecutive reported states are beginning and end of one
step, of the reported length, of the Runge-Kutta or collocation method. -/
theorem C13_grid_is_discretisation_grid (h : SetupEx colloc o um uo po m oc P)
    (hL : o.nfeAfter.length = o.nStages) (hf : P.form.Feasible env) {x0 : List ℝ} {res : Results}
    (hx : x0 = (List.range um.nX).map fun i => env (.x0 i))
    (hr : getResults po x0 P (P.form.w.map env) = .ok res) {k e : Nat} (hk : HasFE po k e) :
    ∃ t x x', res.timeSteps[(o.nfeAfter.take k).sum + e]? = some t ∧
      res.xTraj[(o.nfeAfter.take k).sum + e]? = some x ∧
      res.xTraj[(o.nfeAfter.take k).sum + e + 1]? = some x' ∧
      (o.irkRep ≠ .integral → ∃ tab, generateButcher o.nS o.scheme = .ok tab ∧
        RungeKuttaStep o.nS um.nX (fun i j => ((tab.a i j : ℚ) : ℝ)) (fun j => ((tab.w j : ℚ) : ℝ)) t x
          (fun j => xVal po m.dims k e j env) (fun j i => env (.st1 .v k e j i))
          (fun j i => sotVal po k env * um.stageRhs po m.dims k e j i env) x') ∧
      (o.irkRep = .integral → CollocOk (colloc o.scheme o.nS) o.nS →
        CollocationStep o.nS um.nX (colloc o.scheme o.nS) t x (fun j => xVal po m.dims k e j env)
          (fun j i => sotVal po k env * um.stageRhs po m.dims k e j i env) x') := by
  have h' := h.toSetup
  have R := C58_results_at h' hL hr
  rw [← h'.dims.1] at hx
  have hlist : po.nfeList = o.nfeAfter := by rw [h'.opts]
  have hL' : po.nfeList.length = po.nStages := by rw [hlist, hL, h'.e_nStages]
  have hget := elements_get hL' hk
  rw [hlist] at hget
  refine ⟨hVal po k e env, startVal po m.dims k e env, xEndVal po m.dims k e env, ?_, xTraj_start h' hL R hx hk, ?_, fun hi => ?_, fun hi hc => ?_⟩
  · rw [R.steps, List.getElem?_map, hget]; rfl
  · rw [R.xTraj, List.getElem?_cons_succ, List.getElem?_map, hget]; rfl
  · obtain ⟨tab, ht, hs⟩ := C17_runge_kutta h hf hi
    exact ⟨tab, ht, hs k e hk⟩
  · exact C17_collocation h hf hi hc hk

end

/-- Hypotheses of C13, with a fixed grid and both stages of different numbers of elements. -/
example : ∃ po m oc P env r, SetupEx demoColloc frozenOpts demoModel (some demoOcp) po m oc P ∧
    P.form.Feasible env ∧ [0] = ((List.range demoModel.nX).map fun i => env (.x0 i)) ∧
    getResults po [0] P (P.form.w.map env) = .ok r ∧ frozenOpts.nfeAfter = [2, 3] ∧ HasFE po 1 2 := by
  have hd : DemoOpts frozenOpts := by
    constructor <;> simp [frozenOpts, gaussOpts, Opts.default, Opts.nfeAfter]
  obtain ⟨po, m, oc, P, h, hf, _⟩ := demo_setup hd
  obtain ⟨r, hr⟩ := (C61_results_partial (x0 := [0]) h.toSetup
    (by simp [frozenOpts, gaussOpts, Opts.default, Opts.nfeAfter])
    (w := P.form.w.map (demoEnv po))
    (by simp)).2.2 (by simp [demoModel]) (fun hc => by simp [frozenOpts, gaussOpts] at hc)
  refine ⟨po, m, oc, P, _, r, h, hf, ?_, hr, rfl, ?_⟩
  · simp [demoModel, demoEnv, demoEnvC]
  · refine ⟨?_, ?_⟩
    · rw [h.toSetup.e_nStages]; simp [frozenOpts, gaussOpts]
    · unfold nfe; rw [h.toSetup.opts]; simp [frozenOpts, gaussOpts, Opts.default, Opts.nfeAfter]

end Nosnoc
