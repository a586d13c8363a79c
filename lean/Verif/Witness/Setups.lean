import Verif.Witness.Demo
import Verif.Spec.Setup
/-
The demo problem as an instance of the hypotheses of the property theorems.
-/
namespace Nosnoc

/-- The hypotheses of the property theorems are met by the demo problem, which has a feasible point
at `σ = 0`. -/
theorem demo_setup {o : Opts} (h : DemoOpts o) : ∃ po m oc P,
    SetupEx demoColloc o demoModel (some demoOcp) po m oc P ∧
    P.form.Feasible (demoEnv po) ∧ m.dims = dimsOf demoModel [1] [2] ∧
    po.toOpts = { o with maxIterHomotopy := po.maxIterHomotopy, nfeList := o.nfeAfter } := by
  obtain ⟨po, m, oc, P, h1, h2, h3, h4⟩ := demo_exists h
  exact ⟨po, m, oc, P, ⟨⟨h1, by rw [h.nS]; exact Nat.succ_pos 1, fun _ => rfl⟩, h.exact,
    demo_sound _⟩, h2, h3, h4⟩

/-- A non-default option set: Gauss-Legendre, Step representation, differential form, several control
stages with different numbers of elements, elastic mode, local speed of time. -/
noncomputable def gaussOpts : Opts :=
  { Opts.default with
    scheme := .gaussLegendre, pss := .step, irkRep := .differential, nStages := 2,
    nfeList := [2, 3], mpcc := .elasticIneq, sot := .local, crossComp := .complementAll,
    stepEq := .directComplementarity, gPathAtFe := true, gPathAtStg := true }

theorem demo_gauss : DemoOpts gaussOpts := by
  constructor <;> simp [gaussOpts, Opts.default, Opts.nfeAfter]

end Nosnoc
