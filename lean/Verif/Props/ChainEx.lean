import Verif.Props.ChainSim
import Verif.Props.ExactSimEx
/-
The hypotheses of C128 are met.
-/
namespace Nosnoc

/-- C128_simulation, C128_chain: `ẋ = -sign x` from 1/2, simulated with `N` steps of two finite elements (the switching
surface is reached in the first step), and the same as one problem with `N` control stages. -/
example (N : Nat) (hN : 0 < N) : ∃ po m oc P orc S L L' R m' oc' P' env,
    SetupEx demoColloc (slideOpts 1 2 true) slideModel none po m oc P ∧
    Reachable demoColloc (slideOpts 1 2 true) slideModel none orc S ∧ orc.Exact P ∧
    Looper.create S [1 / 2] N none none = .ok L ∧
    L.run orc false = (L', .ok true) ∧ L'.getResults = .ok R ∧ R.xSim[0]? = some [env (.x0 0)] ∧
    SetupEx demoColloc ((slideOpts 1 2 true).repeated N) (slideModel.repeated N) none (po.repeated N) m' oc' P' ∧
    ExactPoint ((slideOpts 1 2 true).repeated N) (po.repeated N) m' P' env ∧
    (∀ k < N, P.form.Feasible (windowEnv (po.repeated N) k env)) ∧
    (Linked po m.dims N fun k => windowEnv (po.repeated N) k env) ∧
    LinkedMultipliers po m.dims N fun k => windowEnv (po.repeated N) k env := by
  obtain ⟨po, m, oc, P, orc, S, L, L', R, h, hS, hon, hc, hrun, hR, hst, hpol, -⟩ := slide_sim_run N
  have hL : (slideOpts 1 2 true).nfeAfter.length = (slideOpts 1 2 true).nStages := by
    simp [slideOpts, Opts.default, Opts.nfeAfter]
  obtain ⟨m', oc', P', env, h', D, hx, -⟩ := C128_simulation h hL hS hon hc hrun hR hst hN hpol rfl
    (.inl (by simp [slideOpts, Opts.default])) (.inl rfl) rfl rfl rfl rfl rfl fun i _ => rfl
  obtain ⟨m1, oc1, P1, h1, -, -, key⟩ := C128_chain h rfl hL (by simp [slideOpts, Opts.default]) (fun _ => rfl) rfl
    rfl hN
  have := h'.ok.symm.trans h1.ok
  simp only [Except.ok.injEq, Prod.mk.injEq, true_and] at this
  obtain ⟨rfl, rfl, rfl⟩ := this
  obtain ⟨k1, k2, k3⟩ := key env (fun k hk i hi => absurd hi (Nat.not_lt_zero _)) D.feas
  exact ⟨po, m, oc, P, orc, S, L, L', R, m', oc', P', env, h, hS, hon, hc, hrun, hR, hx, h', D, k1, k2, k3⟩

end Nosnoc
