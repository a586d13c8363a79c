import Verif.Witness.Exact
/-
C87: the hypotheses of the theorems in `Honest.lean` are met.
-/
namespace Nosnoc

/-- A simulation of three steps, all of them solved by an exact NLP solver: two regions, switching
function -1, the state grows by 1 per step. -/
example : ∃ (um : UserModel) (po : PreOpts) (m : PreModel) (oc : PreOcp) (P : Problem) (S : Solver)
    (L L' : Looper) (R : SimResults),
    SetupEx oneColloc (constOpts .stewart) um none po m oc P ∧
    (constOpts .stewart).nfeAfter.length = (constOpts .stewart).nStages ∧
    Reachable oneColloc (constOpts .stewart) um none (exactOracle P) S ∧ (exactOracle P).Exact P ∧
    Looper.create S [5] 3 none none = .ok L ∧ L.run (exactOracle P) false = (L', .ok true) ∧
    L'.getResults = .ok R ∧ R.status = [.success, .success, .success] := by
  obtain ⟨po, m, oc, P, h, hf⟩ := const_none (pss := .stewart) (S := signMat) (c := fun _ => -1)
    (by decide)
  have h' := h.toSetup
  obtain ⟨hcr, hS, hr⟩ := h'.create (exactOracle P) (by simp [constOpts, Opts.default])
  have hL : (constOpts .stewart).nfeAfter.length = (constOpts .stewart).nStages := by
    simp [constOpts, Opts.default, Opts.nfeAfter]
  obtain ⟨L, hc⟩ := (C64_create_iff h' hS [5] 3 none none).1.2 ⟨⟨rfl, rfl, rfl⟩, .inl rfl⟩
  obtain ⟨L', R, hrun, hR⟩ := C62_run_returns h' hL hS hr Nat.one_pos rfl (fun hp => nomatch hp) (.inl ⟨.inl rfl, rfl⟩)
    (fun _ s hs s' hs' => by rw [const_sys hs, const_sys hs']) hc false
  refine ⟨_, po, m, oc, P, _, L, L', R, h, hL, hS, exactOracle_exact P, hc, hrun, hR, ?_⟩
  obtain ⟨result, calls, sim, h1, -⟩ := run_sim h' hL hS hc hrun hR
  have key : ∀ i < 3, (result i).status = .success := by
    intro i hi
    refine const_success h ⟨1, fun y σ τ l hσ => hf 1 (by decide) ?_ y σ τ l hσ⟩ (h1 i hi).1
      (sim.solved i hi).1
    intro i hi
    have : i = 0 ∨ i = 1 := by have : i < 2 := hi; omega
    rcases this with rfl | rfl <;> norm_num [constG, signMat]
  rw [sim.status]
  simp [List.range_succ, key 0, key 1, key 2]

/-- The same for one solve, Step representation. -/
example : ∃ (um : UserModel) (po : PreOpts) (m : PreModel) (oc : PreOcp) (P : Problem) (S : Solver)
    (r : SolveResult),
    SetupEx oneColloc (constOpts .step) um none po m oc P ∧
    (constOpts .step).nfeAfter.length = (constOpts .step).nStages ∧
    Reachable oneColloc (constOpts .step) um none (exactOracle P) S ∧ (exactOracle P).Exact P ∧
    (S.solve (exactOracle P)).2 = .ok r ∧ r.status = .success ∧ um.nSys ≤ 1 := by
  obtain ⟨po, m, oc, P, h, hf⟩ := const_none (pss := .step) (S := signMat) (c := fun _ => -1)
    (by decide)
  have h' := h.toSetup
  obtain ⟨hcr, hS, hr⟩ := h'.create (exactOracle P) (by simp [constOpts, Opts.default])
  have hL : (constOpts .step).nfeAfter.length = (constOpts .step).nStages := by
    simp [constOpts, Opts.default, Opts.nfeAfter]
  obtain ⟨w0, lam00, h4, -⟩ := C54_initialise_writes_x0 h' hS hr Nat.one_pos (.inl rfl)
  obtain ⟨r, hok⟩ := C49_solve_succeeds _ h' hS hr rfl h4 Nat.one_pos hL
    (fun _ s hs s' hs' => by rw [const_sys hs, const_sys hs'])
  refine ⟨_, po, m, oc, P, _, r, h, hL, hS, exactOracle_exact P, hok, ?_, le_rfl⟩
  refine const_success h ⟨1, fun y σ τ l hσ => hf 1 (by decide) ?_ y σ τ l hσ⟩ hS hok
  intro i hi
  have : i = 0 ∨ i = 1 := by have : i < 2 := hi; omega
  rcases this with rfl | rfl <;> norm_num [constG, signMat]

end Nosnoc
