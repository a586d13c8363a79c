import Verif.Witness.Sim
/-
A simulation problem that accepts many options and initial states.
-/
namespace Nosnoc

/-- The model `x' = -2` with any initial state. -/
def plainModel (a : ℝ) : UserModel := { jumpModel with x0 := [a] }

/-- The default options with another tolerance and discretisation. -/
noncomputable def plainOpts (tol : ℝ) (stages fes : Nat) : Opts :=
  { Opts.default with compTol := tol, nStages := stages, nFe := fes }

structure PlainOpts (o : Opts) : Prop where
  iter : 0 < o.compTol / o.sigma0 ∧ 0 < o.slope ∧ o.slope ≠ 1
  rep : o.irkRep = .integral
  nS : 0 < o.nS
  handling : o.constraintHandling = .exact
  sot : o.sot ≠ .global
  freezing : o.timeFreezing = false
  stages : o.nStages ≠ 0
  nfe : ∀ k < o.nStages, ∃ n, o.nfeAfter[k]? = some n ∧ 0 < n
  mpcc : o.mpcc ≠ .fischerBurmeisterIpAug
  strategy : o.initStrategy ≠ .rk4Smoothened

theorem plainOpts_plain {tol : ℝ} {stages fes : Nat} (ht : 0 < tol) (hs : 0 < stages) (hf : 0 < fes) :
    PlainOpts (plainOpts tol stages fes) where
  iter := ⟨by simpa [plainOpts, Opts.default] using ht, by norm_num [plainOpts, Opts.default],
    by norm_num [plainOpts, Opts.default]⟩
  rep := rfl
  nS := by simp [plainOpts, Opts.default]
  handling := rfl
  sot := by simp [plainOpts, Opts.default]
  freezing := rfl
  stages := hs.ne'
  nfe := fun k hk => ⟨fes, by
    have : k < stages := hk
    simp [Opts.nfeAfter, plainOpts, Opts.default, List.getElem?_replicate, this], hf⟩
  mpcc := by simp [plainOpts, Opts.default]
  strategy := by simp [plainOpts, Opts.default]

theorem plain_setup (colloc : IrkScheme → Nat → List ℝ) {o : Opts} (h : PlainOpts o) (a : ℝ) :
    ∃ po m oc P, Setup colloc o (plainModel a) none po m oc P := by
  obtain ⟨po, hpo⟩ : ∃ po, o.preprocess colloc = .ok po := flex_preOpts h.iter (.inl h.rep)
  have h1 := preprocess_opts hpo
  have e := h1.toOpts
  have e2 : po.timeFreezing = false := by rw [e]; exact h.freezing
  obtain ⟨m, hm⟩ : ∃ m, (plainModel a).preprocess po = .ok m := by
    refine switched_ok (Fs := [⟨2, fun _ _ _ _ _ _ _ => -2⟩])
      (cs := [⟨1, fun _ x _ _ => x.getD 0 0⟩])
      (Ss := [signMat]) ⟨?_, ?_, ?_, rfl, ?_, .inr e2⟩
      ⟨rfl, rfl, rfl, rfl, ?_, rfl, le_rfl, ?_, ?_, ?_, ?_⟩ rfl
    · intro l h; cases h
    · intro l h; cases h
    · intro l h; cases h
    · intro V h; cases h
    · intro f hf
      simp only [List.mem_singleton] at hf
      rw [hf]
      simp
    · intro s hs
      obtain rfl : s = 0 := by simpa using hs
      rfl
    · intro _ s hs
      obtain rfl : s = 0 := by simpa using hs
      rfl
    · intro _ s hs i hi k hk _
      obtain rfl : s = 0 := by simpa using hs
      exact hk
    · intro _ s hs
      obtain rfl : s = 0 := by simpa using hs
      rfl
  obtain ⟨oc, hoc⟩ : ∃ oc, UserOcp.trivial.preprocess m = .ok oc := by
    obtain ⟨nC, nF, g, up, f0, acc, hp⟩ := preprocess_pre hm
    unfold UserOcp.preprocess
    rw [hp.dims]
    exact ⟨_, rfl⟩
  obtain ⟨P, hP⟩ := (C06_construct_iff (uo := none) rfl hpo hm hoc
    h.nS (fun _ => rfl) h.handling).2 ⟨h.stages, rfl, h.sot, h.nfe, fun hc => h.mpcc hc.1⟩
  exact ⟨po, m, oc, P, hP, h.nS, fun _ => rfl⟩

/-- The solver that is created. -/
theorem plain_create (colloc : IrkScheme → Nat → List ℝ) {o : Opts} (h : PlainOpts o) (a : ℝ) :
    ∃ S, Solver.create colloc o (plainModel a) none = .ok S ∧ S.smooth = none := by
  obtain ⟨po, m, oc, P, hs⟩ := plain_setup colloc h a
  have orc : Oracle := failOracle
  exact ⟨_, (hs.create orc h.strategy).1, rfl⟩

end Nosnoc
