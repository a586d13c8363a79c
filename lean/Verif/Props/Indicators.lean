import Verif.Proofs.Indicators
import Verif.Props.OscillatorEx
/-
C135: giving `g_Stewart = -S c` instead of `S` and `c` gives the same problem and the same results.
-/
namespace Nosnoc

section
variable {colloc : IrkScheme → Nat → List ℝ} {o : Opts} {um : UserModel} {uo : Option UserOcp} {po : PreOpts}
  {m : PreModel} {oc : PreOcp} {P : Problem} {Fs : List UMat}

theorem preprocess_keeps (h : o.preprocess colloc = .ok po) :
    po.pss = o.pss ∧ po.initStrategy = o.initStrategy := by
  rw [(preprocess_opts h).toOpts]
  exact ⟨rfl, rfl⟩

theorem construct_opts {q : PreOpts × PreModel × PreOcp × Problem} (h : construct colloc o um uo = .ok q) :
    o.preprocess colloc = .ok q.1 := by
  unfold construct at h
  simp only [bind_eq_ok] at h
  obtain ⟨_, _, po, hpo, _, _, _, _, _, _, h⟩ := h
  cases h
  exact hpo

/-- C135: in Stewart's representation a model given by `S` and `c` and the model given by
`g_Stewart = [-S[i] @ c[i]]` instead lead to the same options, the same discretised optimal control problem and the
same NLP: variables, bounds, guesses, constraint and objective expressions, parameters and index lists. -/
theorem C135_problem (hF : um.F = some Fs) (hne : Fs ≠ []) (hg : um.gStewart = none) (hs : o.pss = .stewart)
    (h : construct colloc o um uo = .ok (po, m, oc, P)) :
    ∃ m', construct colloc o um.byIndicators uo = .ok (po, m', oc, P) ∧
      m' = { m with dims := { m.dims with nC := m'.dims.nC } } := by
  unfold construct at h ⊢
  simp only [bind_eq_ok] at h
  obtain ⟨_, hi, po', hpo, m', hm, oc', hoc, P', hP, h⟩ := h
  cases h
  have hs' : po.pss = .stewart := (preprocess_keeps hpo).1.trans hs
  have hm' := byIndicators_preprocess hF hne hg hs' hm
  refine ⟨m.setC fun i => [0].getD i 0, ?_, rfl⟩
  · simp only [bind_eq_ok]
    refine ⟨(), ?_, po, hpo, _, hm', oc, hoc, P, (build_setC hs' _).trans hP, rfl⟩
    unfold UserModel.initCheck at hi ⊢
    simp only [bind_eq_ok, check_eq_ok] at hi ⊢
    exact ⟨(), hi.choose_spec.1, by simp [UserModel.byIndicators, hF, check]⟩

/-- The solver objects differ only in the recorded numbers of switching functions. -/
theorem byIndicators_create {S : Solver} (hF : um.F = some Fs) (hne : Fs ≠ []) (hg : um.gStewart = none)
    (hs : o.pss = .stewart) (hr : o.initStrategy ≠ .rk4Smoothened) (h : Solver.create colloc o um uo = .ok S) :
    S.o.initStrategy ≠ .rk4Smoothened ∧
      ∃ n, Solver.create colloc o um.byIndicators uo = .ok (S.setC n) := by
  unfold Solver.create at h ⊢
  simp only [bind_eq_ok] at h
  obtain ⟨⟨po, m, oc, P⟩, hq, sm, hsm, h⟩ := h
  cases h
  obtain ⟨m', hq', e⟩ := C135_problem hF hne hg hs hq
  have hr' : po.initStrategy ≠ .rk4Smoothened := by
    rw [(preprocess_keeps (construct_opts hq)).2]
    exact hr
  refine ⟨hr', m'.dims.nC, ?_⟩
  rw [hq']
  unfold smoothFor at hsm ⊢
  simp only [hr', if_false] at hsm
  cases hsm
  simp only [ok_bind, if_neg hr', Solver.setC]
  congr 2

/-- C135: whatever sequence of `set` and `solve` a user calls, and whatever the NLP solver answers, the two solver
objects return and raise the same and hand the same NLPs to the NLP solver.  (RK4_SMOOTHENED is excluded: it is not
implemented for `g_Stewart`.) -/
theorem C135_calls {S : Solver} (hF : um.F = some Fs) (hne : Fs ≠ []) (hg : um.gStewart = none)
    (hs : o.pss = .stewart) (hr : o.initStrategy ≠ .rk4Smoothened) (h : Solver.create colloc o um uo = .ok S) :
    ∃ S', Solver.create colloc o um.byIndicators uo = .ok S' ∧
      ∀ (orc : Oracle) (cs : List UserCall), observe orc cs S' = observe orc cs S := by
  obtain ⟨hr', n, h'⟩ := byIndicators_create hF hne hg hs hr h
  exact ⟨_, h', fun orc cs => observe_setC cs S hr'⟩

/-- C135: simulations with the two models end in the same results, or in the same exception. -/
theorem C135_simulation {S : Solver} {orc : Oracle} {x0 : List ℝ} {N : Nat} {pv : Option Arr} {wi : Option (List Arr)}
    {stop : Bool} (hF : um.F = some Fs) (hne : Fs ≠ []) (hg : um.gStewart = none)
    (hs : o.pss = .stewart) (hr : o.initStrategy ≠ .rk4Smoothened) (h : Solver.create colloc o um uo = .ok S) :
    simulate colloc orc o um.byIndicators uo x0 N pv wi stop = simulate colloc orc o um uo x0 N pv wi stop := by
  obtain ⟨hr', n, h'⟩ := byIndicators_create hF hne hg hs hr h
  unfold simulate
  rw [h, h']
  simp only [ok_bind]
  have e : Looper.create (S.setC n) x0 N pv wi = (fun L => L.setC n) <$> Looper.create S x0 N pv wi := by
    unfold Looper.create
    have e1 : (S.setC n).P.isSim (S.setC n).o (S.setC n).m = S.P.isSim S.o S.m := rfl
    have e2 : (S.setC n).m.dims.nPgl = S.m.dims.nPgl := rfl
    rw [e1, e2]
    cases check (S.P.isSim S.o S.m = true) .exception with
    | error e => rfl
    | ok _ =>
      simp only [ok_bind]
      cases check (∀ a, pv = some a → shapeIs a N S.m.dims.nPgl = true) .valueError <;> rfl
  rw [e]
  cases hL : Looper.create S x0 N pv wi with
  | error e => rfl
  | ok L =>
    simp only [ok_map, ok_bind]
    have hs : L.solver = S := by
      unfold Looper.create at hL
      simp only [bind_eq_ok] at hL
      obtain ⟨_, _, _, _, h⟩ := hL
      cases h
      rfl
    have := runLoop_setC (orc := orc) (n := n) stop L.nSim 0 L (by rw [hs]; exact hr')
    have e2 : (L.setC n).run orc stop = ((L.run orc stop).1.setC n, (L.run orc stop).2) := this
    rw [e2]
    generalize L.run orc stop = t
    obtain ⟨L', r⟩ := t
    cases r <;> rfl

/-- C135: the one difference.  With `g_Stewart` no solver with RK4_SMOOTHENED can be constructed. -/
theorem C135_rk4 (hg : um.gStewartTruthy = true) (hr : o.initStrategy = .rk4Smoothened) (S : Solver) :
    Solver.create colloc o um uo ≠ .ok S := by
  intro h
  unfold Solver.create at h
  simp only [bind_eq_ok] at h
  obtain ⟨q, hq, sm, hsm, -⟩ := h
  unfold smoothFor at hsm
  rw [if_pos ((preprocess_keeps (construct_opts hq)).2.trans hr)] at hsm
  unfold addSmooth at hsm
  rw [hg] at hsm
  cases hsm

end

theorem oscillator_byIndicators : oscillatorModel.byIndicators = oscillatorModelG := by
  unfold UserModel.byIndicators oscillatorModelG
  congr 1
  simp [oscillatorModel, UserModel.nSys, negMul]

/-- C135: `solve_oscillator(opts, use_g_Stewart=True)` returns the results of `solve_oscillator(opts)`, for all options
with Stewart's representation with which the solver can be constructed. -/
theorem C135_oscillator {colloc : IrkScheme → Nat → List ℝ} {o : Opts} {orc : Oracle} {N : Nat} {S : Solver}
    (hs : o.pss = .stewart) (hr : o.initStrategy ≠ .rk4Smoothened)
    (h : Solver.create colloc { o with terminalTime := tSimOsc / N } oscillatorModel none = .ok S) :
    solveOscillatorG colloc orc o N = solveOscillator colloc orc o N := by
  have := C135_simulation (orc := orc) (x0 := oscillatorModel.x0) (N := N) (pv := none) (wi := none) (stop := false)
    (um := oscillatorModel) (o := { o with terminalTime := tSimOsc / N }) rfl (by simp) rfl hs hr h
  rw [oscillator_byIndicators] at this
  unfold solveOscillatorG solveOscillator
  unfold simulate at this
  exact congrArg (fun q => check (N ≠ 0) PyErr.zeroDivision >>= fun _ => q) this

/-- The hypotheses of C135: the shipped oscillator, for every step size. -/
example (t : ℝ) {ct : ℝ} (hct : 0 < ct) : ∃ po m oc P S,
    oscillatorModel.F = some [⟨2, fun row i x _ _ _ _ => oscField row i x⟩] ∧ oscillatorModel.gStewart = none ∧
    (shipOpts t 2 true ct).pss = .stewart ∧ (shipOpts t 2 true ct).initStrategy ≠ .rk4Smoothened ∧
    construct demoColloc (shipOpts t 2 true ct) oscillatorModel none = .ok (po, m, oc, P) ∧
    Solver.create demoColloc (shipOpts t 2 true ct) oscillatorModel none = .ok S := by
  obtain ⟨po, m, oc, P, h, -⟩ := osc_setup t hct
  refine ⟨po, m, oc, P, ⟨po, m, P, none, []⟩, rfl, rfl, rfl, by simp [shipOpts, simplestOpts, Opts.default], h.toSetup.ok, ?_⟩
  unfold Solver.create
  rw [h.toSetup.ok]
  simp only [ok_bind]
  unfold smoothFor
  rw [if_neg (by rw [h.toSetup.e_initStrategy]; simp [shipOpts, simplestOpts, Opts.default])]
  rfl

example : oscillatorModelG.gStewartTruthy = true := rfl

end Nosnoc
