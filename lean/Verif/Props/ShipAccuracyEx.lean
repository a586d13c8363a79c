import Verif.Props.ShipAccuracy
import Verif.Props.ExamplesEx
import Verif.Props.WellPosed
/-
The hypotheses of C118 are met by the shipped options, for any slopes, initial state, number of steps and simulated
time.
-/
namespace Nosnoc

section
variable {a b xm t ct sn : ℝ} {nf : Nat} {po : PreOpts} {m : PreModel} {oc : PreOcp} {P : Problem}

theorem simplest_nearOpts : NearSimOpts demoColloc simplestOpts where
  nS := by simp [simplestOpts, Opts.default]
  exact := rfl
  lists := by simp [simplestOpts, Opts.default, Opts.nfeAfter]
  polish := rfl
  fesd := rfl
  equidistant := rfl
  mode := .inl rfl
  budget := rfl
  rule := rfl
  slope := by norm_num [simplestOpts, Opts.default]
  tol := by norm_num [simplestOpts, Opts.default]
  sot := rfl
  gamma := by simp [simplestOpts, Opts.default]
  weights := ⟨slideW, (slide_weights 1 2 false).nonneg, fun h => absurd rfl h, (slide_weights 1 2 false).quad⟩
  points := fun _ => (simplest_colloc (ct := 1) (sn := 1) (t := 1) (nf := 2) (pol := false)).1
  ends := by
    intro t po hpo
    have h1 := preprocess_opts hpo
    obtain ⟨s, ht, hr⟩ := h1.rbe
    obtain ⟨-, -, -, htp⟩ := h1.integral rfl
    rw [htp] at ht
    have : s = 1 := by simpa [simplestOpts, Opts.default, demoColloc] using ht.symm
    rw [hr, this]
    norm_num

theorem simplest_oneSwitch (hn : 2 ≤ nf) (ht : 0 < t)
    (h : SetupEx demoColloc (shipOpts t nf false ct sn) (simplestModel a b xm) (some UserOcp.trivial) po m oc P) :
    OneSwitch (simplestModel a b xm) UserOcp.trivial po where
  sys := rfl
  one := rfl
  dense := simplest_dense
  part := simplest_partition
  cols := rfl
  pc := simplest_pc
  gamma := h.e_gammaH
  time := by rw [h.e_terminalTime]; exact ht.le
  speed := by rw [h.e_sot]; simp [shipOpts, simplestOpts, Opts.default]
  stages := by rw [h.e_nStages]; simp [shipOpts, simplestOpts, Opts.default]
  elems := by
    intro k hk
    have hk : k < 1 := by rw [h.e_nStages] at hk; exact hk
    have : po.nfeList = List.replicate 1 nf := h.e_nfeList
    unfold nfe
    rw [this]
    simpa [hk] using hn
  xfree := fun i _ => ⟨rfl, rfl⟩
  noPath := rfl
  noTerm := rfl

end

/-- `solve_simplest_example` with the shipped options and an exact and complete NLP solver returns, and all steps
succeed. -/
theorem simplest_ship (a b xm x0 : ℝ) {T : ℝ} (hT : 0 < T) {N : Nat} (hN : 0 < N) : ∃ (orc : Oracle) (R : SimResults),
    (∀ q, construct demoColloc { simplestOpts with terminalTime := T / N } (simplestModel a b xm) none = .ok q →
      orc.Exact q.2.2.2) ∧
    solveSimplest demoColloc orc simplestOpts (simplestModel a b xm) [x0] N T = .ok R ∧
    ∀ s ∈ R.status, s = .success := by
  have ht : 0 < T / N := div_pos hT (by exact_mod_cast hN)
  obtain ⟨po, m, oc, P, h0, hr⟩ := simplest_setup a b xm (T / N) (nf := 2) (by norm_num) false
  obtain ⟨P', h⟩ : ∃ P', SetupEx demoColloc (shipOpts (T / N) 2 false) (simplestModel a b xm) none po m oc P' :=
    ⟨_, h0.toSetup.toNone, rfl, by simp [UserOcp.trivial]⟩
  have h' := h.toSetup
  obtain ⟨hcr, hS, hrd⟩ := h'.create (exactOracle P') (by simp [shipOpts, simplestOpts, Opts.default])
  have hL : (shipOpts (T / N) 2 false).nfeAfter.length = (shipOpts (T / N) 2 false).nStages := by
    simp [shipOpts, simplestOpts, Opts.default, Opts.nfeAfter]
  obtain ⟨L, hc⟩ := (C64_create_iff h' hS [x0] N none none).1.2 ⟨⟨rfl, rfl, rfl⟩, .inl rfl⟩
  obtain ⟨L', R, hrun, hR⟩ := C62_run_returns h' hL hS hrd Nat.one_pos rfl (fun hp => nomatch hp) (.inl ⟨.inl rfl, rfl⟩)
    (fun _ s hs s' hs' => by rw [simplest_sys hs, simplest_sys hs']) hc false
  have hst := C100_simulation h hL hS (exactOracle_complete _) hc hrun hR rfl
    (fun _ => by norm_num [shipOpts, simplestOpts, Opts.default])
    (by norm_num [shipOpts, simplestOpts, Opts.default]) (by norm_num [shipOpts, simplestOpts, Opts.default]) rfl rfl
    hr (.inl rfl) rfl (simplest_oneSwitch le_rfl ht h0) simplest_plain (fun _ => simplest_colloc) simplest_weights
  refine ⟨exactOracle P', R, fun q hq => ?_, ?_, fun s hs => ?_⟩
  · have hk := h'.ok
    have : q = _ := Except.ok.inj (hq.symm.trans hk)
    rw [this]
    exact exactOracle_exact _
  · unfold solveSimplest
    rw [show check (N ≠ 0) .zeroDivision = .ok () from check_eq_ok.2 hN.ne']
    show (Solver.create demoColloc (shipOpts (T / N) 2 false) (simplestModel a b xm) none >>= fun S =>
      Looper.create S [x0] N none none >>= fun L => _) = _
    rw [hcr]
    show (Looper.create _ [x0] N none none >>= fun L => _) = _
    rw [hc]
    show (match L.run (exactOracle P') false with
      | (_, .error e) => Except.error e
      | (L', .ok _) => L'.getResults) = Except.ok R
    rw [hrun]
    exact hR
  · rw [hst] at hs
    exact (List.mem_replicate.1 hs).2

theorem simplest_finalTol : finalTol simplestOpts = 1 / 10 ^ 8 := by
  unfold finalTol
  have h1 : (1 / 10 : ℝ) ≤ √(1 / 10) := by
    rw [Real.le_sqrt (by norm_num) (by norm_num)]; norm_num
  refine max_eq_right ?_
  show (1 / 10 ^ 9 : ℝ) / √(1 / 10) ≤ 1 / 10 ^ 8
  rw [div_le_iff₀ (by linarith)]
  linarith

/-- The shipped crossing example over the shipped time, in `N` steps: every reported state is the analytic solution
up to `2.4e-7` per element. -/
example {N : Nat} (hN : 0 < N) : ∃ (orc : Oracle) (R : SimResults),
    solveSimplest demoColloc orc simplestOpts (simplestModel 3 1 (-1)) [-1] N (Real.pi / 4) = .ok R ∧
    R.tGrid.length = R.xSim.length ∧ R.tGrid.getLast? = some (Real.pi / 4) ∧
    ∀ (n : Nat) (t y : ℝ), R.tGrid[n]? = some t → R.xSim[n]? = some [y] →
      |y - crossingSol 3 1 (-1) t| ≤ n * (24 / 10 ^ 8) := by
  have p1 := Real.pi_pos
  obtain ⟨orc, R, hex, hR, hst⟩ := simplest_ship 3 1 (-1) (-1) (T := Real.pi / 4) (by positivity) hN
  obtain ⟨W, w1, -, k1, k2, k3, k4⟩ := C118_crossing simplest_nearOpts (by positivity) (by norm_num) (by norm_num)
    hex hR hst
  obtain rfl := w1 rfl
  refine ⟨orc, R, hR, k1.symm, k3, fun n t y ht hy => ?_⟩
  obtain ⟨y', e, hb⟩ := k4 n t [y] ht hy
  obtain rfl : y = y' := by simpa using e
  rw [simplest_finalTol, one_mul, one_mul] at hb
  refine hb.trans (le_of_eq ?_)
  norm_num

/-- The shipped sliding example. -/
example {N : Nat} (hN : 0 < N) : ∃ (orc : Oracle) (R : SimResults),
    solveSimplest demoColloc orc simplestOpts (simplestModel 3 (-1) (-1)) [-1] N (Real.pi / 4) = .ok R ∧
    R.tGrid.length = R.xSim.length ∧ R.tGrid.getLast? = some (Real.pi / 4) ∧
    ∀ (n : Nat) (t y : ℝ), R.tGrid[n]? = some t → R.xSim[n]? = some [y] →
      |y - min (-1 + 3 * t) 0| ≤ (n + 1) * (8 / 10 ^ 8) := by
  have p1 := Real.pi_pos
  obtain ⟨orc, R, hex, hR, hst⟩ := simplest_ship 3 (-1) (-1) (-1) (T := Real.pi / 4) (by positivity) hN
  obtain ⟨W, w1, -, k1, k2, k3, k4⟩ := C118_sliding simplest_nearOpts (by positivity) (by norm_num) (by norm_num)
    hex hR hst
  obtain rfl := w1 rfl
  refine ⟨orc, R, hR, k1.symm, k3, fun n t y ht hy => ?_⟩
  obtain ⟨y', e, hb⟩ := k4 n t [y] ht hy
  obtain rfl : y = y' := by simpa using e
  rw [simplest_finalTol, one_mul, slidingSol, if_pos (by norm_num)] at hb
  refine hb.trans (le_of_eq ?_)
  norm_num

end Nosnoc
