import Verif.Props.Oscillator
import Verif.Props.NearCrossing
/-
C136: the oscillator example without polishing (as shipped) converges to its analytic solution up to the tolerance.
-/
namespace Nosnoc

section
variable {colloc : IrkScheme → Nat → List ℝ} {o : Opts} {orc : Oracle} {N : Nat} {R : SimResults}

theorem osc_nearCrossRun (cfg : NearSimOpts colloc o)
    (hex : ∀ q, construct colloc { o with terminalTime := tSimOsc / N } oscillatorModel none = .ok q →
      orc.Exact q.2.2.2)
    (hR : solveOscillator colloc orc o N = .ok R) (hst : ∀ s ∈ R.status, s = .success) :
    N ≠ 0 ∧ ∃ po m oc P S p bw, NearCrossRun colloc { o with terminalTime := tSimOsc / N } oscillatorModel none po m oc P
      orc S oscillatorModel.x0 N none R p bw 1 0 8 := by
  obtain ⟨hN, po, m, oc, P, S, hr⟩ := simplest_run cfg.nS cfg.exact cfg.lists cfg.sot hex hR hst rfl rfl rfl
  obtain ⟨w, hw⟩ := cfg.weights
  refine ⟨hN, po, m, oc, P, S, simParams oscillatorModel S none 0, w, hr, cfg.polish, cfg.fesd, cfg.mode, cfg.budget,
    cfg.rule, cfg.slope, cfg.tol, rfl, osc_signs, rfl, rfl, rfl, by omega, ?_, ⟨hw.nonneg, hw.table, hw.quad⟩, ?_,
    cfg.gamma, ?_, fun k _ => rfl, ?_, ?_⟩
  · norm_num [oscillatorModel, UserModel.Smat]
  · have hk := hr.setup.toSetup.ok
    unfold construct at hk
    simp only [bind_eq_ok] at hk
    obtain ⟨-, -, po', hp, m', -, oc', -, P', -, e⟩ := hk
    cases e
    exact cfg.ends _ _ hp
  · show 0 ≤ tSimOsc / N
    have := Real.pi_pos
    unfold tSimOsc
    positivity
  · exact fun x y => osc_lipschitz 1 _ x y
  · exact fun x y => osc_lipschitz 0 _ x y

end

/-- The two vector fields along the spirals. -/
theorem osc_jump (p : List ℝ) {x : Fin 2 → ℝ} (h : |x 0| ≤ 3 ∧ |x 1| ≤ 3) :
    ‖oscillatorModel.regionField (fun _ => 1) [] p [] x - oscillatorModel.regionField (fun _ => 0) [] p [] x‖ ≤ 48 := by
  have hx : ‖x‖ ≤ 3 := norm2_le h.1 h.2
  have h1 := spin_bound (w := -omegaOsc) (by rw [abs_neg]; exact omega_le) x
  have h0 := spin_bound omega_le x
  have e : ‖spin (-omegaOsc) x - spin omegaOsc x‖ ≤ 48 := (norm_sub_le _ _).trans (by linarith)
  have e' := congrArg₂ (fun a b : Fin 2 → ℝ => ‖a - b‖) (osc_field 1 p x) (osc_field 0 p x)
  exact e'.le.trans e

/-- C136: the oscillator example without polishing, which is the shipped setting.  For every scheme, number of stages
and representation there are `H0 > 0` and `C` such that for all options of the kind `NearSimOpts` (FESD without
polishing) with these, all numbers of simulation steps and all NLP solvers whose accepted points satisfy their
constraints: if `solve_oscillator` returns, all steps are reported as SUCCESS, and the longest possible finite
element `Δ` and `err = Δ ^ n + √tol` (plus the rounding of the Butcher tables; `tol` is the largest complementarity
residual a successful solve can end with) are at most `H0`, then the grid runs from 0 to `TSIM`, every reported state
differs from the trajectory by at most `C * err`, so does the last one from `X_SOL` (the error the example prints), and
there are grid points `N1 ≤ N2` such that the elements before `N1` begin and end inside the circle, those after `N2`
outside, up to `√tol`, and the times of all grid points from `N1` to `N2` differ from 1 by at most `C * err`. -/
theorem C136_oscillator {colloc : IrkScheme → Nat → List ℝ} {sc : IrkScheme} {n : Nat} {rep : IrkRep} (hn : 0 < n)
    (hcol : rep = .integral → CollocOk (colloc sc n) n ∧ ∀ t ∈ colloc sc n, 0 ≤ t ∧ t ≤ 1) :
    ∃ H0 > 0, ∃ C : ℝ, ∀ {o : Opts} {orc : Oracle} {N : Nat} {R : SimResults},
      o.scheme = sc → o.nS = n → o.irkRep = rep → NearSimOpts colloc o →
      (∀ q, construct colloc { o with terminalTime := tSimOsc / N } oscillatorModel none = .ok q →
        orc.Exact q.2.2.2) →
      solveOscillator colloc orc o N = .ok R → (∀ s ∈ R.status, s = .success) →
      ∀ Δ, Δ = (1 + o.gammaH) * (tSimOsc / N / o.nfeAfter.sum) → Δ ≤ H0 →
      ∀ err, err = Δ ^ n + √(finalTol o) + (if rep = .integral then 0 else 1 / 10 ^ 11) → err ≤ H0 →
      R.tGrid[0]? = some 0 ∧ R.tGrid[N * o.nfeAfter.sum]? = some tSimOsc ∧
      R.tGrid.length = N * o.nfeAfter.sum + 1 ∧ R.xSim.length = N * o.nfeAfter.sum + 1 ∧
      (∀ (k : Nat) (t : ℝ) (x : List ℝ), R.tGrid[k]? = some t → R.xSim[k]? = some x →
        ∀ j : Fin 2, |x.getD j 0 - oscSol t j| ≤ C * err) ∧
      (∀ x, R.xSim.getLast? = some x → ∀ j < 2, |xSolOsc.getD j 0 - x.getD j 0| ≤ C * err) ∧
      ∃ N1 N2, N1 ≤ N2 ∧ N2 ≤ N * o.nfeAfter.sum ∧
        (∀ (k : Nat) (x x' : List ℝ), R.xSim[k]? = some x → R.xSim[k + 1]? = some x' →
          (k < N1 → x.getD 0 0 ^ 2 + x.getD 1 0 ^ 2 ≤ 1 + √(finalTol o) ∧
            x'.getD 0 0 ^ 2 + x'.getD 1 0 ^ 2 ≤ 1 + √(finalTol o)) ∧
          (N2 ≤ k → 1 - √(finalTol o) ≤ x.getD 0 0 ^ 2 + x.getD 1 0 ^ 2 ∧
            1 - √(finalTol o) ≤ x'.getD 0 0 ^ 2 + x'.getD 1 0 ^ 2)) ∧
        ∀ (k : Nat) (t : ℝ), R.tGrid[k]? = some t → N1 ≤ k → k ≤ N2 → |t - 1| ≤ C * err := by
  obtain ⟨D, hD⟩ := osc_crossing n
  obtain ⟨H0, hH0, C, hmain⟩ := C134_crossing (colloc := colloc) (sc := sc) (n := n) (rep := rep) hn hcol
    (L := 8) (by norm_num) D (Real.pi / 2) (η := 1 / 2) (r := 1 / 100) (by norm_num) (by norm_num) (1 / 2) 13 10
    (1 / 25) 48
  refine ⟨H0, hH0, C, ?_⟩
  intro o orc N R e1 e2 e3 cfg hex hR hst Δ hΔ hle err herr hle'
  obtain ⟨hN, po, m, oc, P, S, p, bw, A⟩ := osc_nearCrossRun cfg hex hR hst
  have hr := A.sim
  have hnf : ({ o with terminalTime := tSimOsc / N } : Opts).nfeAfter = o.nfeAfter := rfl
  obtain ⟨-, ⟨hx0, hlen, hlenT, hgrid⟩, -⟩ := hr.steps
  rw [hnf] at hlen hlenT hgrid
  have hpi := Real.pi_gt_three
  have hTN : 0 ≤ ({ o with terminalTime := tSimOsc / N } : Opts).terminalTime := A.time
  set M := N * o.nfeAfter.sum with hM
  have hgl : R.tGrid.length = M + 1 := by rw [hgrid]; simp
  have hlast : R.tGrid[M]? = some tSimOsc := by
    have := hr.total cfg.fesd cfg.equidistant le_rfl
    rw [hnf] at this
    rw [this]
    have : (N : ℝ) ≠ 0 := by exact_mod_cast hN
    show some ((N : ℝ) * (tSimOsc / N)) = _
    congr 1
    field_simp
  have hg : ∀ n ≤ M, R.tGrid[n]? = some ((R.timeSteps.take n).sum) := fun n hn => by
    rw [hgrid, List.getElem?_map, List.getElem?_range (by omega)]; rfl
  have hsum : R.timeSteps.sum = tSimOsc := by
    have := hg M le_rfl
    rw [hlast, List.take_of_length_le (by omega)] at this
    exact (Option.some.inj this).symm
  have hT : ∀ (k : Nat) (t : ℝ), R.tGrid[k]? = some t → t ≤ tSimOsc := by
    intro k t ht
    have hk : k ≤ M := by
      by_contra hc
      rw [List.getElem?_eq_none (by omega)] at ht
      cases ht
    rw [hg k hk] at ht
    rw [← Option.some.inj ht, ← hsum, ← List.sum_take_add_sum_drop R.timeSteps k]
    have : 0 ≤ (R.timeSteps.drop k).sum := List.sum_nonneg fun a ha =>
      (hr.small (fun _ => cfg.gamma) hTN a (List.mem_of_mem_drop ha)).1
    linarith
  have hst0 : toVec 2 oscillatorModel.x0 - oscBefore 0 = 0 := by
    funext i
    obtain ⟨i, hi⟩ := i
    obtain rfl | rfl : i = 0 ∨ i = 1 := by omega
    · simp [toVec, oscillatorModel, oscBefore]
    · simp [toVec, oscillatorModel, oscBefore]
  have hpi' := Real.pi_lt_d2
  obtain ⟨m1, N1, N2, n0, n1, n2, n3, n4⟩ := hmain (o := { o with terminalTime := tSimOsc / N }) e1 e2 e3 A (hD p)
    (fun s _ s1 => osc_jump p (entry_le (oscBefore_radius s) (by linarith)))
    (fun s _ s1 => osc_jump p (entry_le (oscAfter_radius s) (by linarith))) Δ hΔ hle err
    (by
      show err = ‖toVec 2 oscillatorModel.x0 - oscBefore 0‖ + _ + _ + _
      rw [hst0, norm_zero, zero_add]
      exact herr) hle'
  have states : ∀ (k : Nat) (t : ℝ) (x : List ℝ), R.tGrid[k]? = some t → R.xSim[k]? = some x →
      ∀ j : Fin 2, |x.getD j 0 - oscSol t j| ≤ C * err := by
    intro k t x ht hx j
    exact m1 k t x ht hx (hT k t ht) j
  refine ⟨by rw [hg 0 (Nat.zero_le _)]; simp, hlast, hgl, by omega, states, ?_, N1, N2, n0, by omega, ?_, ?_⟩
  · intro x hx j hj
    rw [List.getLast?_eq_getElem?, hlen, Nat.add_sub_cancel_left] at hx
    have := states M tSimOsc x hlast hx ⟨j, hj⟩
    rw [abs_sub_comm]
    have e : xSolOsc.getD j 0 = oscSol tSimOsc ⟨j, hj⟩ := by
      have : ¬ tSimOsc ≤ 1 := by unfold tSimOsc; linarith
      unfold oscSol
      rw [if_neg this]
      obtain rfl | rfl : j = 0 ∨ j = 1 := by omega
      · rfl
      · rfl
    rw [e]
    exact this
  · intro k x x' hx hx'
    obtain ⟨t, ht⟩ : ∃ t, R.tGrid[k]? = some t := by
      obtain ⟨hk, -⟩ := List.getElem?_eq_some_iff.1 hx
      exact ⟨_, hg k (by omega)⟩
    obtain ⟨c1, c2⟩ := n2 k t x x' ht hx hx'
    have es : ∀ x : List ℝ, oscillatorModel.surface 0 p (toVec oscillatorModel.nX x)
        = x.getD 0 0 ^ 2 + x.getD 1 0 ^ 2 - 1 := fun x => osc_surface p (toVec 2 x)
    rw [es, es] at c1 c2
    have ef : finalTol { o with terminalTime := tSimOsc / N } = finalTol o := rfl
    rw [ef] at c1 c2
    refine ⟨fun hk => ?_, fun hk => ?_⟩
    · obtain ⟨c3, c4⟩ := c1 hk
      exact ⟨by linarith, by linarith⟩
    · obtain ⟨c3, c4⟩ := c2 hk (hT k t ht)
      exact ⟨by linarith, by linarith⟩
  · intro k t ht h1 h2
    by_cases hN1 : N1 + 1 < R.tGrid.length
    · exact n3 k t ht h1 h2 hN1
    · obtain rfl : N1 = M := by omega
      obtain rfl : k = M := by omega
      rw [hlast] at ht
      obtain rfl := Option.some.inj ht
      have := n4 M tSimOsc hlast le_rfl
      have h1 : 1 ≤ tSimOsc := by unfold tSimOsc; linarith
      rw [abs_of_nonneg (by linarith)]
      linarith

end Nosnoc
