import Verif.Props.NearOscillator
import Verif.Props.OscillatorEx
import Verif.Props.ShipAccuracyEx
/-
The hypotheses of C136 are met: for every bound on the element length and the tolerance there are a simulation of the
oscillator without polishing and an exact NLP solver with which all steps are reported as SUCCESS.
-/
namespace Nosnoc

/-- For all numbers of simulation steps from 16 on and all tolerances there is an exact NLP solver with which the
driver returns, all steps reported as SUCCESS. -/
theorem osc_near_example {N : Nat} (hN : 16 ≤ N) {ct : ℝ} (ct0 : 0 < ct) (sn : ℝ) : ∃ (orc : Oracle) (R : SimResults),
    (∀ q, construct demoColloc { shipOpts 1 2 false ct sn with terminalTime := tSimOsc / N } oscillatorModel none = .ok q →
      orc.Exact q.2.2.2) ∧
    solveOscillator demoColloc orc (shipOpts 1 2 false ct sn) N = .ok R ∧ ∀ s ∈ R.status, s = .success := by
  have hN' : (16 : ℝ) ≤ N := by exact_mod_cast hN
  have hN0 : (0 : ℝ) < N := by linarith
  set t := tSimOsc / N with ht
  have t0 : 0 ≤ t := by
    rw [ht]
    unfold tSimOsc
    have := Real.pi_pos
    positivity
  have t1 : t ≤ 1 / 10 := by
    rw [ht, div_le_iff₀ hN0]
    unfold tSimOsc
    have := Real.pi_lt_d2
    linarith
  choose G0 G1 s0 s1 hG using fun c : ℂ => oscStep_exists t0 t1 c
  let next : ℂ → ℂ := fun c => oscStage c (G0 c) (G1 c) (s0 c) (s1 c) 1 1
  let path : Nat → ℂ := fun k => next^[k] ⟨Real.exp (-1), 0⟩
  obtain ⟨po, m, oc, P, h, hr⟩ := osc_setup t ct0 false sn
  have e2 : nfe po 0 = 2 := by
    unfold nfe
    rw [h.e_nfeList]
    rfl
  let st : ℂ → List ℝ := fun c => [c.re, c.im]
  let F : List ℝ → Traj := fun l =>
    let c : ℂ := ⟨l.getD 0 0, l.getD 1 0⟩
    oscTraj c (G0 c) (G1 c) (s0 c) (s1 c)
  have hF : ∀ c : ℂ, F (st c) = oscTraj c (G0 c) (G1 c) (s0 c) (s1 c) := fun c => rfl
  obtain ⟨orc, S, L, L', R, hex, hcr, hSr, hc, hrun, hR, hst, -⟩ := C132_simulated (F := F)
    (x := fun k => st (path k)) (N := N) h rfl rfl hr
    (.inl rfl) (.inl (by simp [SignedMode, shipOpts, simplestOpts, Opts.default])) osc_signs rfl osc_plain
    (fun _ => simplest_colloc.1) (fun hc => nomatch hc) rfl (by norm_num [shipOpts, simplestOpts, Opts.default])
    (by norm_num [shipOpts, simplestOpts, Opts.default]) rfl rfl rfl
    (by simp [shipOpts, simplestOpts, Opts.default, Opts.nfeAfter]) two_pos
    (by simp [shipOpts, simplestOpts, Opts.default]) (.inl rfl)
    (fun s hs s' hs' => by rw [osc_sys hs, osc_sys hs']) rfl
    (fun k hk => by
      rw [hF]
      refine ⟨rfl, osc_solves h t1 (hG _), (fun hc => absurd hc (by simp [shipOpts])), ?_⟩
      rw [e2]
      show st (next^[k + 1] _) = _
      rw [Function.iterate_succ_apply']
      rfl)
  refine ⟨orc, R, ?_, ?_, ?_⟩
  · intro q hq
    have := h.toSetup.ok
    change construct demoColloc (shipOpts t 2 false ct sn) _ _ = _ at hq
    rw [this] at hq
    cases hq
    exact hex
  · unfold solveOscillator
    simp only [bind_eq_ok, check_eq_ok]
    refine ⟨(), by simp; omega, _, hcr, L, hc, ?_⟩
    rw [hrun]
    exact hR
  · rw [hst]
    intro s hs
    exact List.eq_of_mem_replicate hs

theorem ship_nearOpts {ct : ℝ} (h0 : 0 < ct) (h1 : ct ≤ 1) (sn : ℝ) : NearSimOpts demoColloc (shipOpts 1 2 false ct sn) :=
  { nS := simplest_nearOpts.nS
    exact := simplest_nearOpts.exact
    lists := by simp [shipOpts, simplestOpts, Opts.default, Opts.nfeAfter]
    polish := rfl
    fesd := rfl
    equidistant := rfl
    mode := .inl rfl
    budget := rfl
    rule := rfl
    slope := simplest_nearOpts.slope
    tol := ⟨h0, by simpa [shipOpts, simplestOpts, Opts.default] using h1⟩
    sot := rfl
    gamma := simplest_nearOpts.gamma
    weights := by
      obtain ⟨b, hb⟩ := simplest_nearOpts.weights
      exact ⟨b, hb.nonneg, hb.table, hb.quad⟩
    points := simplest_nearOpts.points
    ends := by
      intro t po hp
      have h1 := preprocess_opts hp
      obtain ⟨s, hs, hr⟩ := h1.rbe
      obtain ⟨-, -, -, htp⟩ := h1.integral rfl
      rw [htp] at hs
      have : s = 1 := by simpa [shipOpts, simplestOpts, Opts.default, demoColloc] using hs.symm
      rw [hr, this]
      norm_num }

/-- The shipped oscillator without polishing: every state of the simulation and the switching time are found as
exactly as one likes. -/
theorem osc_near_found {ε : ℝ} (hε : 0 < ε) : ∃ (ct : ℝ) (N : Nat) (orc : Oracle) (R : SimResults), 0 < ct ∧
    NearSimOpts demoColloc (shipOpts 1 2 false ct ct) ∧
    (∀ q, construct demoColloc { shipOpts 1 2 false ct ct with terminalTime := tSimOsc / N } oscillatorModel none = .ok q →
      orc.Exact q.2.2.2) ∧
    solveOscillator demoColloc orc (shipOpts 1 2 false ct ct) N = .ok R ∧ (∀ s ∈ R.status, s = .success) ∧
    (∀ (k : Nat) (t : ℝ) (x : List ℝ), R.tGrid[k]? = some t → R.xSim[k]? = some x →
        ∀ j : Fin 2, |x.getD j 0 - oscSol t j| ≤ ε) ∧
    ∃ (N1 : Nat) (t : ℝ), R.tGrid[N1]? = some t ∧ |t - 1| ≤ ε := by
  obtain ⟨H0, hH0, C, hmain⟩ := C136_oscillator (colloc := demoColloc) (sc := simplestOpts.scheme) (n := 2)
    (rep := .integral) (by norm_num) (fun _ => simplest_colloc (sn := 1) (t := 1) (ct := 1) (nf := 2) (pol := true))
  have hC : 0 < |C| + 1 := by positivity
  set v := min (min 1 H0) (ε / (|C| + 1)) / 4 with hv
  have v0 : 0 < v := by
    rw [hv]
    exact div_pos (lt_min (lt_min one_pos hH0) (div_pos hε hC)) (by norm_num)
  obtain ⟨⟨v1, v2⟩, v3⟩ : (4 * v ≤ 1 ∧ 4 * v ≤ H0) ∧ 4 * v ≤ ε / (|C| + 1) := by
    rw [← le_min_iff, ← le_min_iff, hv]
    linarith
  rw [le_div_iff₀ hC] at v3
  obtain ⟨n, hn⟩ := exists_nat_gt (2 / v)
  have hle : tSimOsc / (max 16 n : Nat) ≤ v := by
    have a : (n : ℝ) ≤ ((max 16 n : Nat) : ℝ) := by exact_mod_cast le_max_right 16 n
    have b : 0 < ((max 16 n : Nat) : ℝ) := by exact_mod_cast lt_of_lt_of_le (by norm_num) (le_max_left 16 n)
    rw [div_le_iff₀ b]
    rw [div_lt_iff₀ v0] at hn
    have : tSimOsc ≤ 2 := by unfold tSimOsc; linarith [Real.pi_lt_four]
    nlinarith
  have hge : 0 ≤ tSimOsc / (max 16 n : Nat) := by
    unfold tSimOsc
    have := Real.pi_pos
    positivity
  -- the tolerance
  set ct := v ^ 2 / 4 with hct
  have ct0 : 0 < ct := by rw [hct]; positivity
  have ct1 : ct ≤ 1 := by rw [hct]; nlinarith
  obtain ⟨orc, R, g1, g2, g3⟩ := osc_near_example (N := max 16 n) (le_max_left _ _) ct0 ct
  have hΔ : (1 + (shipOpts 1 2 false ct ct).gammaH) *
      (tSimOsc / (max 16 n : Nat) / (shipOpts 1 2 false ct ct).nfeAfter.sum) = tSimOsc / (max 16 n : Nat) := by
    have e1 : (shipOpts 1 2 false ct ct).gammaH = 1 := rfl
    have e2 : (shipOpts 1 2 false ct ct).nfeAfter.sum = 2 := by
      simp [shipOpts, simplestOpts, Opts.default, Opts.nfeAfter]
    rw [e1, e2]
    push_cast
    ring
  have hft : √(finalTol (shipOpts 1 2 false ct ct)) ≤ v := by
    rw [show v = √(v ^ 2) from (Real.sqrt_sq v0.le).symm]
    apply Real.sqrt_le_sqrt
    unfold finalTol
    refine max_le ?_ (by show ct ≤ _; rw [hct]; nlinarith)
    have hsl : (1 / 4 : ℝ) ≤ √(shipOpts 1 2 false ct ct).slope := by
      apply Real.le_sqrt_of_sq_le
      norm_num [shipOpts, simplestOpts, Opts.default]
    have : (0 : ℝ) < √(shipOpts 1 2 false ct ct).slope := by linarith
    rw [div_le_iff₀ this]
    show ct ≤ _
    have := mul_le_mul_of_nonneg_left hsl (sq_nonneg v)
    rw [hct]
    linarith
  set err := (tSimOsc / (max 16 n : Nat)) ^ 2 + √(finalTol (shipOpts 1 2 false ct ct)) +
    (if IrkRep.integral = .integral then (0 : ℝ) else 1 / 10 ^ 11) with herr
  have hE : err ≤ 2 * v := by
    rw [herr, if_pos rfl]
    have : (tSimOsc / (max 16 n : Nat)) ^ 2 ≤ v := by nlinarith
    linarith
  have hE0 : 0 ≤ err := by
    rw [herr, if_pos rfl]
    positivity
  have hCe : C * err ≤ ε := by
    have h1 : C * err ≤ |C| * err := mul_le_mul_of_nonneg_right (le_abs_self C) hE0
    have h2 : |C| * err ≤ |C| * (2 * v) := mul_le_mul_of_nonneg_left hE (abs_nonneg C)
    nlinarith [abs_nonneg C]
  obtain ⟨-, -, q3, -, q5, -, N1, N2, q7, q8, -, q9⟩ := hmain (o := shipOpts 1 2 false ct ct)
    (N := max 16 n) rfl rfl rfl (ship_nearOpts ct0 ct1 ct) g1 g2 g3 _ rfl
    (by rw [hΔ]; linarith) err (by rw [hΔ]) (by linarith)
  refine ⟨ct, max 16 n, orc, R, ct0, ship_nearOpts ct0 ct1 ct, g1, g2, g3,
    fun k t x ht hx j => (q5 k t x ht hx j).trans hCe, N1, R.tGrid[N1]'(by omega), by simp, ?_⟩
  exact (q9 N1 _ (by simp) le_rfl q7).trans hCe

/-! ### The shipped options -/

open Polynomial

/-- The Radau IIA points with three stages. -/
noncomputable def radauPts3 : IrkScheme → Nat → List ℝ := fun _ _ => [(4 - √6) / 10, (4 + √6) / 10, 1]

noncomputable def radauW3 (j : Nat) : ℝ := if j = 0 then (16 - √6) / 36 else if j = 1 then (16 + √6) / 36 else 1 / 9

/-- The options of `get_default_options` are of the kind C136 is about. -/
theorem shipped_nearOpts : NearSimOpts radauPts3 oscillatorOpts where
  nS := by simp [oscillatorOpts]
  exact := rfl
  lists := by simp [oscillatorOpts, Opts.default, Opts.nfeAfter]
  polish := rfl
  fesd := rfl
  equidistant := rfl
  mode := .inl rfl
  budget := rfl
  rule := rfl
  slope := by norm_num [oscillatorOpts, Opts.default]
  tol := by norm_num [oscillatorOpts, Opts.default]
  sot := rfl
  gamma := by simp [oscillatorOpts, Opts.default]
  weights := by
    have h6 : √6 ≤ (16 : ℝ) := Real.sqrt_le_iff.2 ⟨by norm_num, by norm_num⟩
    have h0 := Real.sqrt_nonneg 6
    refine ⟨radauW3, fun j _ => ?_, fun h => absurd rfl h, ?_⟩
    · unfold radauW3
      split
      · linarith
      split
      · linarith
      · norm_num
    · intro _ p hp
      have hp : p.natDegree ≤ 3 := hp
      have hs : √6 * √6 = (6 : ℝ) := Real.mul_self_sqrt (by norm_num)
      rw [p.as_sum_range' 4 (by omega)]
      simp [Finset.sum_range_succ, oscillatorOpts, radauPts3, radauW3]
      set q := √6
      have hs : q ^ 2 = 6 := by rw [sq]; exact hs
      ring_nf
      rw [hs]
      ring
  points := fun _ => by
    have h6 : √6 < (4 : ℝ) := (Real.sqrt_lt' (by norm_num)).2 (by norm_num)
    have h0 : 0 < √(6 : ℝ) := Real.sqrt_pos.2 (by norm_num)
    refine ⟨rfl, ?_, ?_⟩
    · simp only [radauPts3, List.nodup_cons, List.mem_cons, List.not_mem_nil, or_false, not_or,
        List.nodup_nil, not_false_eq_true, and_true]
      refine ⟨⟨?_, ?_, ?_⟩, ⟨?_, ?_⟩, ?_⟩ <;> intro hc <;> linarith
    · intro t ht _
      simpa [oscillatorOpts, radauPts3] using ht.symm
  ends := by
    intro t po hpo
    have h1 := preprocess_opts hpo
    obtain ⟨s, ht, hr⟩ := h1.rbe
    obtain ⟨-, -, -, htp⟩ := h1.integral rfl
    rw [htp] at ht
    have : s = 1 := by simpa [oscillatorOpts, radauPts3] using ht.symm
    rw [hr, this]
    norm_num

/-- So are the options of the integration order experiment (`get_opts(Nsim, 3, N_fe, RADAU_IIA, True)`: Step
representation, FESD, tolerance 1e-12). -/
theorem order_nearOpts (nFe : Nat) : NearSimOpts radauPts3 (orderOpts 3 nFe .radauIIA true) where
  nS := by simp [orderOpts]
  exact := rfl
  lists := by simp [orderOpts, Opts.default, Opts.nfeAfter]
  polish := rfl
  fesd := rfl
  equidistant := rfl
  mode := .inl rfl
  budget := rfl
  rule := rfl
  slope := by norm_num [orderOpts, Opts.default]
  tol := by norm_num [orderOpts, Opts.default]
  sot := rfl
  gamma := by simp [orderOpts, Opts.default]
  weights := by
    obtain ⟨b, hb⟩ := shipped_nearOpts.weights
    exact ⟨b, hb.1, fun h => absurd rfl h, hb.3⟩
  points := fun _ => shipped_nearOpts.points rfl
  ends := by
    intro t po hpo
    have h1 := preprocess_opts hpo
    obtain ⟨s, ht, hr⟩ := h1.rbe
    obtain ⟨-, -, -, htp⟩ := h1.integral rfl
    rw [htp] at ht
    have : s = 1 := by simpa [orderOpts, radauPts3] using ht.symm
    rw [hr, this]
    norm_num

end Nosnoc
