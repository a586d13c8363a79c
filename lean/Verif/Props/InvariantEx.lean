import Verif.Props.InvariantTable
import Verif.Props.Lyapunov
import Verif.Props.ExactSimEx
import Verif.Props.SimConverge
import Verif.Witness.Pair
/-
The hypotheses of C121, C122 and C123 are met.
-/
namespace Nosnoc
open Polynomial

/-- Simulations of the pair: any number of steps, all SUCCESS, with Radau IIA or Gauss-Legendre. -/
theorem pair_sim (sc : IrkScheme) (N nf : Nat) (hnf : 0 < nf) (y z : ℝ) : ∃ po m oc P S L L' R,
    SetupEx demoColloc (pairOpts sc nf) pairModel none po m oc P ∧
    Reachable demoColloc (pairOpts sc nf) pairModel none (exactOracle P) S ∧
    (pairOpts sc nf).nfeAfter.length = (pairOpts sc nf).nStages ∧ (exactOracle P).Exact P ∧
    Looper.create S [y, z] N none none = .ok L ∧ L.run (exactOracle P) false = (L', .ok true) ∧
    L'.getResults = .ok R ∧ (∀ s ∈ R.status, s = .success) ∧ R.xSim.length = N * nf + 1 := by
  obtain ⟨po, m, oc, P, h0⟩ := pair_setup sc hnf
  have hfe : ∀ y z σ τ : ℝ, 0 ≤ σ → P.form.Feasible (pairEnv sc nf y z σ τ) := fun y z σ τ hσ =>
    pair_feasible h0 hnf hσ
  have h : SetupEx demoColloc (pairOpts sc nf) pairModel none po m oc _ :=
    ⟨h0.toSetup.toNone, rfl, by simp [UserOcp.trivial]⟩
  have h' := h.toSetup
  obtain ⟨hcr, hS, hrd⟩ := h'.create (exactOracle _) (by simp [pairOpts, slideOpts, Opts.default])
  have hL : (pairOpts sc nf).nfeAfter.length = (pairOpts sc nf).nStages := by
    simp [pairOpts, slideOpts, Opts.default, Opts.nfeAfter]
  obtain ⟨L, hc⟩ := (C64_create_iff h' hS [y, z] N none none).1.2 ⟨⟨rfl, rfl, rfl⟩, .inl rfl⟩
  obtain ⟨L', R, hrun, hR⟩ := C62_run_returns h' hL hS hrd Nat.two_pos rfl
    (fun _ => by simp [pairOpts, slideOpts, Opts.default]) (.inl ⟨.inl rfl, rfl⟩)
    (fun _ s hs s' hs' => by rw [pair_sys hs, pair_sys hs']) hc false
  obtain ⟨result, calls, sim, q1, -⟩ := run_sim h' hL hS hc hrun hR
  refine ⟨po, m, oc, _, _, L, L', R, h, hS, hL, exactOracle_exact _, hc, hrun, hR, fun s hs => ?_, ?_⟩
  · rw [sim.status] at hs
    obtain ⟨i, hi, rfl⟩ := List.mem_map.1 hs
    have hi := List.mem_range.1 hi
    exact pair_success h hfe (q1 i hi).1 (sim.solved i hi).1
  · rw [sim.number, show (pairOpts sc nf).nfeAfter.sum = nf by
      simp [pairOpts, slideOpts, Opts.default, Opts.nfeAfter], Nat.add_comm]

theorem gauss_two : GaussPoints (demoColloc .gaussLegendre 2) 2 := by
  have h3 : (Real.sqrt 3) ^ 2 = 3 := Real.sq_sqrt (by norm_num)
  refine ⟨fun _ => 1 / 2, fun p hp => ?_⟩
  rw [p.as_sum_range' 5 (by omega)]
  simp [Finset.sum_range_succ, demoColloc, eval_finsetSum, derivative_monomial]
  generalize Real.sqrt 3 = w at h3
  generalize p.coeff 1 = a1
  generalize p.coeff 2 = a2
  generalize p.coeff 3 = a3
  generalize p.coeff 4 = a4
  have h4 : w ^ 3 = 3 * w := by rw [pow_succ, h3]
  ring_nf
  rw [h3]
  ring

theorem pair_linear : pairModel.AlongField (fun _ => fun _ => 1) fun _ _ _ _ _ => 0 := by
  refine ⟨fun _ _ _ _ _ _ => 0, fun s hs i _ x z u p v => ?_, fun x z u p v => ?_⟩
  · obtain rfl := pair_sys hs
    show ∑ row ∈ Finset.range 2, (1 : ℝ) * ((if row = 0 then 1 else -1) * if i = 0 then 1 else 2) = 0
    rw [Finset.sum_range_succ, Finset.sum_range_one]
    by_cases hi : i = 0 <;> simp [hi]
  · show ∑ _s ∈ Finset.range 1, (0 : ℝ) = 0
    simp

theorem pair_quadratic : pairModel.AlongField (quadGrad 2 (fun _ _ => 1) fun _ => 0) fun _ _ _ _ _ => 0 := by
  refine ⟨fun _ _ _ _ _ _ => 0, fun s hs i _ x z u p v => ?_, fun x z u p v => ?_⟩
  · obtain rfl := pair_sys hs
    show ∑ row ∈ Finset.range 2, quadGrad 2 (fun _ _ => 1) (fun _ => 0) x row
      * ((if row = 0 then 1 else -1) * if i = 0 then 1 else 2) = 0
    rw [Finset.sum_range_succ, Finset.sum_range_one]
    by_cases hi : i = 0 <;> simp [quadGrad, hi]
  · show ∑ _s ∈ Finset.range 1, (0 : ℝ) = 0
    simp

/-- C121, linear functions: in simulations of the pair of any number of steps the sum of the two states is
conserved at all grid points, with both schemes. -/
example (sc : IrkScheme) (N nf : Nat) (hnf : 0 < nf) (y z : ℝ) : ∃ (S : Solver) (orc : Oracle) (L L' : Looper) (R : SimResults),
    Looper.create S [y, z] N none none = .ok L ∧ L.run orc false = (L', .ok true) ∧ L'.getResults = .ok R ∧
    R.xSim.length = N * nf + 1 ∧ ∀ x ∈ R.xSim, x.getD 0 0 + x.getD 1 0 = y + z := by
  obtain ⟨po, m, oc, P, S, L, L', R, h, hS, hL, hon, hc, hrun, hR, hst, hn⟩ := pair_sim sc N nf hnf y z
  refine ⟨S, _, L, L', R, hc, hrun, hR, hn, fun x hx => ?_⟩
  have := (C121_simulation h hS hL hon hc hrun hR hst (by simp [pairOpts, slideOpts, Opts.default]) (fun _ => rfl)
    (fun hp => by simp [pairOpts, slideOpts, Opts.default] at hp) (fun _ => demo_colloc sc)).1 (fun _ => 1)
    pair_linear x hx
  simpa [linFun, pairModel, Finset.sum_range_succ] using this

/-- C121, quadratic functions: the square of the sum, with Gauss-Legendre. -/
example (N nf : Nat) (hnf : 0 < nf) (y z : ℝ) : ∃ (S : Solver) (orc : Oracle) (L L' : Looper) (R : SimResults),
    Looper.create S [y, z] N none none = .ok L ∧ L.run orc false = (L', .ok true) ∧ L'.getResults = .ok R ∧
    R.xSim.length = N * nf + 1 ∧ ∀ x ∈ R.xSim, (x.getD 0 0 + x.getD 1 0) ^ 2 = (y + z) ^ 2 := by
  obtain ⟨po, m, oc, P, S, L, L', R, h, hS, hL, hon, hc, hrun, hR, hst, hn⟩ :=
    pair_sim .gaussLegendre N nf hnf y z
  refine ⟨S, _, L, L', R, hc, hrun, hR, hn, fun x hx => ?_⟩
  have := (C121_simulation h hS hL hon hc hrun hR hst (by simp [pairOpts, slideOpts, Opts.default]) (fun _ => rfl)
    (fun hp => by simp [pairOpts, slideOpts, Opts.default] at hp) (fun _ => demo_colloc _)).2 rfl gauss_two
    (fun _ _ => 1) (fun _ => 0) pair_quadratic x hx
  simp [quadFun, linFun, pairModel, Finset.sum_range_succ] at this
  simp only [List.getD_eq_getElem?_getD]
  linear_combination this

theorem pair_weights (sc : IrkScheme) (nf : Nat) : ∃ w, SchemeWeights demoColloc (pairOpts sc nf) w := by
  cases sc
  · exact ⟨slideW, (slide_weights 1 nf).nonneg, fun h => absurd rfl h, (slide_weights 1 nf).quad⟩
  · obtain ⟨b, hb⟩ := gauss_two
    refine ⟨fun _ => 1 / 2, fun j _ => by norm_num, fun h => absurd rfl h, fun _ p hp => ?_⟩
    have hp : p.natDegree ≤ 2 := hp
    rw [p.as_sum_range' 3 (by omega)]
    simp [Finset.sum_range_succ, pairOpts, slideOpts, Opts.default, demoColloc]
    ring

/-- C122, linear functions: the first state of the pair does not decrease, with both schemes. -/
example (sc : IrkScheme) (N nf : Nat) (hnf : 0 < nf) (y z : ℝ) : ∃ (S : Solver) (orc : Oracle) (L L' : Looper) (R : SimResults),
    Looper.create S [y, z] N none none = .ok L ∧ L.run orc false = (L', .ok true) ∧ L'.getResults = .ok R ∧
    R.xSim.length = N * nf + 1 ∧ ∀ (n n' : Nat) (x x' : List ℝ), n ≤ n' → R.xSim[n]? = some x →
      R.xSim[n']? = some x' → x.getD 0 0 ≤ x'.getD 0 0 := by
  obtain ⟨po, m, oc, P, S, L, L', R, h, hS, hL, hon, hc, hrun, hR, hst, hn⟩ := pair_sim sc N nf hnf y z
  refine ⟨S, _, L, L', R, hc, hrun, hR, hn, fun n n' x x' hnn hx hx' => ?_⟩
  obtain ⟨w, hw⟩ := pair_weights sc nf
  have := (C122_simulation h hS hL hon hc hrun hR hst (w := w)
    ⟨by simp [SignedMode, pairOpts, slideOpts, Opts.default], fun hp => by simp [pairOpts, slideOpts, Opts.default] at hp,
      hw, fun _ => demo_colloc sc, by norm_num [pairOpts, slideOpts, Opts.default],
      by norm_num [pairOpts, slideOpts, Opts.default], by simp [pairOpts, slideOpts, Opts.default]⟩).1
    (fun i => if i = 0 then -1 else 0) ⟨rfl, fun r hr x z u p v => by
      show ∑ s ∈ Finset.range 1, ∑ row ∈ Finset.range 2, (if row = 0 then (-1 : ℝ) else 0)
        * (pairModel.Fmat s).entry row (r s) x z u p v ≤ 0
      rw [Finset.sum_range_one, Finset.sum_range_succ, Finset.sum_range_one]
      show (if 0 = 0 then (-1 : ℝ) else 0) * ((if 0 = 0 then 1 else -1) * if r 0 = 0 then 1 else 2)
        + (if 1 = 0 then (-1 : ℝ) else 0) * ((if 1 = 0 then 1 else -1) * if r 0 = 0 then 1 else 2) ≤ 0
      by_cases hi : r 0 = 0 <;> simp [hi]⟩ n n' x x' hnn hx hx'
  simp [linFun, pairModel] at this
  exact this

/-- C122, convex functions: one implicit Euler step of the problem with constant switching functions, whose
right-hand sides are not negative; the function `exp (-x)`. -/
example (pss : PssMode) (y σ : ℝ) (hσ : 0 ≤ σ) : ∃ po m oc P env,
    SetupEx oneColloc (constOpts pss) (constModel signMat fun _ => -1) (some UserOcp.trivial) po m oc P ∧
    P.form.Feasible env ∧ po.rbe = true ∧ env (.x0 0) = y ∧ env .sigma = σ ∧
    Real.exp (-(xEndVal po m.dims 0 0 env).getD 0 0) ≤ Real.exp (-(startVal po m.dims 0 0 env).getD 0 0) := by
  obtain ⟨po, m, oc, P, h, hr, hA⟩ := const_setup (pss := pss) (fesd := false) (pol := false) (S := signMat)
    (c := fun _ => -1) (by decide)
  have hf : P.form.Feasible (constEnvP pss signMat (fun _ => -1) 1 y σ 0 fun _ _ _ => 0) :=
    const_feasibleP h hr hA (r := 1) (by decide) (fun i hi => by
      have : i = 0 ∨ i = 1 := by
        have : i < 2 := hi
        omega
      rcases this with rfl | rfl <;> simp [constG, signMat]) hσ (fun hc => Bool.noConfusion hc)
  refine ⟨po, m, oc, P, _, h, hf, hr, rfl, rfl, ?_⟩
  refine C122_convex_element h (w := fun _ => 1) ⟨by simp [SignedMode, constOpts, Opts.default],
      fun _ s hs => ?_, ⟨fun _ _ => zero_le_one, fun _ t ht j hj => ?_, fun hc => IrkRep.noConfusion hc⟩,
      fun hc => IrkRep.noConfusion hc, by norm_num [constOpts, Opts.default], by norm_num [constOpts, Opts.default],
      by simp [constOpts, Opts.default]⟩ hf hr rfl
    (V := fun x => Real.exp (-x.getD 0 0)) (q := fun x _ => -Real.exp (-x.getD 0 0)) ?_ ⟨rfl, ?_⟩ ?_
  · obtain rfl := const_sys hs
    exact ⟨fun i hi k hk => (signMat_dense.1 i hi k hk).imp_right .inr, signMat_partition⟩
  · have h2 : generateButcher (constOpts pss).nS (constOpts pss).scheme = .ok radau1 := rfl
    rw [h2] at ht; cases ht
    obtain rfl : j = 0 := by
      have : j < 1 := hj
      omega
    show (1 : ℝ) = ((1 : ℚ) : ℝ)
    norm_num
  · intro a b _ _
    show Real.exp (-a.getD 0 0) + ∑ i ∈ Finset.range 1, -Real.exp (-a.getD 0 0) * (b.getD i 0 - a.getD i 0)
      ≤ Real.exp (-b.getD 0 0)
    rw [Finset.sum_range_one]
    have h1 := Real.add_one_le_exp (-b.getD 0 0 - -a.getD 0 0)
    rw [Real.exp_sub, le_div_iff₀ (Real.exp_pos _)] at h1
    linarith
  · intro r _ x z u p v
    show ∑ s ∈ Finset.range 1, ∑ _row ∈ Finset.range 1, -Real.exp (-x.getD 0 0) * (r s : ℝ) ≤ 0
    rw [Finset.sum_range_one, Finset.sum_range_one, neg_mul]
    exact neg_nonpos.2 (mul_nonneg (Real.exp_pos _).le (Nat.cast_nonneg _))
  · exact ⟨by rw [h.e_nStages]; exact Nat.one_pos, by
      have := h.e_nfeList
      unfold nfe; rw [this]
      simp [constOpts, Opts.default, Opts.nfeAfter]⟩

/-- C123: simulations of `ẋ = -sign x` from `x = 1/2` over any number of steps, with the default options and
polishing: `x²` does not increase. -/
example (N : Nat) : ∃ (S : Solver) (orc : Oracle) (L L' : Looper) (R : SimResults),
    Looper.create S [1 / 2] N none none = .ok L ∧ L.run orc false = (L', .ok true) ∧ L'.getResults = .ok R ∧
    ∀ (n n' : Nat) (x x' : List ℝ), n ≤ n' → R.xSim[n]? = some x → R.xSim[n']? = some x' →
      x'.getD 0 0 ^ 2 ≤ x.getD 0 0 ^ 2 := by
  obtain ⟨po, m, oc, P, orc, S, L, L', R, h, hS, hon, hc, hrun, hR, hst, -, hsg, hpc, hw, hr⟩ := slide_sim_run N
  have hL : (slideOpts 1 2 true).nfeAfter.length = (slideOpts 1 2 true).nStages := by
    simp [slideOpts, Opts.default, Opts.nfeAfter]
  refine ⟨S, orc, L, L', R, hc, hrun, hR, fun n n' x x' hnn hx hx' => ?_⟩
  obtain ⟨result, calls, sim, -, -⟩ := run_sim h.toSetup hL hS hc hrun hR
  refine C123_simulation (V := fun x => x.getD 0 0 ^ 2) (q := fun x _ => 2 * x.getD 0 0) h hS hL hon hc hrun hR
    (fun s hs => ?_) ⟨rfl, rfl, .inl rfl, .inl rfl, by simp [slideOpts, Opts.default],
      by norm_num [slideOpts, Opts.default], by norm_num [slideOpts, Opts.default]⟩ rfl hsg rfl
    (.inr ⟨hpc, .inl hr, .inl rfl⟩) hw (fun _ => (slide_colloc 1 2 true).1) ⟨?_, ?_⟩ n n' x x' hnn hx hx'
  · obtain ⟨i, hi⟩ := List.mem_iff_getElem?.1 hs
    have hlt : i < N := by
      have := (List.getElem?_eq_some_iff.1 hi).1
      rw [sim.status] at this
      simpa using this
    rw [hst i hlt] at hi
    exact (Option.some.inj hi).symm
  · intro x y _ _
    show x.getD 0 0 ^ 2 + ∑ i ∈ Finset.range 1, 2 * x.getD 0 0 * (y.getD i 0 - x.getD i 0) ≤ y.getD 0 0 ^ 2
    rw [Finset.sum_range_one]
    nlinarith [sq_nonneg (y.getD 0 0 - x.getD 0 0)]
  · rintro x u p v y - ⟨θ, hθ, hy⟩
    obtain ⟨h1, h2, h3⟩ := hθ 0 Nat.one_pos
    show ∑ i ∈ Finset.range 1, 2 * x.getD 0 0 * y i ≤ 0
    rw [Finset.sum_range_one, hy 0 Nat.one_pos]
    have hc2 : (slideModel.Fmat 0).nCols = 2 := rfl
    rw [hc2] at h1 h2 h3
    rw [Finset.sum_range_succ, Finset.sum_range_one] at h2
    show 2 * x.getD 0 0 * ∑ s ∈ Finset.range 1, ∑ i ∈ Finset.range (slideModel.Fmat s).nCols,
      (slideModel.Fmat s).entry 0 i x [] u p v * θ s i ≤ 0
    rw [Finset.sum_range_one, hc2, Finset.sum_range_succ, Finset.sum_range_one]
    show 2 * x.getD 0 0 * ((if 0 = 0 then -1 else 1) * θ 0 0 + (if 1 = 0 then -1 else 1) * θ 0 1) ≤ 0
    have a0 := h1 0 (by omega)
    have a1 := h1 1 (by omega)
    have b0 : θ 0 0 ≠ 0 → 0 ≤ x.getD 0 0 := fun hne => by
      have := h3 0 (by omega) hne 0 (by decide)
      simpa [UserModel.Smat, UserModel.cVec, slideModel, signMat] using this
    have b1 : θ 0 1 ≠ 0 → x.getD 0 0 ≤ 0 := fun hne => by
      have := h3 1 (by omega) hne 0 (by decide)
      simpa [UserModel.Smat, UserModel.cVec, slideModel, signMat] using this
    norm_num
    have c0 : 0 ≤ x.getD 0 0 * θ 0 0 := by
      by_cases hz : θ 0 0 = 0
      · rw [hz, mul_zero]
      · exact mul_nonneg (b0 hz) a0
    have c1 : x.getD 0 0 * θ 0 1 ≤ 0 := by
      by_cases hz : θ 0 1 = 0
      · rw [hz, mul_zero]
      · exact mul_nonpos_of_nonpos_of_nonneg (b1 hz) a1
    simp only [List.getD_eq_getElem?_getD] at c0 c1 ⊢
    nlinarith

end Nosnoc
