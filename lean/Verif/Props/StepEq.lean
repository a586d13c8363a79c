import Verif.Spec.StepEq
import Verif.Props.Mpcc
import Verif.Props.Cross
import Verif.Proofs.Cost
import Verif.Witness.Flex
/-
C39-C42: step equilibration.
-/
namespace Nosnoc
open Finset

section
variable {colloc : IrkScheme → Nat → List ℝ} {o : Opts} {um : UserModel} {uo : Option UserOcp}
  {po : PreOpts} {m : PreModel} {oc : PreOcp} {P : Problem} {env : Env} {d : Dims}

theorem nominalH_div (k : Nat) : nominalH po k = po.terminalTime / (po.nStages * nfe po k) := by
  unfold nominalH; rw [div_div]

theorem nuOf_eq_zero (k e : Nat) : nuOf po d k e env = 0 ↔ Switches po d k e env := by
  unfold nuOf Switches
  rw [List.prod_eq_zero_iff]
  simp only [List.mem_map, mem_pairList]
  rfl

/-- The part of the objective that is not step equilibration. -/
noncomputable def costRest (po : PreOpts) (d : Dims) (uo : UserOcp) (env : Env) : ℝ :=
  runningCost po d uo env + terminalCost po d uo env

/-! ### C39 -/

/-- C39: what HEURISTIC_MEAN adds to the objective. -/
theorem C39_mean_cost (h : SetupEx colloc o um uo po m oc P) (hu : o.useFesd = true)
    (hs : o.stepEq = .heuristicMean)
    (he : o.mpcc ≠ .elasticIneq ∧ o.mpcc ≠ .elasticEq ∧ o.mpcc ≠ .elasticTwoSided) :
    P.form.cost env = costRest po m.dims (uo.getD UserOcp.trivial) env
      + ∑ k ∈ range po.nStages, ∑ e ∈ range (nfe po k),
          o.rhoH * (hVal po k e env - po.terminalTime / (po.nStages * nfe po k)) ^ 2 := by
  rw [h.toSetup.built.cost h.exact']
  unfold objectiveSpec plainObjective costRest stepCosts
  rw [if_neg (by rw [h.e_mpcc]; tauto)]
  have : ∀ k e, stepCost po m.dims k e env
      = o.rhoH * (hVal po k e env - po.terminalTime / (po.nStages * nfe po k)) ^ 2 := by
    intro k e
    unfold stepCost
    rw [if_pos (by rw [h.e_useFesd]; exact hu), h.e_stepEq, hs, ← nominalH_div, h.e_rhoH]
  simp only [this]
  ring

/-- C39: that penalty is nonnegative, and zero iff all steps have their nominal length. -/
theorem C39_mean_zero {ρ : ℝ} (hρ : 0 < ρ) :
    0 ≤ ∑ k ∈ range po.nStages, ∑ e ∈ range (nfe po k),
      ρ * (hVal po k e env - po.terminalTime / (po.nStages * nfe po k)) ^ 2 ∧
    (∑ k ∈ range po.nStages, ∑ e ∈ range (nfe po k),
      ρ * (hVal po k e env - po.terminalTime / (po.nStages * nfe po k)) ^ 2 = 0
      ↔ NominalSteps po env) := by
  have h0 : ∀ k e, 0 ≤ ρ * (hVal po k e env - po.terminalTime / (po.nStages * nfe po k)) ^ 2 :=
    fun k e => mul_nonneg hρ.le (sq_nonneg _)
  refine ⟨sum_nonneg fun k _ => sum_nonneg fun e _ => h0 k e, ?_⟩
  rw [sum_eq_zero_iff_of_nonneg fun k _ => sum_nonneg fun e _ => h0 k e]
  constructor
  · intro H k e hk
    have := (sum_eq_zero_iff_of_nonneg fun e _ => h0 k e).1 (H k (mem_range.2 hk.1)) e
      (mem_range.2 hk.2)
    rcases mul_eq_zero.1 this with h1 | h1
    · exact absurd h1 hρ.ne'
    · exact sub_eq_zero.1 (pow_eq_zero_iff (two_ne_zero) |>.1 h1)
  · intro H k hk
    refine sum_eq_zero fun e he => ?_
    rw [H k e ⟨mem_range.1 hk, mem_range.1 he⟩]
    simp

/-- C39: what HEURISTIC_DELTA adds to the objective. -/
theorem C39_delta_cost (h : SetupEx colloc o um uo po m oc P) (hu : o.useFesd = true)
    (hs : o.stepEq = .heuristicDelta)
    (he : o.mpcc ≠ .elasticIneq ∧ o.mpcc ≠ .elasticEq ∧ o.mpcc ≠ .elasticTwoSided) :
    P.form.cost env = costRest po m.dims (uo.getD UserOcp.trivial) env
      + ∑ k ∈ range po.nStages, ∑ e ∈ range (nfe po k - 1),
          o.rhoH * (hVal po k (e + 1) env - hVal po k e env) ^ 2 := by
  rw [h.toSetup.built.cost h.exact']
  unfold objectiveSpec plainObjective costRest stepCosts
  rw [if_neg (by rw [h.e_mpcc]; tauto)]
  have key : ∀ k ∈ range po.nStages, ∑ e ∈ range (nfe po k), stepCost po m.dims k e env
      = ∑ e ∈ range (nfe po k - 1), o.rhoH * (hVal po k (e + 1) env - hVal po k e env) ^ 2 := by
    intro k hk
    have hpos := h.toSetup.nfe_pos k (mem_range.1 hk)
    obtain ⟨n, hn⟩ : ∃ n, nfe po k = n + 1 := ⟨nfe po k - 1, by omega⟩
    rw [hn, sum_range_succ']
    have c : ∀ e, stepCost po m.dims k e env
        = if e = 0 then 0 else o.rhoH * (hVal po k e env - hVal po k (e - 1) env) ^ 2 := by
      intro e
      unfold stepCost
      rw [if_pos (by rw [h.e_useFesd]; exact hu), h.e_stepEq, hs, h.e_rhoH]
      rfl
    simp [c]
  rw [sum_congr rfl key]
  ring

/-- C39: that penalty is nonnegative, and zero iff the steps of each control stage are equal. -/
theorem C39_delta_zero {ρ : ℝ} (hρ : 0 < ρ) :
    0 ≤ ∑ k ∈ range po.nStages, ∑ e ∈ range (nfe po k - 1),
      ρ * (hVal po k (e + 1) env - hVal po k e env) ^ 2 ∧
    (∑ k ∈ range po.nStages, ∑ e ∈ range (nfe po k - 1),
      ρ * (hVal po k (e + 1) env - hVal po k e env) ^ 2 = 0 ↔ UniformSteps po env) := by
  have h0 : ∀ k e, 0 ≤ ρ * (hVal po k (e + 1) env - hVal po k e env) ^ 2 :=
    fun k e => mul_nonneg hρ.le (sq_nonneg _)
  refine ⟨sum_nonneg fun k _ => sum_nonneg fun e _ => h0 k e, ?_⟩
  rw [sum_eq_zero_iff_of_nonneg fun k _ => sum_nonneg fun e _ => h0 k e]
  constructor
  · intro H
    have step : ∀ k e, k < po.nStages → e + 1 < nfe po k →
        hVal po k (e + 1) env = hVal po k e env := by
      intro k e hk he
      have := (sum_eq_zero_iff_of_nonneg fun e _ => h0 k e).1 (H k (mem_range.2 hk)) e
        (mem_range.2 (by omega))
      rcases mul_eq_zero.1 this with h1 | h1
      · exact absurd h1 hρ.ne'
      · exact sub_eq_zero.1 (pow_eq_zero_iff (two_ne_zero) |>.1 h1)
    have all : ∀ k e, HasFE po k e → hVal po k e env = hVal po k 0 env := by
      intro k e hk
      induction e with
      | zero => rfl
      | succ e ih =>
        rw [step k e hk.1 hk.2]
        exact ih ⟨hk.1, by have := hk.2; omega⟩
    intro k e e' hk hk'
    rw [all k e hk, all k e' hk']
  · intro H k hk
    refine sum_eq_zero fun e he => ?_
    have he' := mem_range.1 he
    rw [H k (e + 1) e ⟨mem_range.1 hk, by omega⟩ ⟨mem_range.1 hk, by omega⟩]
    simp

/-! ### C40 -/

/-- C40: with DIRECT step equilibration, at every feasible point neighbouring steps of a control stage
are equal unless a switching indicator vanishes. -/
theorem C40_direct (h : SetupEx colloc o um uo po m oc P) (hf : P.form.Feasible env)
    (hu : o.useFesd = true) (hs : o.stepEq = .direct) {k e : Nat} (hk : HasFE po k e) (he : 0 < e) :
    hVal po k e env = hVal po k (e - 1) env ∨ Switches po m.dims k e env := by
  have := (h.spec hf).stepDirect (by rw [h.e_useFesd]; exact hu) (by rw [h.e_stepEq]; exact hs) k e hk he
  rcases mul_eq_zero.1 this with h1 | h1
  · exact .inr ((nuOf_eq_zero k e).1 h1)
  · exact .inl (sub_eq_zero.1 h1)

/-- All multipliers and coefficients of the problem are nonnegative. -/
def AllNonneg (po : PreOpts) (d : Dims) (env : Env) : Prop :=
  ∀ q, IsPair po d q → ∀ k e, HasFE po k e →
    (∀ j < nLamPts po k e, 0 ≤ lamAt k e j env q) ∧ (∀ j < po.nS, 0 ≤ thetaAt k e j env q) ∧
    0 ≤ lamStart po k e env q

theorem sumLam_nonneg (hn : AllNonneg po d env) {q : Pair} (hq : IsPair po d q) {k e : Nat}
    (hk : HasFE po k e) : 0 ≤ sumLam po k e env q := by
  unfold sumLam
  refine add_nonneg (List.sum_nonneg ?_) (hn q hq k e hk).2.2
  intro x hx
  obtain ⟨j, hj, rfl⟩ := List.mem_map.1 hx
  exact (hn q hq k e hk).1 j (List.mem_range.1 hj)

theorem sumTheta_nonneg (hn : AllNonneg po d env) {q : Pair} (hq : IsPair po d q) {k e : Nat}
    (hk : HasFE po k e) : 0 ≤ sumTheta po k e env q := by
  unfold sumTheta
  refine List.sum_nonneg ?_
  intro x hx
  obtain ⟨j, hj, rfl⟩ := List.mem_map.1 hx
  exact (hn q hq k e hk).2.1 j (List.mem_range.1 hj)

theorem sumTheta_zero (hn : AllNonneg po d env) {q : Pair} (hq : IsPair po d q) {k e : Nat}
    (hk : HasFE po k e) (h : sumTheta po k e env q = 0) : ∀ j < po.nS, thetaAt k e j env q = 0 := by
  intro j hj
  refine le_antisymm ?_ ((hn q hq k e hk).2.1 j hj)
  rw [← h]
  refine List.single_le_sum ?_ _ (List.mem_map.2 ⟨j, List.mem_range.2 hj, rfl⟩)
  intro x hx
  obtain ⟨j', hj', rfl⟩ := List.mem_map.1 hx
  exact (hn q hq k e hk).2.1 j' (List.mem_range.1 hj')

theorem sumLam_zero (hn : AllNonneg po d env) {q : Pair} (hq : IsPair po d q) {k e : Nat}
    (hk : HasFE po k e) (h : sumLam po k e env q = 0) :
    (∀ j < nLamPts po k e, lamAt k e j env q = 0) ∧ lamStart po k e env q = 0 := by
  have h1 : 0 ≤ ((List.range (nLamPts po k e)).map fun j => lamAt k e j env q).sum := by
    refine List.sum_nonneg ?_
    intro x hx
    obtain ⟨j, hj, rfl⟩ := List.mem_map.1 hx
    exact (hn q hq k e hk).1 j (List.mem_range.1 hj)
  have h2 := (hn q hq k e hk).2.2
  unfold sumLam at h
  refine ⟨fun j hj => ?_, by linarith⟩
  refine le_antisymm ?_ ((hn q hq k e hk).1 j hj)
  have : lamAt k e j env q ≤ ((List.range (nLamPts po k e)).map fun j => lamAt k e j env q).sum := by
    refine List.single_le_sum ?_ _ (List.mem_map.2 ⟨j, List.mem_range.2 hj, rfl⟩)
    intro x hx
    obtain ⟨j', hj', rfl⟩ := List.mem_map.1 hx
    exact (hn q hq k e hk).1 j' (List.mem_range.1 hj')
  linarith

/-- C40: what a vanishing indicator means for nonnegative multipliers: in one of the two elements all
multipliers of the pair vanish, and in one of them all its coefficients vanish. -/
theorem C40_indicator (hn : AllNonneg po d env) {k e : Nat} (hk : HasFE po k e)
    {q : Pair} (hq : IsPair po d q) (h0 : indicator po k e env q = 0) :
    ((∀ j < nLamPts po k (e - 1), lamAt k (e - 1) j env q = 0) ∨
      ∀ j < nLamPts po k e, lamAt k e j env q = 0) ∧
    ((∀ j < po.nS, thetaAt k (e - 1) j env q = 0) ∨ ∀ j < po.nS, thetaAt k e j env q = 0) := by
  have hk' : HasFE po k (e - 1) := ⟨hk.1, by have := hk.2; omega⟩
  have a1 := sumLam_nonneg hn hq hk
  have a2 := sumLam_nonneg hn hq hk'
  have b1 := sumTheta_nonneg hn hq hk
  have b2 := sumTheta_nonneg hn hq hk'
  unfold indicator at h0
  have m1 := mul_nonneg a2 a1
  have m2 := mul_nonneg b2 b1
  have z1 : sumLam po k (e - 1) env q * sumLam po k e env q = 0 := by linarith
  have z2 : sumTheta po k (e - 1) env q * sumTheta po k e env q = 0 := by linarith
  refine ⟨?_, ?_⟩
  · rcases mul_eq_zero.1 z1 with h1 | h1
    · exact .inl (sumLam_zero hn hq hk' h1).1
    · exact .inr (sumLam_zero hn hq hk h1).1
  · rcases mul_eq_zero.1 z2 with h1 | h1
    · exact .inl (sumTheta_zero hn hq hk' h1)
    · exact .inr (sumTheta_zero hn hq hk h1)

/-! ### C41 -/

/-- C41: with DIRECT_COMPLEMENTARITY, at `σ = 0` and slack 0 steps only change where an indicator
vanishes, for the modes that constrain products from both sides.  For SCHOLTES_INEQ and ELASTIC_INEQ
this is false (`C41_direct_complementarity_violated`). -/
theorem C41_direct_complementarity_partial (h : SetupEx colloc o um uo po m oc P)
    (hf : P.form.Feasible env) (hu : o.useFesd = true) (hs : o.stepEq = .directComplementarity)
    (hm : o.mpcc ≠ .scholtesIneq ∧ o.mpcc ≠ .elasticIneq ∧ o.mpcc ≠ .boolean)
    (hσ : env .sigma = 0) (hel : env .sElastic = 0) {k e : Nat} (hk : HasFE po k e) (he : 0 < e) :
    hVal po k e env = hVal po k (e - 1) env ∨ Switches po m.dims k e env := by
  have hc := (h.spec hf).stepDirectComp (by rw [h.e_useFesd]; exact hu)
    (by rw [h.e_stepEq]; exact hs) k e hk he
  have : nuOf po m.dims k e env * (hVal po k e env - hVal po k (e - 1) env) = 0 := by
    unfold Compl at hc
    rw [hσ, hel] at hc
    have hmp := h.e_mpcc
    cases hmode : o.mpcc with
    | scholtesIneq => exact absurd hmode hm.1
    | elasticIneq => exact absurd hmode hm.2.1
    | boolean => exact absurd hmode hm.2.2
    | fischerBurmeister =>
      exact (C31_fischer_burmeister_pair (.inl (hmp.trans hmode)) hc).2.2
    | fischerBurmeisterIpAug =>
      exact (C31_fischer_burmeister_pair (.inr (hmp.trans hmode)) hc).2.2
    | _ =>
      unfold CompSat at hc
      simp only [hmp, hmode] at hc
      simp only [List.sum_singleton] at hc
      first | exact hc | (obtain ⟨h1, h2⟩ := hc; linarith)
  rcases mul_eq_zero.1 this with h1 | h1
  · exact .inr ((nuOf_eq_zero k e).1 h1)
  · exact .inl (sub_eq_zero.1 h1)

/-- C41: with HEURISTIC_DELTA_H_COMP the constraint does not mention the step lengths at all in the
product modes, and at best makes the steps non-decreasing (Fischer-Burmeister). -/
theorem C41_h_comp_meaning (h : SetupEx colloc o um uo po m oc P) (hf : P.form.Feasible env)
    (hu : o.useFesd = true) (hs : o.stepEq = .heuristicDeltaHComp)
    (hm : o.mpcc = .fischerBurmeister) (hσ : env .sigma = 0) {k e : Nat} (hk : HasFE po k e)
    (he : 0 < e) : hVal po k (e - 1) env ≤ hVal po k e env := by
  have hc := (h.spec hf).stepHComp (by rw [h.e_useFesd]; exact hu)
    (by rw [h.e_stepEq]; exact hs) k e hk he
  unfold Compl at hc
  rw [hσ] at hc
  have := (C31_fischer_burmeister_pair (.inl (h.e_mpcc.trans hm)) hc).2.1
  linarith

/-- C41 fails for HEURISTIC_DELTA_H_COMP with SCHOLTES_EQ: as long as `σ > 0` a problem with a control
stage of at least two elements has no feasible point at all. -/
theorem C41_h_comp_infeasible_violated (h : SetupEx colloc o um uo po m oc P)
    (hu : o.useFesd = true) (hs : o.stepEq = .heuristicDeltaHComp)
    (hm : o.mpcc = .scholtesEq) (hσ : 0 < env .sigma) {k e : Nat} (hk : HasFE po k e) (he : 0 < e) :
    ¬ P.form.Feasible env := by
  intro hf
  have hc := (h.spec hf).stepHComp (by rw [h.e_useFesd]; exact hu)
    (by rw [h.e_stepEq]; exact hs) k e hk he
  unfold Compl CompSat at hc
  simp only [h.e_mpcc, hm] at hc
  simp at hc
  linarith

/-! ### C42 -/

/-- C42: what L2_RELAXED and L2_RELAXED_SCALED add to the objective. -/
theorem C42_cost (h : SetupEx colloc o um uo po m oc P) (hu : o.useFesd = true)
    (hs : o.stepEq = .l2Relaxed ∨ o.stepEq = .l2RelaxedScaled)
    (he : o.mpcc ≠ .elasticIneq ∧ o.mpcc ≠ .elasticEq ∧ o.mpcc ≠ .elasticTwoSided) :
    P.form.cost env = costRest po m.dims (uo.getD UserOcp.trivial) env
      + ∑ k ∈ range po.nStages, ∑ e ∈ range (nfe po k - 1),
          o.rhoH * (if o.stepEq = .l2Relaxed then
              ((pairList po m.dims).map (indicator po k (e + 1) env)).prod
            else Real.tanh (((pairList po m.dims).map (indicator po k (e + 1) env)).prod
              / o.stepEqSigma))
            * (hVal po k (e + 1) env - hVal po k e env) ^ 2 := by
  rw [h.toSetup.built.cost h.exact']
  unfold objectiveSpec plainObjective costRest stepCosts
  rw [if_neg (by rw [h.e_mpcc]; tauto)]
  have key : ∀ k ∈ range po.nStages, ∑ e ∈ range (nfe po k), stepCost po m.dims k e env
      = ∑ e ∈ range (nfe po k - 1), o.rhoH * (if o.stepEq = .l2Relaxed then
              ((pairList po m.dims).map (indicator po k (e + 1) env)).prod
            else Real.tanh (((pairList po m.dims).map (indicator po k (e + 1) env)).prod
              / o.stepEqSigma)) * (hVal po k (e + 1) env - hVal po k e env) ^ 2 := by
    intro k hk
    have hpos := h.toSetup.nfe_pos k (mem_range.1 hk)
    obtain ⟨n, hn⟩ : ∃ n, nfe po k = n + 1 := ⟨nfe po k - 1, by omega⟩
    rw [hn, sum_range_succ']
    have z : stepCost po m.dims k 0 env = 0 := by
      unfold stepCost
      rw [if_pos (by rw [h.e_useFesd]; exact hu), h.e_stepEq]
      rcases hs with hs | hs <;> rw [hs] <;> simp
    rw [z, add_zero]
    refine sum_congr rfl fun e _ => ?_
    have hnu : nuOf po m.dims k (e + 1) env
      = ((pairList po m.dims).map (indicator po k (e + 1) env)).prod := rfl
    unfold stepCost
    rw [if_pos (by rw [h.e_useFesd]; exact hu), h.e_stepEq, h.e_rhoH, h.e_stepEqSigma]
    rcases hs with hs | hs <;> rw [hs]
    · simp only [Nat.succ_ne_zero, if_false, if_true, stepDiff, Nat.add_sub_cancel, hnu]
    · simp only [Nat.succ_ne_zero, reduceCtorEq, if_false, stepDiff, Nat.add_sub_cancel, hnu]
  rw [sum_congr rfl key]
  ring

/-- C42: each such term is nonnegative for nonnegative multipliers. -/
theorem C42_nonneg (hn : AllNonneg po d env) {ρ s dh : ℝ} (hρ : 0 ≤ ρ) (hs : 0 < s) {k e : Nat}
    (hk : HasFE po k e) :
    0 ≤ ρ * ((pairList po d).map (indicator po k e env)).prod * dh ^ 2 ∧
    0 ≤ ρ * Real.tanh (((pairList po d).map (indicator po k e env)).prod / s) * dh ^ 2 := by
  have hk' : HasFE po k (e - 1) := ⟨hk.1, by have := hk.2; omega⟩
  have hp : 0 ≤ ((pairList po d).map (indicator po k e env)).prod := by
    refine List.prod_nonneg ?_
    intro x hx
    obtain ⟨q, hq, rfl⟩ := List.mem_map.1 hx
    have hq := mem_pairList.1 hq
    exact add_nonneg (mul_nonneg (sumLam_nonneg hn hq hk') (sumLam_nonneg hn hq hk))
      (mul_nonneg (sumTheta_nonneg hn hq hk') (sumTheta_nonneg hn hq hk))
  refine ⟨mul_nonneg (mul_nonneg hρ hp) (sq_nonneg _), mul_nonneg (mul_nonneg hρ ?_) (sq_nonneg _)⟩
  rw [Real.tanh_eq_sinh_div_cosh]
  exact div_nonneg (Real.sinh_nonneg_iff.2 (div_nonneg hp hs.le)) (Real.cosh_pos _).le

/-- C42: the term vanishes where an indicator vanishes or the steps are equal, and only there (for
`ρ`, `s` positive). -/
theorem C42_zero {ρ s dh : ℝ} (hρ : 0 < ρ) (hs : 0 < s) {k e : Nat} :
    (ρ * ((pairList po d).map (indicator po k e env)).prod * dh ^ 2 = 0
      ↔ Switches po d k e env ∨ dh = 0) ∧
    (ρ * Real.tanh (((pairList po d).map (indicator po k e env)).prod / s) * dh ^ 2 = 0
      ↔ Switches po d k e env ∨ dh = 0) := by
  have hnu : ((pairList po d).map (indicator po k e env)).prod = 0 ↔ Switches po d k e env :=
    nuOf_eq_zero k e
  have ht : ∀ x : ℝ, Real.tanh x = 0 ↔ x = 0 := by
    intro x
    rw [Real.tanh_eq_sinh_div_cosh, div_eq_zero_iff, Real.sinh_eq_zero]
    simp [(Real.cosh_pos x).ne']
  constructor
  · rw [mul_eq_zero, mul_eq_zero, hnu]
    simp [hρ.ne']
  · rw [mul_eq_zero, mul_eq_zero, ht, div_eq_zero_iff, hnu]
    simp [hρ.ne', hs.ne']

end

/-! ### Witnesses -/

/-- Options: FESD, Radau with one stage, two elements, the given step equilibration and MPCC mode. -/
noncomputable def stepOpts (s : StepEqMode) : Opts :=
  { Opts.default with irkRep := .differential, nS := 1, stepEq := s }

theorem stepOpts_setup (s : StepEqMode) : ∃ po m oc P,
    SetupEx oneColloc (stepOpts s) flexModel (some UserOcp.trivial) po m oc P ∧ m.dims = flexDims := by
  refine flex_setup ?_ ?_ (by simp [UserOcp.trivial]) trivial_pre
  · constructor <;> simp [stepOpts, Opts.default, Opts.nfeAfter]
  · exact flex_preOpts (by simp [stepOpts, Opts.default]) (.inr ⟨radau1, rfl, by simp [radau1]⟩)

/-- No indicator vanishes at the stationary point. -/
theorem still_indicator {po : PreOpts} {h : Nat → Nat → ℝ} {u : Nat → ℝ} {v σ : ℝ} (hS : po.nS = 1)
    (hp : po.pss = .stewart) (k e : Nat) {q : Pair} (hq : IsPair po flexDims q) :
    indicator po k e (stillPt h u v σ).env q = 1 / 4 := by
  unfold indicator sumLam sumTheta
  simp only [still_lamAt, still_lamStart, hS]
  cases q with
  | neg s i => exact absurd (hp.symm.trans hq.1) (by decide)
  | pos s i => exact absurd (hp.symm.trans hq.1) (by decide)
  | region s i =>
    simp [List.range_succ, thetaAt, FlexPt.env, stillPt]
    norm_num

theorem still_noSwitch {po : PreOpts} {h : Nat → Nat → ℝ} {u : Nat → ℝ} {v σ : ℝ} (hS : po.nS = 1)
    (hp : po.pss = .stewart) (k e : Nat) : ¬ Switches po flexDims k e (stillPt h u v σ).env := by
  rintro ⟨q, hq, h0⟩
  rw [still_indicator hS hp k e hq] at h0
  norm_num at h0

theorem still_nu_pos {po : PreOpts} {h : Nat → Nat → ℝ} {u : Nat → ℝ} {v σ : ℝ} (hS : po.nS = 1)
    (hp : po.pss = .stewart) (k e : Nat) : 0 < nuOf po flexDims k e (stillPt h u v σ).env := by
  have : nuOf po flexDims k e (stillPt h u v σ).env
      = ((pairList po flexDims).map (indicator po k e (stillPt h u v σ).env)).prod := rfl
  rw [this]
  refine List.prod_pos ?_
  intro x hx
  obtain ⟨q, hq, rfl⟩ := List.mem_map.1 hx
  rw [still_indicator hS hp k e (mem_pairList.1 hq)]
  norm_num

/-- The stationary point with steps `a`, `1 - a` is feasible at `σ = 0` in every step equilibration
mode that does not forbid it. -/
theorem stepOpts_feasible {s : StepEqMode} {po m oc P}
    (h : SetupEx oneColloc (stepOpts s) flexModel (some UserOcp.trivial) po m oc P)
    (hd : m.dims = flexDims) {a : ℝ} (ha : 0 ≤ a ∧ a ≤ 1)
    (hs : s = .direct → a = 1 / 2) (hs' : s = .directComplementarity → 1 / 2 ≤ a) :
    P.form.Feasible (stillPt (fun _ e => if e = 0 then a else 1 - a) (fun _ => 0) 0 0).env := by
  have e2 : po.nStages = 1 := h.e_nStages
  have e4 : po.pss = .stewart := h.e_pss
  have e5 : po.nfeList = [2] := h.e_nfeList
  have e6 : po.nS = 1 := h.e_nS
  have e7 : po.terminalTime = 1 := h.e_terminalTime
  have e8 : po.sot = .none := h.e_sot
  have e9 : po.mpcc = .scholtesIneq := h.e_mpcc
  have e11 : po.timeFreezing = false := h.e_timeFreezing
  have e13 : po.stepEq = s := h.e_stepEq
  have e14 : po.gammaH = 1 := h.e_gammaH
  have e15 : po.equidistant = true := h.e_equidistant
  have e16 : po.sElasticMin = 0 := h.e_sElasticMin
  have e17 : po.sElasticMax = 10 := h.e_sElasticMax
  have hFE : ∀ k e, HasFE po k e → 0 < e → k = 0 ∧ e = 1 := by
    intro k e hk he
    have h1 : k = 0 := by have := hk.1; omega
    subst h1
    have := hk.2
    simp [nfe, e5] at this
    exact ⟨rfl, by omega⟩
  rw [h.iff (by simp [stepOpts, Opts.default]), hd]
  show FeasibleSpec po flexDims flexModel UserOcp.trivial _
  refine still_spec e4 e8 e11 e9 le_rfl rfl rfl rfl rfl rfl rfl (by rw [e16, e17]; norm_num) ?_ ?_
    ?_ ?_ ?_ ?_ ?_ ?_ ?_ ?_
  · intro _ k e hk
    have hk0 : k = 0 := by have := hk.1; omega
    subst hk0
    simp only [nominalH, e14, e7, e2, nfe, e5]
    constructor
    · split <;> norm_num <;> linarith
    · split <;> norm_num <;> linarith
  · intro k i hi; simp [UserOcp.trivial] at hi
  · intro k _ r hr; simp [stageComps, UserOcp.trivial] at hr
  · intro k e _ _ r hr; simp [ctrlComps, UserOcp.trivial] at hr
  · intro r hr; simp [globComps, UserOcp.trivial] at hr
  · intro _ hc k e hk he
    obtain ⟨rfl, rfl⟩ := hFE k e hk he
    rw [hs (e13.symm.trans hc)]
    norm_num
  · intro _ hc k e hk he
    obtain ⟨rfl, rfl⟩ := hFE k e hk he
    have h1 := (still_nu_pos (h := fun _ e => if e = 0 then a else 1 - a) (u := fun _ => 0) (v := 0)
      (σ := 0) e6 e4 0 1).le
    refine mul_nonpos_of_nonneg_of_nonpos h1 ?_
    have := hs' (e13.symm.trans hc)
    norm_num
    linarith
  · intro _ _ k hk
    have hk0 : k = 0 := by omega
    subst hk0
    simp [nfe, e5, e2, e7, sum_range_succ]
  · intro hc; omega
  · intro i hi; simp [UserOcp.trivial] at hi

/-- C41 fails for DIRECT_COMPLEMENTARITY with SCHOLTES_INEQ: at `σ = 0` a feasible point with steps
3/4 and 1/4 at which no indicator vanishes. -/
theorem C41_direct_complementarity_violated : ∃ po m oc P env,
    SetupEx oneColloc (stepOpts .directComplementarity) flexModel (some UserOcp.trivial) po m oc P ∧
    P.form.Feasible env ∧ env .sigma = 0 ∧ env .sElastic = 0 ∧ HasFE po 0 1 ∧
    hVal po 0 1 env ≠ hVal po 0 0 env ∧ ¬ Switches po m.dims 0 1 env := by
  obtain ⟨po, m, oc, P, h, hd⟩ := stepOpts_setup .directComplementarity
  refine ⟨po, m, oc, P, _, h, stepOpts_feasible h hd (a := 3 / 4) (by norm_num) (by simp)
    (by norm_num), rfl, rfl, ⟨?_, ?_⟩, ?_, ?_⟩
  · have : po.nStages = 1 := h.e_nStages
    omega
  · have e5 : po.nfeList = [2] := h.e_nfeList
    simp [nfe, e5]
  · have e3 : po.useFesd = true := h.e_useFesd
    simp only [hVal, e3, if_true, var]
    show (1 - 3 / 4 : ℝ) ≠ 3 / 4
    norm_num
  · rw [hd]
    exact still_noSwitch h.e_nS h.e_pss 0 1

/-- C41 fails for HEURISTIC_DELTA_H_COMP with SCHOLTES_INEQ: steps 3/4 and 1/4 are feasible. -/
theorem C41_h_comp_vacuous_violated : ∃ po m oc P env,
    SetupEx oneColloc (stepOpts .heuristicDeltaHComp) flexModel (some UserOcp.trivial) po m oc P ∧
    P.form.Feasible env ∧ env .sigma = 0 ∧ HasFE po 0 1 ∧
    hVal po 0 1 env ≠ hVal po 0 0 env := by
  obtain ⟨po, m, oc, P, h, hd⟩ := stepOpts_setup .heuristicDeltaHComp
  refine ⟨po, m, oc, P, _, h, stepOpts_feasible h hd (a := 3 / 4) (by norm_num) (by simp)
    (by norm_num), rfl, ⟨?_, ?_⟩, ?_⟩
  · have : po.nStages = 1 := h.e_nStages
    omega
  · have e5 : po.nfeList = [2] := h.e_nfeList
    simp [nfe, e5]
  · have e3 : po.useFesd = true := h.e_useFesd
    simp only [hVal, e3, if_true, var]
    show (1 - 3 / 4 : ℝ) ≠ 3 / 4
    norm_num

/-- The hypotheses of C39, C40 and C42 are met: feasible points in the modes DIRECT, HEURISTIC_MEAN and
L2_RELAXED. -/
example : ∀ s ∈ [StepEqMode.direct, .heuristicMean, .heuristicDelta, .l2Relaxed, .l2RelaxedScaled],
    ∃ po m oc P env,
    SetupEx oneColloc (stepOpts s) flexModel (some UserOcp.trivial) po m oc P ∧
    P.form.Feasible env ∧ HasFE po 0 1 := by
  intro s _
  obtain ⟨po, m, oc, P, h, hd⟩ := stepOpts_setup s
  refine ⟨po, m, oc, P, _, h, stepOpts_feasible h hd (a := 1 / 2) (by norm_num) (by simp) (by norm_num),
    ⟨?_, ?_⟩⟩
  · have : po.nStages = 1 := h.e_nStages
    omega
  · have e5 : po.nfeList = [2] := h.e_nfeList
    simp [nfe, e5]

end Nosnoc
