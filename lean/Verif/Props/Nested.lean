import Verif.Proofs.SigmaShift
import Verif.Props.Discretised
import Verif.Props.Objective
import Verif.Props.Complete
import Verif.Witness.Corner
/-
C96: the relaxed problems of the homotopy are nested.
-/
namespace Nosnoc
open Finset
section
variable {colloc : IrkScheme → Nat → List ℝ} {o : Opts} {um : UserModel} {uo : Option UserOcp}
  {po : PreOpts} {m : PreModel} {oc : PreOcp} {P : Problem} {env : Env} {σ τ : ℝ}

/-- C96, the modes that bound the products from above: a point that is feasible for some `σ` stays
feasible for every larger `σ` (elastic modes: for every `σ`).  In particular an exact solution is feasible
in every iteration of the homotopy. -/
theorem C96_nested_partial (h : SetupEx colloc o um uo po m oc P) (hm : o.RelaxesByInequality)
    (hσ : o.mpcc = .scholtesIneq → env .sigma ≤ σ) (hf : P.form.Feasible env) :
    P.form.Feasible (withSigma env σ τ) := by
  have hb : o.mpcc ≠ .boolean := by rcases hm with h | h | h | h <;> rw [h] <;> decide
  have e : po.toOpts.mpcc = o.mpcc := h.e_mpcc
  rw [h.iff hb] at hf ⊢
  refine hf.sigma fun xs y hc => ?_
  unfold Compl CompSat at hc ⊢
  rw [e] at hc ⊢
  rcases hm with h | h | h | h
  · rw [h] at hc ⊢
    exact hc.trans (hσ h)
  all_goals rw [h] at hc ⊢; exact hc

/-- C96, BOOLEAN: the homotopy parameter has no influence (the binary variables can be chosen). -/
theorem C96_boolean_partial (h : SetupEx colloc o um uo po m oc P) (hm : o.mpcc = .boolean)
    (hf : P.form.Feasible env) :
    ∃ env', (∀ s, ¬ IsBoolSym s → env' s = withSigma env σ τ s) ∧ P.form.Feasible env' := by
  rw [C83_feasible_iff_boolean h hm]
  refine ((C83_feasible_iff_boolean h hm).1 ⟨env, fun _ _ => rfl, hf⟩).sigma fun xs y hc => ?_
  have e : po.toOpts.mpcc = o.mpcc := h.e_mpcc
  unfold Compl CompSat at hc ⊢
  rw [e, hm] at hc ⊢
  exact hc

theorem withSigma_plain {d : Dims} {uo : UserOcp} :
    plainObjective po d uo (withSigma env σ τ) = plainObjective po d uo env := by
  unfold plainObjective runningCost stepCosts terminalCost stepCost stepDiff
  simp only [withSigma_hVal, withSigma_sotVal, withSigma_xVal, withSigma_nu, withSigma_xEndVal]
  rfl

/-- C96, optimal values: with SCHOLTES_INEQ, or an elastic mode with direct scaling of the objective and a
nonnegative slack, every lower bound of the objective of the problem with the larger `σ'` is a lower bound
for the problem with `σ`: the optimal values of the homotopy do not decrease, and bound the optimal value
of the exact problem from below. -/
theorem C96_lower_bound_partial (h : SetupEx colloc o um uo po m oc P) {σ' J : ℝ} {data : Env}
    (hm : o.mpcc = .scholtesIneq ∨ (o.mpcc = .elasticIneq ∨ o.mpcc = .elasticEq ∨
      o.mpcc = .elasticTwoSided) ∧ o.objScalingDirect = true ∧ 0 ≤ o.sElasticMin ∧ 0 < σ)
    (hσ : σ ≤ σ')
    (hJ : ∀ env', P.form.Feasible env' → env' .sigma = σ' →
      (∀ s ∈ P.p, s ≠ .sigma → s ≠ .tau → env' s = data s) → J ≤ P.form.cost env')
    (hf : P.form.Feasible env) (hs : env .sigma = σ)
    (hd : ∀ s ∈ P.p, s ≠ .sigma → s ≠ .tau → env s = data s) : J ≤ P.form.cost env := by
  have hr : o.RelaxesByInequality := by unfold Opts.RelaxesByInequality; tauto
  have key := hJ (withSigma env σ' (env .tau)) (C96_nested_partial h hr (fun _ => hs ▸ hσ) hf) rfl
    fun s hsp h1 h2 => by
      rw [← hd s hsp h1 h2]
      cases s with
      | sigma => exact absurd rfl h1
      | tau => exact absurd rfl h2
      | _ => rfl
  refine key.trans ?_
  rw [h.toSetup.built.cost h.exact', h.toSetup.built.cost h.exact']
  unfold objectiveSpec
  rw [withSigma_plain]
  by_cases he : po.mpcc = .elasticIneq ∨ po.mpcc = .elasticEq ∨ po.mpcc = .elasticTwoSided
  · rw [if_pos he, if_pos he]
    rcases hm with hm | ⟨-, hd1, hd2, hd3⟩
    · rw [h.e_mpcc, hm] at he
      simp at he
    have e1 : po.objScalingDirect = o.objScalingDirect := by rw [h.toSetup.opts]
    rw [e1, hd1, if_pos rfl, if_pos rfl]
    have hb := ((h.spec hf).bounds .sElastic he).1
    have e2 : po.sElasticMin = o.sElasticMin := h.e_sElasticMin
    have h0 : 0 ≤ env .sElastic := by
      have hb : ((po.sElasticMin : ℝ) : EReal) ≤ ((env .sElastic : ℝ) : EReal) := hb
      have := EReal.coe_le_coe_iff.1 hb
      rw [e2] at this
      exact hd2.trans this
    refine add_le_add_right ?_ _
    change 1 / σ' * env .sElastic ≤ 1 / env .sigma * env .sElastic
    rw [hs]
    exact mul_le_mul_of_nonneg_right (one_div_le_one_div_of_le hd3 hσ) h0
  · rw [if_neg he, if_neg he]

/-- The Fischer-Burmeister function decreases strictly with the relaxation. -/
theorem fb_strict {a b σ σ' : ℝ} (h0 : 0 ≤ σ) (h : σ < σ') :
    fischerBurmeister a b σ' < fischerBurmeister a b σ := by
  unfold fischerBurmeister
  have : Real.sqrt (a ^ 2 + b ^ 2 + σ ^ 2) < Real.sqrt (a ^ 2 + b ^ 2 + σ' ^ 2) :=
    Real.sqrt_lt_sqrt (by positivity) (by nlinarith)
  linarith

theorem fb_sum_strict {y σ σ' : ℝ} (h0 : 0 ≤ σ) (h : σ < σ') : ∀ {xs : List ℝ}, xs ≠ [] →
    (xs.map fun x => fischerBurmeister x y σ').sum < (xs.map fun x => fischerBurmeister x y σ).sum := by
  intro xs
  induction xs with
  | nil => intro hc; exact absurd rfl hc
  | cons a xs ih =>
    intro _
    simp only [List.map_cons, List.sum_cons]
    have := fb_strict (a := a) (b := y) h0 h
    by_cases hx : xs = []
    · subst hx
      simpa using this
    · linarith [ih hx]

/-- One relation of an equality mode holds for at most one `σ ≥ 0`. -/
theorem compSat_unique (hm : o.RelaxesByEquality) {τ' σ' s : ℝ} {xs : List ℝ} {y : ℝ} (hx : xs ≠ [])
    (h0 : 0 ≤ σ) (h0' : 0 ≤ σ') (h1 : CompSat o σ τ s xs y) (h2 : CompSat o σ' τ' s xs y) : σ = σ' := by
  have fb : (xs.map fun x => fischerBurmeister x y σ).sum = 0 →
      (xs.map fun x => fischerBurmeister x y σ').sum = 0 → σ = σ' := by
    intro a b
    rcases lt_trichotomy σ σ' with hl | hl | hl
    · have := fb_sum_strict (y := y) h0 hl hx
      linarith
    · exact hl
    · have := fb_sum_strict (y := y) h0' hl hx
      linarith
  unfold CompSat at h1 h2
  rcases hm with h | h | h <;> rw [h] at h1 h2
  · exact h1.symm.trans h2
  · exact fb h1 h2
  · exact fb h1.1 h2.1

/-- C96 fails in the modes that keep the products at a value: as soon as the problem has one
complementarity pair, no point is feasible for two values of `σ`.  An exact solution is not feasible in
any iteration of the homotopy. -/
theorem C96_equality_modes (h : SetupEx colloc o um uo po m oc P) (hm : o.RelaxesByEquality)
    {q : Pair} (hq : IsPair po m.dims q) (h0 : 0 ≤ env .sigma) (hσ : 0 ≤ σ)
    (hf : P.form.Feasible env) (hf' : P.form.Feasible (withSigma env σ τ)) : σ = env .sigma := by
  have e : po.toOpts.mpcc = o.mpcc := h.e_mpcc
  have hm' : po.toOpts.RelaxesByEquality := by unfold Opts.RelaxesByEquality; rw [e]; exact hm
  have hN : 0 < po.nStages := Nat.pos_of_ne_zero h.toSetup.built.ok.primal.stages
  have hk : HasFE po 0 0 := ⟨hN, h.toSetup.nfe_pos 0 hN⟩
  have hj : 0 < po.nS := by rw [h.e_nS]; exact h.nS
  have s1 := h.spec hf
  have s2 := h.spec hf'
  symm
  by_cases hu : po.useFesd = true
  · cases hc : po.crossComp with
    | complementAll =>
      have a1 := (s1.compAll hu hc 0 0 hk 0 hj q hq).1
      have a2 := (s2.compAll hu hc 0 0 hk 0 hj q hq).1
      rw [withSigma_theta, withSigma_lamStart] at a2
      exact compSat_unique hm' (by simp) h0 hσ a1 a2
    | sumLambdas =>
      have a1 := s1.compSum hu hc 0 0 hk 0 hj q hq
      have a2 := s2.compSum hu hc 0 0 hk 0 hj q hq
      simp only [withSigma_theta, withSigma_lamStart, withSigma_lam] at a2
      exact compSat_unique hm' (by simp) h0 hσ a1 a2
  · have hu : po.useFesd = false := by simpa using hu
    have a1 := s1.compStd hu 0 0 hk 0 hj q hq
    have a2 := s2.compStd hu 0 0 hk 0 hj q hq
    rw [withSigma_theta, withSigma_lam] at a2
    exact compSat_unique hm' (by simp) h0 hσ a1 a2

/-- The exact solution that slides along the corner, in either Scholtes mode. -/
theorem corner_exact {md : MpccMode} (hmd : md = .scholtesIneq ∨ md = .scholtesEq) :
    ∃ po m oc P env, SetupEx oneColloc (cornerOpts .stewart md) cornerModel (some UserOcp.trivial)
      po m oc P ∧ ExactPoint (cornerOpts .stewart md) po m P env ∧
      xEndVal po m.dims 0 0 env = [0, 0, 1] ∧ IsPair po m.dims (.region 0 0) := by
  obtain ⟨po, m, oc, P, h, hr, -⟩ := corner_setup .stewart (md := md)
    (by rcases hmd with rfl | rfl <;> decide)
  obtain ⟨env, D, i1, i3, -, -, -, -, i4⟩ := C93_no_solution_lost h rfl rfl hr
    (.inl (by rcases hmd with rfl | rfl <;> simp [SignedMode, cornerOpts])) (corner_signs .stewart _)
    corner_pc (corner_plain .stewart hmd) (fun hc => absurd hc (by simp [cornerOpts]))
    (corner_weights .stewart _) (corner_solves (w := 1 / 2) ⟨by norm_num, le_rfl⟩ h)
  have C := corner_data h
  refine ⟨po, m, oc, P, env, h, D, ?_, C.pss, by rw [C.sys]; omega, ?_⟩
  · rw [(i4 0 0 C.has).2.2.1]
    simp [Path.endL, cornerPath, cornerModel, List.range_succ]
  · rw [h.toSetup.dims.2.2.2.2.2.2.2.1 C.pss 0 Nat.one_pos]
    exact Nat.zero_lt_succ _

/-- C96 fails with SCHOLTES_EQ: an exact solution that is infeasible for every `σ > 0`. -/
theorem C96_violated : ∃ po m oc P env,
    SetupEx oneColloc (cornerOpts .stewart .scholtesEq) cornerModel (some UserOcp.trivial) po m oc P ∧
    P.form.Feasible env ∧ env .sigma = 0 ∧
    ∀ σ τ, 0 < σ → ¬ P.form.Feasible (withSigma env σ τ) := by
  obtain ⟨po, m, oc, P, env, h, D, -, hq⟩ := corner_exact (md := .scholtesEq) (.inr rfl)
  refine ⟨po, m, oc, P, env, h, D.feas, D.sigma, fun σ τ hσ hf => ?_⟩
  have := C96_equality_modes h (.inl rfl) hq D.sigma.ge hσ.le D.feas hf
  rw [D.sigma] at this
  exact hσ.ne' this

/-- The hypotheses of C96_nested_partial and C96_lower_bound_partial are met by an exact solution, for all
`σ ≥ 0`. -/
example : ∃ po m oc P env,
    SetupEx oneColloc (cornerOpts .stewart) cornerModel (some UserOcp.trivial) po m oc P ∧
    (cornerOpts .stewart).RelaxesByInequality ∧ P.form.Feasible env ∧ env .sigma = 0 ∧
    xEndVal po m.dims 0 0 env = [0, 0, 1] ∧
    ∀ σ τ, 0 ≤ σ → P.form.Feasible (withSigma env σ τ) := by
  obtain ⟨po, m, oc, P, env, h, D, hx, -⟩ := corner_exact (md := .scholtesIneq) (.inl rfl)
  exact ⟨po, m, oc, P, env, h, .inl rfl, D.feas, D.sigma, hx, fun σ τ hσ =>
    C96_nested_partial h (.inl rfl) (fun _ => D.sigma.trans_le hσ) D.feas⟩

end
end Nosnoc
