import Mathlib.Analysis.SpecialFunctions.Integrals.Basic
import Verif.Proofs.Lower
import Verif.Proofs.OptsEq
import Verif.Proofs.Cost
import Verif.Props.Colloc
import Verif.Props.Tables
import Verif.Props.StepEq
/-
C21, C43, C44, C45: the objective.
-/
namespace Nosnoc
open Finset Polynomial

section
variable {colloc : IrkScheme → Nat → List ℝ} {o : Opts} {um : UserModel} {uo : Option UserOcp}
  {po : PreOpts} {m : PreModel} {oc : PreOcp} {P : Problem} {env : Env}

/-! ### C45 -/

/-- C45: outside the elastic modes the objective is the running cost of all elements, the
step-equilibration costs and the terminal cost; nothing else. -/
theorem C45_objective (h : SetupEx colloc o um uo po m oc P)
    (he : o.mpcc ≠ .elasticIneq ∧ o.mpcc ≠ .elasticEq ∧ o.mpcc ≠ .elasticTwoSided) :
    P.form.cost env
      = (∑ k ∈ range po.nStages, ∑ e ∈ range (nfe po k),
          ((∑ j ∈ range po.nS, quadWeight po j * hVal po k e env * (sotVal po k env *
              (uo.getD UserOcp.trivial).fq (xVal po m.dims k e j env) (uVal m.dims k env)
                (pVal m.dims k env) (vVal m.dims env)))
            + stepCost po m.dims k e env))
        + terminalCost po m.dims (uo.getD UserOcp.trivial) env := by
  rw [h.toSetup.built.cost h.exact']
  unfold objectiveSpec plainObjective runningCost stepCosts
  rw [if_neg (by rw [h.e_mpcc]; tauto)]
  simp only [sum_add_distrib]

/-- C45, by parts: running cost, step-equilibration cost, terminal cost. -/
theorem C45_plain (h : SetupEx colloc o um uo po m oc P)
    (he : o.mpcc ≠ .elasticIneq ∧ o.mpcc ≠ .elasticEq ∧ o.mpcc ≠ .elasticTwoSided) :
    P.form.cost env = runningCost po m.dims (uo.getD UserOcp.trivial) env + stepCosts po m.dims env
      + terminalCost po m.dims (uo.getD UserOcp.trivial) env := by
  rw [h.toSetup.built.cost h.exact']
  unfold objectiveSpec plainObjective
  rw [if_neg (by rw [h.e_mpcc]; tauto)]

/-! ### C21 -/

/-- C21: in the differential representations the weights integrate `t^q` up to the order of the
scheme; with `q = 0`, they sum to 1 (up to the rounding `1e-11` of the literals). -/
theorem C21_weights_differential (h : Setup colloc o um uo po m oc P) (hr : o.irkRep ≠ .integral)
    {q : Nat} (hq : q < schemeOrder o.nS o.scheme) :
    |∑ j ∈ range po.nS, quadWeight po j * (po.timePts.getD j 0) ^ q - 1 / ((q : ℝ) + 1)|
      ≤ 1 / 10 ^ 11 := by
  obtain ⟨t, ht, _, hb, hc⟩ := h.built.opts.diff hr
  have hv := C20_valid ht
  have ho := C20_order ht
  have h1 := hv.quadrature q (by rw [ho]; exact hq)
  have e1 : ∀ j, quadWeight po j = (t.w j : ℝ) := by
    intro j
    unfold quadWeight
    rw [if_neg (by rw [h.e_irkRep]; exact hr), hb]
    simp [vecFun, Tableau.w]
  have e2 : ∀ j, po.timePts.getD j 0 = (t.node j : ℝ) := by
    intro j
    rw [hc]
    simp [Tableau.node, List.getD_eq_getElem?_getD]
    cases t.c[j]? <;> simp
  simp only [e1, e2, h.e_nS]
  have : ((∑ i ∈ range o.nS, t.w i * t.node i ^ q - 1 / ((q : ℚ) + 1) : ℚ) : ℝ)
      = ∑ j ∈ range o.nS, (t.w j : ℝ) * (t.node j : ℝ) ^ q - 1 / ((q : ℝ) + 1) := by push_cast; ring
  rw [← this, ← Rat.cast_abs]
  have h2 : ((|∑ i ∈ range o.nS, t.w i * t.node i ^ q - 1 / ((q : ℚ) + 1)| : ℚ) : ℝ)
      ≤ ((tabTol : ℚ) : ℝ) := by exact_mod_cast h1
  refine h2.trans (le_of_eq ?_)
  norm_num [tabTol]

/-- C21, INTEGRAL: the weights the library uses integrate exactly the polynomials of degree at most
`n_s` that vanish at the beginning of the element: the weight of the beginning itself is dropped. -/
theorem C21_weights_integral_partial (h : Setup colloc o um uo po m oc P)
    (hr : o.irkRep = .integral) (hl : (colloc o.scheme o.nS).length = o.nS)
    (hn : (0 :: colloc o.scheme o.nS).Nodup) {p : ℝ[X]} (hp : p.natDegree ≤ o.nS)
    (h0 : p.eval 0 = 0) :
    ∑ j ∈ range po.nS, quadWeight po j * p.eval ((colloc o.scheme o.nS).getD j 0)
      = ∫ t in (0 : ℝ)..1, p.eval t := by
  have hB := (h.built.opts.integral hr).1
  rw [← C15_integral hn (by rw [hl]; exact hp), hl, sum_range_succ', h.e_nS]
  have : p.eval (node (colloc o.scheme o.nS) 0) = 0 := by simpa [node] using h0
  rw [this, mul_zero, add_zero]
  refine sum_congr rfl fun j _ => ?_
  unfold quadWeight
  rw [if_pos (by rw [h.e_irkRep]; exact hr), hB]
  simp [node]

/-- C21, INTEGRAL: what the weights sum to.  It is 1 exactly when the polynomial vanishing at all
collocation points has mean 0, which holds for Gauss-Legendre points and for Radau points with
`n_s ≥ 2`, but not for Radau with `n_s = 1`. -/
theorem C21_weight_sum_integral (h : Setup colloc o um uo po m oc P)
    (hr : o.irkRep = .integral) (hl : (colloc o.scheme o.nS).length = o.nS)
    (hn : (0 :: colloc o.scheme o.nS).Nodup) :
    (∑ j ∈ range po.nS, quadWeight po j)
      = 1 - ∫ t in (0 : ℝ)..1, ((colloc o.scheme o.nS).map fun τ => 1 - t / τ).prod := by
  set pts := colloc o.scheme o.nS
  have hne : ∀ τ ∈ pts, τ ≠ 0 := by
    intro τ hτ h0
    exact (List.nodup_cons.1 hn).1 (h0 ▸ hτ)
  let q : ℝ[X] := (pts.map fun τ => 1 - C (1 / τ) * X).prod
  have hq : ∀ t, q.eval t = (pts.map fun τ => 1 - t / τ).prod := by
    intro t
    simp only [q]
    rw [← coe_evalRingHom, map_list_prod, List.map_map]
    congr 1
    refine List.map_congr_left fun τ _ => ?_
    simp [div_eq_inv_mul]
  have hdeg : q.natDegree ≤ o.nS := by
    refine (natDegree_list_prod_le _).trans ?_
    rw [List.map_map, ← hl]
    refine (List.sum_le_card_nsmul _ 1 ?_).trans (by simp)
    intro x hx
    obtain ⟨τ, _, rfl⟩ := List.mem_map.1 hx
    simp only [Function.comp_apply]
    refine (natDegree_sub_le _ _).trans ?_
    simp only [natDegree_one, Nat.zero_le, max_eq_right]
    exact (natDegree_C_mul_le _ _).trans natDegree_X_le
  have h1 := C21_weights_integral_partial h hr hl hn (p := 1 - q)
    ((natDegree_sub_le _ _).trans (by simp [hdeg]))
    (by rw [eval_sub, hq]; simp)
  have hz : ∀ j ∈ range po.nS, quadWeight po j * (1 - q).eval (pts.getD j 0) = quadWeight po j := by
    intro j hj
    have hj' : j < pts.length := by rw [hl, ← h.e_nS]; exact mem_range.1 hj
    have : q.eval (pts.getD j 0) = 0 := by
      rw [hq]
      refine List.prod_eq_zero (List.mem_map.2 ⟨pts[j], List.getElem_mem hj', ?_⟩)
      rw [show pts.getD j 0 = pts[j] by simp [List.getD_eq_getElem?_getD, hj'], div_self (hne _ (List.getElem_mem hj'))]
      simp
    rw [eval_sub, this]; simp
  rw [sum_congr rfl hz] at h1
  rw [h1]
  simp only [eval_sub, eval_one]
  rw [intervalIntegral.integral_sub (by simp) (q.differentiable.continuous.intervalIntegrable _ _)]
  simp only [hq]
  simp

/-- C21: a running cost that is constantly 1 accumulates the elapsed time (times the speed of time),
up to the factor `Σ_j w_j`. -/
theorem C21_elapsed (d : Dims) {uo : UserOcp} (h1 : ∀ x u p v, uo.fq x u p v = 1) :
    runningCost po d uo env = (∑ j ∈ range po.nS, quadWeight po j) *
      ∑ k ∈ range po.nStages, ∑ e ∈ range (nfe po k), hVal po k e env * sotVal po k env := by
  unfold runningCost
  simp only [h1, mul_one]
  rw [mul_sum]
  refine sum_congr rfl fun k _ => ?_
  rw [mul_sum]
  refine sum_congr rfl fun e _ => ?_
  rw [sum_mul]
  refine sum_congr rfl fun j _ => ?_
  ring

/-! ### C43 -/

/-- C43: the elastic slack is a decision variable exactly in the elastic modes, and then a single
one. -/
theorem C43_slack_exists (h : Setup colloc o um uo po m oc P) :
    (P.form.w.count .sElastic = 1 ↔
      o.mpcc = .elasticIneq ∨ o.mpcc = .elasticEq ∨ o.mpcc = .elasticTwoSided) ∧
    (P.form.w.count .sElastic = 0 ↔
      ¬ (o.mpcc = .elasticIneq ∨ o.mpcc = .elasticEq ∨ o.mpcc = .elasticTwoSided)) := by
  have hn := (C01_index_lists_partition h).2
  have hmem : Sym.sElastic ∈ P.form.w ↔
      (o.mpcc = .elasticIneq ∨ o.mpcc = .elasticEq ∨ o.mpcc = .elasticTwoSided) := by
    rw [← h.e_mpcc]
    constructor
    · intro hs
      rcases (C04_variables h _).2 hs with h' | ⟨_, ⟨_, _, _, h'⟩ | ⟨_, h'⟩⟩
      · exact h'
      · cases h'
      · cases h'
    · exact fun he => (C04_variables h _).1 he
  rw [← hmem, List.count_eq_zero]
  refine ⟨⟨fun h1 => ?_, fun h1 => List.count_eq_one_of_mem hn h1⟩, Iff.rfl⟩
  exact List.count_pos_iff.1 (by omega)

/-- C43: the slack lies within its bounds at every feasible point. -/
theorem C43_slack_bounds (h : SetupEx colloc o um uo po m oc P) (hf : P.form.Feasible env)
    (he : o.mpcc = .elasticIneq ∨ o.mpcc = .elasticEq ∨ o.mpcc = .elasticTwoSided) :
    o.sElasticMin ≤ env .sElastic ∧ env .sElastic ≤ o.sElasticMax := by
  have := (h.spec hf).bounds .sElastic (by show _ ∨ _; rw [h.e_mpcc]; exact he)
  rw [← h.e_sElasticMin, ← h.e_sElasticMax]
  exact ⟨EReal.coe_le_coe_iff.1 this.1, EReal.coe_le_coe_iff.1 this.2⟩

/-- C43: the objective in the elastic modes. -/
theorem C43_objective (h : SetupEx colloc o um uo po m oc P)
    (he : o.mpcc = .elasticIneq ∨ o.mpcc = .elasticEq ∨ o.mpcc = .elasticTwoSided) :
    P.form.cost env = if o.objScalingDirect then
        (runningCost po m.dims (uo.getD UserOcp.trivial) env + stepCosts po m.dims env
          + terminalCost po m.dims (uo.getD UserOcp.trivial) env)
          + env .sElastic / env .sigma
      else env .sigma * (runningCost po m.dims (uo.getD UserOcp.trivial) env
          + stepCosts po m.dims env + terminalCost po m.dims (uo.getD UserOcp.trivial) env)
          + env .sElastic := by
  rw [h.toSetup.built.cost h.exact']
  unfold objectiveSpec plainObjective
  rw [if_pos (by rw [h.e_mpcc]; exact he), h.e_objScalingDirect]
  split
  · ring
  · rfl

/-- C43: the two scalings of the objective describe the same problem: same variables, same feasible
points, and for `σ > 0` the objective of one is `σ` times that of the other, so they rank all points
alike. -/
theorem C43_scalings_agree {po' : PreOpts} {m' : PreModel} {oc' : PreOcp} {P' : Problem}
    (h : SetupEx colloc { o with objScalingDirect := true } um uo po m oc P)
    (h' : SetupEx colloc { o with objScalingDirect := false } um uo po' m' oc' P')
    (he : o.mpcc = .elasticIneq ∨ o.mpcc = .elasticEq ∨ o.mpcc = .elasticTwoSided) :
    (∀ s, s ∈ P'.form.w ↔ s ∈ P.form.w) ∧
    (∀ env, P'.form.Feasible env ↔ P.form.Feasible env) ∧
    (∀ env, env .sigma ≠ 0 → P'.form.cost env = env .sigma * P.form.cost env) ∧
    (∀ e1 e2 : Env, 0 < e1 .sigma → e2 .sigma = e1 .sigma →
      (P'.form.cost e1 ≤ P'.form.cost e2 ↔ P.form.cost e1 ≤ P.form.cost e2)) := by
  obtain ⟨rfl, rfl, rfl⟩ := Setup.reScaling (o := { o with objScalingDirect := true }) (b := false)
    h.toSetup h'.toSetup
  have hb : o.mpcc ≠ .boolean := by rcases he with he | he | he <;> rw [he] <;> decide
  have hb1 : po.mpcc ≠ .boolean := by rw [h.e_mpcc]; exact hb
  have hw : ∀ s, s ∈ P'.form.w ↔ s ∈ P.form.w := by
    intro s
    constructor
    · intro hs
      rcases (C04_variables h'.toSetup s).2 hs with q | ⟨q, _⟩
      · exact (C04_variables h.toSetup s).1 q
      · exact absurd q hb1
    · intro hs
      rcases (C04_variables h.toSetup s).2 hs with q | ⟨q, _⟩
      · exact (C04_variables h'.toSetup s).1 q
      · exact absurd q hb1
  have hc : ∀ env : Env, env .sigma ≠ 0 → P'.form.cost env = env .sigma * P.form.cost env := by
    intro env hσ
    rw [C43_objective h he, C43_objective h' he]
    simp only [if_true, Bool.false_eq_true, if_false]
    field_simp
    rfl
  refine ⟨hw, ?_, hc, ?_⟩
  · intro env
    rw [h.iff hb, h'.iff hb]
    constructor
    · intro q
      exact ⟨q.bounds, q.alg, q.rk, q.lift, q.cont, q.boundary, q.pathEnd, q.pathStage, q.stageComp,
        q.ctrlComp, q.globComp, q.compStd, q.compAll, q.compSum, q.stepDirect, q.stepDirectComp,
        q.stepHComp, q.equi, q.time, q.freeze, q.term⟩
    · intro q
      exact ⟨q.bounds, q.alg, q.rk, q.lift, q.cont, q.boundary, q.pathEnd, q.pathStage, q.stageComp,
        q.ctrlComp, q.globComp, q.compStd, q.compAll, q.compSum, q.stepDirect, q.stepDirectComp,
        q.stepHComp, q.equi, q.time, q.freeze, q.term⟩
  · intro e1 e2 h1 h2
    rw [hc e1 h1.ne', hc e2 (by rw [h2]; exact h1.ne'), h2]
    exact mul_le_mul_iff_of_pos_left h1

/-! ### C44 -/

open Classical in
/-- C44: what LEAST_SQUARES does, given the problem that EXACT builds.  If some constraint has a
nonzero lower bound, an exception is raised.  Otherwise the problem has the same variables, bounds and
guess, no constraints, and the squared constraints are added to the objective. -/
theorem C44_least_squares
    (h : construct colloc { o with constraintHandling := .exact } um uo = .ok (po, m, oc, P)) :
    ((∃ l ∈ P.form.lbg, l ≠ 0) → construct colloc { o with constraintHandling := .leastSquares } um uo
        = .error .exception) ∧
    ((∀ l ∈ P.form.lbg, l = 0) → ∃ po' P',
      construct colloc { o with constraintHandling := .leastSquares } um uo = .ok (po', m, oc, P') ∧
      P'.form.w = P.form.w ∧ P'.form.lbw = P.form.lbw ∧ P'.form.ubw = P.form.ubw ∧
      P'.form.w0 = P.form.w0 ∧ P'.form.g = [] ∧ P'.form.lbg = [] ∧ P'.form.ubg = [] ∧
      (∀ env, P'.form.cost env = P.form.cost env + (P.form.g.map fun c => c env ^ 2).sum)) := by
  have e := construct_lsq (o := o) h
  constructor
  · intro hx
    exact e.trans (if_pos hx)
  · intro hx
    have hx' : ¬ ∃ l ∈ P.form.lbg, l ≠ 0 := by push Not; exact hx
    exact ⟨_, _, e.trans (if_neg hx'), rfl, rfl, rfl, rfl, rfl, rfl, rfl, fun _ => rfl⟩

/-- C44: when all constraints are equalities, a point of the least-squares problem costs at least what
it costs in the original, and exactly that iff it satisfies the constraints. -/
theorem C44_equivalent {po' : PreOpts} {P' : Problem}
    (h : construct colloc { o with constraintHandling := .exact } um uo = .ok (po, m, oc, P))
    (h' : construct colloc { o with constraintHandling := .leastSquares } um uo = .ok (po', m, oc, P'))
    (hlen : P.form.lbg.length = P.form.g.length ∧ P.form.ubg.length = P.form.g.length)
    (hub : ∀ l ∈ P.form.ubg, l = 0) :
    P.form.cost env ≤ P'.form.cost env ∧
    (P.form.Feasible env ↔ P'.form.Feasible env ∧ P'.form.cost env = P.form.cost env) := by
  classical
  have hlb : ∀ l ∈ P.form.lbg, l = 0 := by
    by_contra hc
    push Not at hc
    have := (C44_least_squares h).1 hc
    rw [this] at h'
    cases h'
  obtain ⟨_, _, h1, hw, hl, hu, _, hg, _, _, hc⟩ := (C44_least_squares h).2 hlb
  rw [h'] at h1
  cases h1
  have hnn : ∀ x ∈ P.form.g.map fun c => c env ^ 2, 0 ≤ x := by
    intro x hx
    obtain ⟨c, _, rfl⟩ := List.mem_map.1 hx
    positivity
  refine ⟨by rw [hc]; have := List.sum_nonneg hnn; linarith, ?_⟩
  have hsum : (P.form.g.map fun c => c env ^ 2).sum = 0 ↔ ∀ c ∈ P.form.g, c env = 0 := by
    generalize P.form.g = l
    induction l with
    | nil => simp
    | cons c l ih =>
      have h1 : 0 ≤ (l.map fun c => c env ^ 2).sum := by
        refine List.sum_nonneg ?_
        intro x hx
        obtain ⟨c, _, rfl⟩ := List.mem_map.1 hx
        positivity
      rw [List.map_cons, List.sum_cons, add_eq_zero_iff_of_nonneg (sq_nonneg _) h1, ih]
      simp
  have hcon : (∀ q ∈ P.form.g.zip (P.form.lbg.zip P.form.ubg),
      q.2.1 ≤ ((q.1 env : ℝ) : EReal) ∧ ((q.1 env : ℝ) : EReal) ≤ q.2.2)
      ↔ ∀ c ∈ P.form.g, c env = 0 := by
    constructor
    · intro H c hcm
      obtain ⟨i, hi, rfl⟩ := List.getElem_of_mem hcm
      have hi' : i < (P.form.g.zip (P.form.lbg.zip P.form.ubg)).length := by
        simp only [List.length_zip]; omega
      have := H _ (List.getElem_mem hi')
      rw [List.getElem_zip, List.getElem_zip] at this
      simp only [hlb _ (List.getElem_mem _), hub _ (List.getElem_mem _)] at this
      exact le_antisymm (by exact_mod_cast this.2) (by exact_mod_cast this.1)
    · intro H q hq
      obtain ⟨h1, h2⟩ := List.of_mem_zip hq
      obtain ⟨h3, h4⟩ := List.of_mem_zip h2
      rw [hlb _ h3, hub _ h4, H _ h1]
      simp
  unfold Form.Feasible
  rw [hcon, hw, hl, hu, hg, hc, ← hsum]
  simp

/-- C44, in the user's terms: with an equation mode of the complementarities, path constraints that are
equations `= 0` and no time freezing, LEAST_SQUARES is accepted and equivalent. -/
theorem C44_accepted
    (h : SetupEx colloc { o with constraintHandling := .exact } um uo po m oc P)
    (hm : o.mpcc = .scholtesEq ∨ o.mpcc = .fischerBurmeister ∨ o.mpcc = .fischerBurmeisterIpAug ∨
      o.mpcc = .elasticEq) (ht : o.timeFreezing = false)
    (hg : ∀ i < (uo.getD UserOcp.trivial).nGPath, getOr (uo.getD UserOcp.trivial).lbg 0 i = 0 ∧
      getOr (uo.getD UserOcp.trivial).ubg 0 i = 0) :
    ∃ po' P', construct colloc { o with constraintHandling := .leastSquares } um uo
        = .ok (po', m, oc, P') ∧ P'.form.g = [] ∧
      ∀ env, P.form.cost env ≤ P'.form.cost env ∧
        (P.form.Feasible env ↔ P'.form.Feasible env ∧ P'.form.cost env = P.form.cost env) := by
  have hb := h.toSetup.built
  have hlb := hb.lbg_zero h.exact' (by rw [h.e_mpcc]; unfold LowMode; tauto)
    (by rw [h.e_timeFreezing]; exact ht) (fun i hi => (hg i hi).1)
  have hub := hb.ubg_zero h.exact' (by rw [h.e_mpcc]; exact hm)
    (by rw [h.e_timeFreezing]; exact ht) (fun i hi => (hg i hi).2)
  obtain ⟨po', P', h1, _, _, _, _, h2, _⟩ := (C44_least_squares h.ok).2 hlb
  obtain ⟨nC, nF, g, up, f0, acc, hp⟩ := hb.pre
  have hA := form5_aligned (hp.udata hb.ocp) (hb.data.fe hb.ok.primal) hb.funs hb.ok.aug
  rw [← hb.form h.exact'] at hA
  exact ⟨po', P', h1, h2, fun env => C44_equivalent h.ok h1 ⟨hA.lbg, hA.ubg⟩ hub⟩

/-- C44: the relaxations by inequalities are refused. -/
theorem C44_inequality_modes_refused
    (h : SetupEx colloc { o with constraintHandling := .exact } um uo po m oc P)
    (hm : o.mpcc = .scholtesIneq ∨ o.mpcc = .elasticIneq ∨ o.mpcc = .elasticTwoSided)
    (hq : ∃ q, IsPair po m.dims q) :
    construct colloc { o with constraintHandling := .leastSquares } um uo = .error .exception := by
  refine (C44_least_squares h.ok).1 ⟨⊥, ?_, by simp⟩
  refine h.toSetup.built.lbg_bot h.exact' (by rw [h.e_mpcc]; exact hm) ?_
  obtain ⟨q, hq⟩ := hq
  exact List.ne_nil_of_mem (mem_pairList.2 hq)

end
/-! ### Witnesses -/

/-- Options: one Runge-Kutta stage (Radau), two elements, no FESD, SCHOLTES_EQ. -/
noncomputable def objOpts (r : IrkRep) (c : ConstraintHandling) : Opts :=
  { Opts.default with
    irkRep := r, nS := 1, useFesd := false, mpcc := .scholtesEq, constraintHandling := c }

/-- An ocp: running cost 1, and the path constraint `0 ≤ x + 1`. -/
noncomputable def objOcp : UserOcp :=
  { UserOcp.trivial with
    fq := fun _ _ _ _ => 1
    nGPath := 1
    gPath := fun _ x _ _ _ => x.getD 0 0 + 1
    lbg := some [0]
    ubg := some [⊤] }

theorem objOcp_pre (m : PreModel) (hm : m.dims = flexDims) : ∃ oc, objOcp.preprocess m = .ok oc := by
  unfold UserOcp.preprocess
  rw [hm]
  exact ⟨_, rfl⟩

theorem objOpts_setup (r : IrkRep) : ∃ po m oc P,
    SetupEx oneColloc (objOpts r .exact) flexModel (some objOcp) po m oc P ∧ m.dims = flexDims := by
  refine flex_setup ?_ ?_ (by simp [objOcp, UserOcp.trivial]) objOcp_pre
  · constructor <;> simp [objOpts, Opts.default, Opts.nfeAfter]
  · exact flex_preOpts (by simp [objOpts, Opts.default]) (.inr ⟨radau1, rfl, by simp [radau1]⟩)

/-- The stationary point is feasible. -/
theorem objOpts_feasible {r : IrkRep} {po m oc P}
    (h : SetupEx oneColloc (objOpts r .exact) flexModel (some objOcp) po m oc P)
    (hd : m.dims = flexDims) :
    P.form.Feasible (stillPt (fun _ _ => 0) (fun _ => 0) 0 0).env := by
  have e2 : po.nStages = 1 := h.e_nStages
  have e3 : po.useFesd = false := h.e_useFesd
  have e4 : po.pss = .stewart := h.e_pss
  have e8 : po.sot = .none := h.e_sot
  have e9 : po.mpcc = .scholtesEq := h.e_mpcc
  have e11 : po.timeFreezing = false := h.e_timeFreezing
  have e16 : po.sElasticMin = 0 := h.e_sElasticMin
  have e17 : po.sElasticMax = 10 := h.e_sElasticMax
  have nf : po.useFesd = true → False := fun hc => absurd (e3.symm.trans hc) (by decide)
  rw [h.iff (by simp [objOpts]), hd]
  show FeasibleSpec po flexDims flexModel objOcp _
  refine still_spec_gen e4 e8 e11 ?_ rfl rfl rfl rfl rfl rfl (by rw [e16, e17]; norm_num)
    (fun hc => (nf hc).elim) ?_ ?_ ?_ ?_ (fun hc => (nf hc).elim) (fun hc => (nf hc).elim)
    (fun hc => (nf hc).elim) (fun _ hc => (nf hc).elim) ?_
  · intro xs y hxy
    unfold Compl CompSat
    simp only [e9]
    show xs.sum * y = 0
    exact hxy
  · intro k i hi
    have : i = 0 := by simp [objOcp] at hi; omega
    subst this
    simp [objOcp, getOr]
  · intro k _ r hr; simp [stageComps, objOcp, UserOcp.trivial] at hr
  · intro k e _ _ r hr; simp [ctrlComps, objOcp, UserOcp.trivial] at hr
  · intro r hr; simp [globComps, objOcp, UserOcp.trivial] at hr
  · intro i hi; simp [objOcp, UserOcp.trivial] at hi

/-- C21 fails for INTEGRAL with the Radau scheme and `n_s = 1`: the running cost 1 over the horizon
`[0, 1]` costs 1/2 at a feasible point. -/
theorem C21_radau1_violated : ∃ po m oc P env,
    SetupEx oneColloc (objOpts .integral .exact) flexModel (some objOcp) po m oc P ∧
    P.form.Feasible env ∧ (∀ x u p v, objOcp.fq x u p v = 1) ∧
    (∑ k ∈ range po.nStages, ∑ e ∈ range (nfe po k), hVal po k e env * sotVal po k env) = 1 ∧
    P.form.cost env = 1 / 2 := by
  obtain ⟨po, m, oc, P, h, hd⟩ := objOpts_setup .integral
  have e2 : po.nStages = 1 := h.e_nStages
  have e3 : po.useFesd = false := h.e_useFesd
  have e5 : po.nfeList = [2] := h.e_nfeList
  have e7 : po.terminalTime = 1 := h.e_terminalTime
  have e8 : po.sot = .none := h.e_sot
  have hT : (∑ k ∈ range po.nStages, ∑ e ∈ range (nfe po k),
      hVal po k e (stillPt (fun _ _ => 0) (fun _ => 0) 0 0).env
        * sotVal po k (stillPt (fun _ _ => 0) (fun _ => 0) 0 0).env) = 1 := by
    simp [e2, nfe, e5, hVal, e3, nominalH, e7, sotVal, e8, const]
  refine ⟨po, m, oc, P, _, h, objOpts_feasible h hd, fun _ _ _ _ => rfl, hT, ?_⟩
  rw [C45_plain h (by simp [objOpts])]
  have hs : stepCosts po m.dims (stillPt (fun _ _ => 0) (fun _ => 0) 0 0).env = 0 := by
    unfold stepCosts stepCost
    simp [e3]
  have ht : terminalCost po m.dims ((some objOcp).getD UserOcp.trivial)
      (stillPt (fun _ _ => 0) (fun _ => 0) 0 0).env = 0 := rfl
  have hw := C21_weight_sum_integral h.toSetup rfl rfl (by simp [oneColloc, objOpts, Opts.default])
  rw [hs, ht, C21_elapsed (uo := (some objOcp).getD UserOcp.trivial) _ (fun _ _ _ _ => rfl), hT, hw]
  have hi : ∫ t in (0 : ℝ)..1, ((oneColloc (objOpts .integral .exact).scheme
      (objOpts .integral .exact).nS).map fun τ => 1 - t / τ).prod = 1 / 2 := by
    have : ∀ t : ℝ, ((oneColloc (objOpts .integral .exact).scheme
      (objOpts .integral .exact).nS).map fun τ => 1 - t / τ).prod = 1 - t := by
      intro t
      simp [oneColloc, objOpts, Opts.default]
    simp only [this]
    rw [intervalIntegral.integral_sub (by simp) (by simp), integral_id]
    norm_num
  rw [hi]
  norm_num

/-- C44 fails for constraints that are bounded below by 0 only: `0 ≤ x + 1` passes the check and the
least-squares problem drives `x + 1` to 0: a feasible point of the original is penalised. -/
theorem C44_refusal_violated : ∃ po m oc P po' P' env,
    SetupEx oneColloc (objOpts .differential .exact) flexModel (some objOcp) po m oc P ∧
    construct oneColloc (objOpts .differential .leastSquares) flexModel (some objOcp)
      = .ok (po', m, oc, P') ∧
    P.form.Feasible env ∧ P.form.cost env < P'.form.cost env := by
  obtain ⟨po, m, oc, P, h, hd⟩ := objOpts_setup .differential
  have e2 : po.nStages = 1 := h.e_nStages
  have e5 : po.nfeList = [2] := h.e_nfeList
  have hlb := h.toSetup.built.lbg_zero h.exact' (.inl h.e_mpcc) h.e_timeFreezing (by
    intro i hi
    have : i = 0 := by
      have : i < 1 := hi
      omega
    subst this
    rfl)
  obtain ⟨po', P', h', _, _, _, _, _, _, _, hc⟩ :=
    (C44_least_squares (o := objOpts .differential .exact) h.ok).2 hlb
  refine ⟨po, m, oc, P, po', P', _, h, h', objOpts_feasible h hd, ?_⟩
  rw [hc]
  obtain ⟨c, hcm, hce⟩ := h.toSetup.built.path_mem h.exact' (k := 0) (e := 1) (i := 0)
    ⟨by omega, by simp [nfe, e5]⟩ (.inl (by simp [nfe, e5])) Nat.one_pos
  have h1 : c (stillPt (fun _ _ => 0) (fun _ => 0) 0 0).env = 1 := by
    rw [hce, hd, still_xVal, still_xEndVal, ite_self]
    show (0 : ℝ) + 1 = 1
    norm_num
  have h2 : (1 : ℝ) ≤ (P.form.g.map fun c => c (stillPt (fun _ _ => 0) (fun _ => 0) 0 0).env ^ 2).sum := by
    have : (1 : ℝ) = c (stillPt (fun _ _ => 0) (fun _ => 0) 0 0).env ^ 2 := by rw [h1]; norm_num
    rw [this]
    refine List.single_le_sum ?_ _ (List.mem_map.2 ⟨c, hcm, rfl⟩)
    intro x hx
    obtain ⟨c, _, rfl⟩ := List.mem_map.1 hx
    positivity
  linarith

/-- The hypotheses of C43 are met: the demo problem in an elastic mode, with both scalings. -/
example : ∃ o : Opts, (o.mpcc = .elasticIneq ∨ o.mpcc = .elasticEq ∨ o.mpcc = .elasticTwoSided) ∧
    (∃ po m oc P, SetupEx demoColloc { o with objScalingDirect := true } demoModel (some demoOcp)
      po m oc P ∧ P.form.Feasible (demoEnv po)) ∧
    (∃ po m oc P, SetupEx demoColloc { o with objScalingDirect := false } demoModel (some demoOcp)
      po m oc P ∧ P.form.Feasible (demoEnv po)) := by
  refine ⟨gaussOpts, .inl rfl, ?_, ?_⟩
  · obtain ⟨po, m, oc, P, h1, h2, _⟩ := demo_setup (o := { gaussOpts with objScalingDirect := true })
      (by constructor <;> simp [gaussOpts, Opts.default, Opts.nfeAfter])
    exact ⟨po, m, oc, P, h1, h2⟩
  · obtain ⟨po, m, oc, P, h1, h2, _⟩ := demo_setup (o := { gaussOpts with objScalingDirect := false })
      (by constructor <;> simp [gaussOpts, Opts.default, Opts.nfeAfter])
    exact ⟨po, m, oc, P, h1, h2⟩

/-- The hypotheses of C44 are met: accepted in an equation mode (with a feasible point), refused in the
default mode. -/
example : (∃ po m oc P, SetupEx demoColloc { gaussOpts with mpcc := .scholtesEq } demoModel
      (some demoOcp) po m oc P ∧ P.form.Feasible (demoEnv po)) ∧
    (∃ po m oc P, SetupEx demoColloc gaussOpts demoModel (some demoOcp) po m oc P ∧
      ∃ q, IsPair po m.dims q) := by
  constructor
  · obtain ⟨po, m, oc, P, h1, h2, _⟩ := demo_setup (o := { gaussOpts with mpcc := .scholtesEq })
      (by constructor <;> simp [gaussOpts, Opts.default, Opts.nfeAfter])
    exact ⟨po, m, oc, P, h1, h2⟩
  · obtain ⟨po, m, oc, P, h1, h2, hd, _⟩ := demo_setup demo_gauss
    refine ⟨po, m, oc, P, h1, .neg 0 0, ?_⟩
    have : po.pss = .step := h1.e_pss
    exact ⟨this, by rw [hd]; exact Nat.one_pos, by rw [hd]; exact Nat.one_pos⟩

end Nosnoc
