import Verif.Props.Accuracy
import Verif.Spec.Clock
import Verif.Witness.ClockModel
import Mathlib.Topology.Algebra.Polynomial
/-
C109: clock states show the time, and integrals of polynomials of the time are exact.
-/
namespace Nosnoc
open Polynomial

section
variable {colloc : IrkScheme → Nat → List ℝ} {o : Opts} {um : UserModel} {uo : Option UserOcp}
  {po : PreOpts} {m : PreModel} {oc : PreOcp} {P : Problem} {orc : Oracle} {S : Solver}
  {r : SolveResult} {env : Env}

theorem derivative_eq_of_colloc {points : List ℝ} {n : Nat} (hc : CollocOk points n) {p g : ℝ[X]}
    (hp : p.natDegree ≤ n) (hg : g.natDegree < n)
    (he : ∀ j < n, (derivative p).eval (points.getD j 0) = g.eval (points.getD j 0)) :
    derivative p = g := by
  have hn : 0 < n := by omega
  have hd : (derivative p).natDegree < n :=
    lt_of_le_of_lt (natDegree_derivative_le p) (by omega)
  have hnd := (List.nodup_cons.1 hc.nodup).2
  have hlen := hc.length
  refine Polynomial.eq_of_natDegree_lt_card_of_eval_eq (derivative p) g
    (ι := Fin n) (f := fun j => points.getD j 0) ?_ (fun j => he j j.2) ?_
  · intro a b hab
    simp only at hab
    have ha : (a : Nat) < points.length := by omega
    have hb : (b : Nat) < points.length := by omega
    rw [List.getD_eq_getElem?_getD, List.getD_eq_getElem?_getD, List.getElem?_eq_getElem ha,
      List.getElem?_eq_getElem hb, Option.getD_some, Option.getD_some] at hab
    exact Fin.ext ((List.Nodup.getElem_inj_iff hnd).1 hab)
  · simp only [Fintype.card_fin]
    exact max_lt hd hg

/-- The right-hand side of a row that is not switched. -/
theorem stageRhs_unswitched (h : SetupEx colloc o um uo po m oc P) (hf : P.form.Feasible env)
    (hF : o.pss = .stewart → um.F.isSome = true)
    (hS : o.pss = .step → ∀ s < um.nSys, (um.Smat s).IsSign ∧ (um.Smat s).Partition)
    {row : Nat} {g : (x z u p v : List ℝ) → ℝ} (hg : um.Unswitched row g) {k e : Nat}
    (hk : HasFE po k e) {j : Nat} (hj : j < o.nS) :
    um.stageRhs po m.dims k e j row env = g (xVal po m.dims k e j env) (zVal m.dims k e j env)
      (uVal m.dims k env) (pVal m.dims k env) (vVal m.dims env) := by
  have hsp := h.spec hf
  have hj' : j < po.nS := h.e_nS ▸ hj
  have key : ∀ (w : Nat → Nat → ℝ), um.F.isSome = true →
      (∀ s < um.nSys, ∑ i ∈ Finset.range (um.Fmat s).nCols, w s i = 1) →
      ∀ x z u p v, um.rhsStewart row x z u p v w = g x z u p v := by
    intro w hF hw x z u p v
    obtain ⟨Fs, hFs⟩ := Option.isSome_iff_exists.1 hF
    unfold UserModel.Unswitched at hg
    rw [hFs] at hg
    obtain ⟨gs, g1, g2⟩ := hg
    rw [← g2]
    unfold UserModel.rhsStewart
    refine Finset.sum_congr rfl fun s hs => ?_
    have hs := Finset.mem_range.1 hs
    rw [Finset.sum_congr rfl fun i hi => by rw [g1 s hs i (Finset.mem_range.1 hi)],
      ← Finset.mul_sum, hw s hs, mul_one]
  cases hp : o.pss with
  | stewart =>
    have hp' := h.e_pss.trans hp
    unfold UserModel.stageRhs
    rw [hp']
    exact key _ (hF hp) (fun s hs => (hsp.alg k e hk j hj').2.1 hp' s hs) _ _ _ _ _
  | step =>
    have hp' := h.e_pss.trans hp
    unfold UserModel.stageRhs
    rw [hp']
    cases hFs : um.F with
    | some Fs =>
      have hF' : um.F.isSome = true := by rw [hFs]; rfl
      refine key _ hF' (fun s hs => ?_) _ _ _ _ _
      rw [← (h.toSetup.shapes_step hp' hF' hs).1]
      exact sum_weights (hS hp s hs).1 (hS hp s hs).2 _
    | none =>
      unfold UserModel.Unswitched at hg
      rw [hFs] at hg
      cases hfx : um.fx with
      | some f =>
        rw [hfx] at hg
        exact hg _ _ _ _ _ _
      | none =>
        rw [hfx] at hg
        exact hg.elim

/-- A clock on one element, INTEGRAL representation: at all stages and at the end it shows the time. -/
theorem clock_colloc (h : SetupEx colloc o um uo po m oc P) (hf : P.form.Feasible env)
    (hF : o.pss = .stewart → um.F.isSome = true)
    (hS : o.pss = .step → ∀ s < um.nSys, (um.Smat s).IsSign ∧ (um.Smat s).Partition)
    (hr : o.irkRep = .integral) (hcol : CollocOk (colloc o.scheme o.nS) o.nS)
    {c : Nat} (hc : um.Clock c) {k e : Nat} (hk : HasFE po k e) :
    (∀ j < o.nS, (xVal po m.dims k e j env).getD c 0 = (startVal po m.dims k e env).getD c 0
        + hVal po k e env * sotVal po k env * (colloc o.scheme o.nS).getD j 0) ∧
      (xEndVal po m.dims k e env).getD c 0 = (startVal po m.dims k e env).getD c 0
        + hVal po k e env * sotVal po k env := by
  obtain ⟨p, hdeg, h0, h1, hs⟩ := C17_collocation h hf hr hcol hk c hc.1
  set a := hVal po k e env * sotVal po k env with ha
  have hd : derivative p = C a := by
    refine derivative_eq_of_colloc hcol hdeg (by rw [natDegree_C]; exact h.nS) fun j hj => ?_
    rw [(hs j hj).2]
    beta_reduce
    rw [stageRhs_unswitched h hf hF hS hc.2 hk hj, eval_C, mul_one]
  have hz : derivative (p - C a * X) = 0 := by simp [hd]
  have hp : p = C a * X + C (p.eval 0) := by
    have := eq_C_of_natDegree_eq_zero (natDegree_eq_zero_of_derivative_eq_zero hz)
    have e0 : p.eval 0 = (p - C a * X).coeff 0 := by
      have := congrArg (Polynomial.eval 0) this
      simpa using this
    rw [e0, ← this]
    ring
  have ev : ∀ t, p.eval t = (startVal po m.dims k e env).getD c 0 + a * t := by
    intro t
    rw [hp, h0]
    simp
    ring
  refine ⟨fun j hj => ?_, ?_⟩
  · rw [← (hs j hj).1, ev]
  · rw [← h1, ev, mul_one]

/-- C109, clocks: over every element of every feasible point a state with derivative 1 advances by the step
length (times the speed of time), exactly with INTEGRAL, up to the rounding of the Butcher tables else. -/
theorem C109_clock_element (h : SetupEx colloc o um uo po m oc P)
    (hF : o.pss = .stewart → um.F.isSome = true)
    (hS : o.pss = .step → ∀ s < um.nSys, (um.Smat s).IsSign ∧ (um.Smat s).Partition)
    (hcol : o.irkRep = .integral → CollocOk (colloc o.scheme o.nS) o.nS)
    {c : Nat} (hc : um.Clock c) :
    ∃ W : ℝ, (o.irkRep = .integral → W = 1) ∧ |W - 1| ≤ 1 / 10 ^ 11 ∧
      ∀ env, P.form.Feasible env → ∀ k e, HasFE po k e →
        (xEndVal po m.dims k e env).getD c 0 = (startVal po m.dims k e env).getD c 0
          + hVal po k e env * sotVal po k env * W := by
  by_cases hr : o.irkRep = .integral
  · refine ⟨1, fun _ => rfl, by norm_num, fun env hf k e hk => ?_⟩
    rw [mul_one]
    exact (clock_colloc h hf hF hS hr (hcol hr) hc hk).2
  · obtain ⟨t, ht, -⟩ := h.toSetup.built.opts.diff hr
    have hn := h.nS
    have ho : 0 < t.order := by
      rw [C20_order ht]
      unfold schemeOrder
      split <;> omega
    have hq := (C20_valid ht).quadrature 0 ho
    have e2 : |∑ j ∈ Finset.range o.nS, t.w j - 1| ≤ 1 / 10 ^ 11 := by
      simpa [tabTol] using hq
    have e3 : ((|∑ j ∈ Finset.range o.nS, t.w j - 1| : ℚ) : ℝ) ≤ ((1 / 10 ^ 11 : ℚ) : ℝ) :=
      Rat.cast_le.2 e2
    refine ⟨((∑ j ∈ Finset.range o.nS, t.w j : ℚ) : ℝ), fun hr' => absurd hr' hr, by
      rw [Rat.cast_abs] at e3
      push_cast at e3 ⊢
      exact e3, fun env hf k e hk => ?_⟩
    obtain ⟨t', ht', hst⟩ := C17_runge_kutta h hf hr
    obtain rfl : t' = t := by rw [ht] at ht'; injection ht' with ht'; exact ht'.symm
    have hst := hst k e hk
    rw [hst.finish c hc.1, Rat.cast_sum, mul_assoc, Finset.mul_sum (a := sotVal po k env)]
    congr 2
    refine Finset.sum_congr rfl fun j hj => ?_
    rw [hst.slope j (Finset.mem_range.1 hj) c hc.1]
    beta_reduce
    rw [stageRhs_unswitched h hf hF hS hc.2 hk (Finset.mem_range.1 hj)]
    ring

/-- C109, integrals: with INTEGRAL and `n_s` stages, a state whose derivative is a polynomial of degree less
than `n_s` of a clock advances by the integral of this polynomial between the readings of the clock. -/
theorem C109_integral_element (h : SetupEx colloc o um uo po m oc P) (hf : P.form.Feasible env)
    (hF : o.pss = .stewart → um.F.isSome = true)
    (hS : o.pss = .step → ∀ s < um.nSys, (um.Smat s).IsSign ∧ (um.Smat s).Partition)
    (hr : o.irkRep = .integral) (hcol : CollocOk (colloc o.scheme o.nS) o.nS)
    {c : Nat} (hc : um.Clock c) {row : Nat} {q : ℝ[X]} (hq : um.Integrates row c q)
    (hdq : q.natDegree < o.nS) {k e : Nat} (hk : HasFE po k e) :
    (xEndVal po m.dims k e env).getD row 0 = (startVal po m.dims k e env).getD row 0
      + ∫ t in (startVal po m.dims k e env).getD c 0..(xEndVal po m.dims k e env).getD c 0, q.eval t := by
  obtain ⟨c1, c2⟩ := clock_colloc h hf hF hS hr hcol hc hk
  obtain ⟨p, hdeg, h0, h1, hs⟩ := C17_collocation h hf hr hcol hk row hq.1
  set a := hVal po k e env * sotVal po k env with ha
  set t0 := (startVal po m.dims k e env).getD c 0 with ht0
  have hd : derivative p = C a * q.comp (C t0 + C a * X) := by
    refine derivative_eq_of_colloc hcol hdeg ?_ fun j hj => ?_
    · refine lt_of_le_of_lt (natDegree_C_mul_le _ _) (lt_of_le_of_lt natDegree_comp_le ?_)
      have : (C t0 + C a * X : ℝ[X]).natDegree ≤ 1 := by
        rw [add_comm]; exact natDegree_linear_le
      nlinarith
    · rw [(hs j hj).2]
      beta_reduce
      rw [stageRhs_unswitched h hf hF hS hq.2 hk hj, c1 j hj]
      simp [ha]
      ring
  have hint : ∫ s in (0 : ℝ)..1, (derivative p).eval s = p.eval 1 - p.eval 0 :=
    intervalIntegral.integral_eq_sub_of_hasDerivAt (fun s _ => p.hasDerivAt s)
      ((derivative p).continuous.intervalIntegrable _ _)
  rw [h0, h1] at hint
  rw [c2, sub_eq_iff_eq_add'.1 hint.symm]
  congr 1
  rw [hd]
  simp only [eval_mul, eval_C, eval_comp, eval_add, eval_X]
  rw [intervalIntegral.integral_const_mul, intervalIntegral.mul_integral_comp_add_mul (f := fun t => q.eval t)]
  simp

/-- Any element of the trajectory by its position. -/
theorem xTraj_pos (h : Setup colloc o um uo po m oc P) (hL : o.nfeAfter.length = o.nStages)
    {x0 : List ℝ} {res : Results} (hR : ResultsSpec po m.dims x0 env res)
    (hx : x0 = (List.range m.dims.nX).map fun i => env (.x0 i)) {n : Nat} {q : Nat × Nat}
    (hq : (elements po)[n]? = some q) :
    HasFE po q.1 q.2 ∧ res.xTraj[n]? = some (startVal po m.dims q.1 q.2 env) ∧
      res.xTraj[n + 1]? = some (xEndVal po m.dims q.1 q.2 env) ∧
      res.timeSteps[n]? = some (hVal po q.1 q.2 env) := by
  have hk : HasFE po q.1 q.2 := by
    have := List.mem_of_getElem? hq
    rw [elements_eq_allFE, mem_allFE] at this
    exact this
  have hlist : po.nfeList = o.nfeAfter := by rw [h.opts]
  have hL' : po.nfeList.length = po.nStages := by rw [hlist, hL, h.e_nStages]
  have hg := elements_get hL' hk
  rw [hlist] at hg
  have hn : n = (o.nfeAfter.take q.1).sum + q.2 := by
    have hnd : (elements po).Nodup := by rw [elements_eq_allFE]; exact allFE_nodup
    have l1 := (List.getElem?_eq_some_iff.1 hq).1
    have l2 := (List.getElem?_eq_some_iff.1 hg).1
    refine (List.Nodup.getElem_inj_iff hnd (hi := l1) (hj := l2)).1 ?_
    have a1 := (List.getElem?_eq_some_iff.1 hq).2
    have a2 := (List.getElem?_eq_some_iff.1 hg).2
    rw [a1, a2]
  refine ⟨hk, by rw [hn]; exact xTraj_start h hL hR hx hk, ?_, ?_⟩
  · rw [hR.xTraj, List.getElem?_cons_succ, List.getElem?_map, hq]
    rfl
  · rw [hR.steps, List.getElem?_map, hq]
    rfl

/-- Values along the trajectory that are determined element by element. -/
theorem xTraj_induct (h : Setup colloc o um uo po m oc P) (hL : o.nfeAfter.length = o.nStages)
    {x0 : List ℝ} {res : Results} (hR : ResultsSpec po m.dims x0 env res)
    (hx : x0 = (List.range m.dims.nX).map fun i => env (.x0 i)) {V : List ℝ → ℝ → Prop}
    (h0 : V x0 0) (hstep : ∀ k e t, HasFE po k e → V (startVal po m.dims k e env) t →
      V (xEndVal po m.dims k e env) (t + hVal po k e env))
    {n : Nat} {t : ℝ} {x : List ℝ} (ht : res.tGrid[n]? = some t) (hxn : res.xTraj[n]? = some x) :
    V x t := by
  induction n generalizing t x with
  | zero =>
    rw [hR.xTraj] at hxn
    rw [hR.grid] at ht
    simp at hxn ht
    rw [← hxn, ← ht]
    exact h0
  | succ n ih =>
    have hn : n < (elements po).length := by
      have := (List.getElem?_eq_some_iff.1 hxn).1
      rw [hR.xTraj] at this
      simpa using this
    obtain ⟨q, hq⟩ : ∃ q, (elements po)[n]? = some q := ⟨_, List.getElem?_eq_getElem hn⟩
    obtain ⟨hk, x1, x2, x3⟩ := xTraj_pos h hL hR hx hq
    have hg : res.tGrid[n]? = some (res.timeSteps.take n).sum := by
      rw [hR.grid, List.getElem?_map, List.getElem?_range (by omega)]
      rfl
    have hg' : t = (res.timeSteps.take n).sum + hVal po q.1 q.2 env := by
      rw [hR.grid, List.getElem?_map, List.getElem?_range (by omega)] at ht
      have ht := Option.some.inj ht
      rw [← ht]
      beta_reduce
      rw [List.take_add_one, x3]
      simp
    rw [x2] at hxn
    rw [← Option.some.inj hxn, hg']
    exact hstep _ _ _ hk (ih hg x1)

/-- C109: with an NLP solver whose accepted points satisfy their constraints, every SUCCESS returns a
trajectory in which a state with derivative 1 shows the reported time (exactly with INTEGRAL, up to the
rounding of the Butcher tables else); and with INTEGRAL a state whose derivative is a polynomial of degree
less than `n_s` of such a clock is the integral of this polynomial up to the reported time. -/
theorem C109_reported (h : SetupEx colloc o um uo po m oc P) (hS : Reachable colloc o um uo orc S)
    (hL : o.nfeAfter.length = o.nStages) (hon : orc.Exact P) (hok : (S.solve orc).2 = .ok r)
    (hs : r.status = .success) (hb : o.mpcc ≠ .boolean) (hsot : o.sot ≠ .local)
    (hF : o.pss = .stewart → um.F.isSome = true)
    (hsg : o.pss = .step → ∀ s < um.nSys, (um.Smat s).IsSign ∧ (um.Smat s).Partition)
    (hcol : o.irkRep = .integral → CollocOk (colloc o.scheme o.nS) o.nS)
    {c : Nat} (hc : um.Clock c) :
    ∃ W : ℝ, (o.irkRep = .integral → W = 1) ∧ |W - 1| ≤ 1 / 10 ^ 11 ∧
      ∀ (n : Nat) (t : ℝ) (x : List ℝ), r.res.tGrid[n]? = some t → r.res.xTraj[n]? = some x →
        x.getD c 0 = S.m.x0.getD c 0 + W * t ∧
        (o.irkRep = .integral → ∀ row q, um.Integrates row c q → q.natDegree < o.nS →
          x.getD row 0 = S.m.x0.getD row 0
            + ∫ τ in S.m.x0.getD c 0..S.m.x0.getD c 0 + t, q.eval τ) := by
  have h' := h.toSetup
  have hi := hS.inv h'
  obtain ⟨hrd, -⟩ := ready_of_ok h' hi hok
  obtain ⟨env, sigma, tau, f1, -, hR, f4, -⟩ := C87_success_is_feasible h hS hL hon hok hs
  have hf : P.form.Feasible env := (h.iff hb).2 f1
  have hx0 : S.m.x0 = (List.range m.dims.nX).map fun i => env (.x0 i) := by
    have : ∀ i ∈ List.range m.dims.nX, env (.x0 i) = S.m.x0.getD i 0 := by
      intro i hi
      rw [f4 _ (x0_mem h' (List.mem_range.1 hi)) fun hc => hc]; rfl
    rw [List.map_congr_left this, h'.dims.1, ← hrd.x0]
    exact (map_getD_range _).symm
  have hso : ∀ k, sotVal po k env = 1 := by
    intro k
    unfold sotVal
    rw [if_neg (by rw [h'.e_sot]; exact hsot)]
    rfl
  obtain ⟨W, w1, w2, w3⟩ := C109_clock_element h hF hsg hcol hc
  have clock : ∀ (n : Nat) (t : ℝ) (x : List ℝ), r.res.tGrid[n]? = some t → r.res.xTraj[n]? = some x →
      x.getD c 0 = S.m.x0.getD c 0 + W * t := by
    intro n t x ht hx
    refine xTraj_induct h' hL hR hx0 (V := fun x t => x.getD c 0 = S.m.x0.getD c 0 + W * t) (by simp)
      (fun k e t hk hv => ?_) ht hx
    rw [w3 env hf k e hk, hv, hso]
    ring
  refine ⟨W, w1, w2, fun n t x ht hx => ⟨clock n t x ht hx, fun hr row q hq hdq => ?_⟩⟩
  obtain rfl := w1 hr
  refine (xTraj_induct h' hL hR hx0 (V := fun x t => x.getD c 0 = S.m.x0.getD c 0 + t ∧
      x.getD row 0 = S.m.x0.getD row 0 + ∫ τ in S.m.x0.getD c 0..S.m.x0.getD c 0 + t, q.eval τ)
      (by simp) (fun k e t hk hv => ?_) ht hx).2
  have e1 := w3 env hf k e hk
  have e2 := C109_integral_element h hf hF hsg hr (hcol hr) hc hq hdq hk
  rw [e1, hv.1, hso, mul_one, mul_one] at e2
  refine ⟨by rw [e1, hv.1, hso]; ring, ?_⟩
  have ii : ∀ a b, IntervalIntegrable (fun τ => q.eval τ) MeasureTheory.volume a b := fun a b =>
    q.continuous.intervalIntegrable _ _
  rw [e2, hv.2, add_assoc, intervalIntegral.integral_add_adjacent_intervals (ii _ _) (ii _ _), add_assoc]

end

/-- The hypotheses are met: `ṫ = 1`, `ẇ = t`, default options with any number of elements. -/
example (nf : Nat) (hn : 0 < nf) : ∃ po m oc P S r,
    SetupEx demoColloc (slideOpts 1 nf) clockModel none po m oc P ∧
    Reachable demoColloc (slideOpts 1 nf) clockModel none (exactOracle P) S ∧
    (slideOpts 1 nf).nfeAfter.length = (slideOpts 1 nf).nStages ∧ (exactOracle P).Exact P ∧
    (S.solve (exactOracle P)).2 = .ok r ∧ r.status = .success ∧ (slideOpts 1 nf).mpcc ≠ .boolean ∧
    (slideOpts 1 nf).sot ≠ .local ∧ clockModel.F.isSome = true ∧ (slideOpts 1 nf).irkRep = .integral ∧
    CollocOk (demoColloc (slideOpts 1 nf).scheme (slideOpts 1 nf).nS) (slideOpts 1 nf).nS ∧
    clockModel.Clock 0 ∧ clockModel.Integrates 1 0 X ∧ (X : ℝ[X]).natDegree < (slideOpts 1 nf).nS := by
  obtain ⟨po, m, oc, P, h0, hr⟩ := clock_setup hn
  have hfe : ∀ y z σ τ : ℝ, 0 ≤ σ → P.form.Feasible (clockEnv nf y z σ τ) := fun y z σ τ hσ =>
    clock_feasible h0 hr hn hσ
  have h : SetupEx demoColloc (slideOpts 1 nf) clockModel none po m oc _ :=
    ⟨h0.toSetup.toNone, rfl, by simp [UserOcp.trivial]⟩
  have h' := h.toSetup
  obtain ⟨-, hS, hrd⟩ := h'.create (exactOracle _) (by simp [slideOpts, Opts.default])
  have hL : (slideOpts 1 nf).nfeAfter.length = (slideOpts 1 nf).nStages := by
    simp [slideOpts, Opts.default, Opts.nfeAfter]
  obtain ⟨w0, lam00, hini, -⟩ := C54_initialise_writes_x0 h' hS hrd Nat.two_pos (.inl rfl)
  obtain ⟨r, hok⟩ := C49_solve_succeeds _ h' hS hrd rfl hini Nat.two_pos hL
    (fun _ s hs s' hs' => by rw [clock_sys hs, clock_sys hs'])
  exact ⟨po, m, oc, _, _, r, h, hS, hL, exactOracle_exact _, hok, clock_success h hfe hS hok,
    by simp [slideOpts, Opts.default], by simp [slideOpts, Opts.default], rfl, rfl, (slide_colloc 1 nf).1,
    clock_rows.1, clock_rows.2, by rw [natDegree_X]; exact Nat.one_lt_two⟩

end Nosnoc
