import Verif.Props.Converge
import Verif.Spec.Switched
/-
C111: convergence for trajectories that pass through regions one after the other.
-/
namespace Nosnoc

section
variable {colloc : IrkScheme → Nat → List ℝ} {o : Opts} {um : UserModel} {uo : Option UserOcp}
  {po : PreOpts} {m : PreModel} {oc : PreOcp} {P : Problem} {orc : Oracle} {S : Solver}
  {r : SolveResult} {env : Env}

/-- The residual is nonnegative. -/
theorem RelaxedPoint.residual_nonneg (D : RelaxedPoint o po m P env) (h : SetupEx colloc o um uo po m oc P)
    {q : Pair} (hq : IsPair po m.dims q) : 0 ≤ P.compRes env := by
  obtain ⟨k, e, j, q', hk, hj, hq', hr⟩ := C34_residual_attained (env := env) h.toSetup hq
  obtain ⟨a1, a2, -, b⟩ := D.pair h hk hq' hj
  rcases hr with ⟨hu, hr⟩ | ⟨hu, j', hj', hr⟩ | ⟨-, hr⟩
  · rw [hr]; exact mul_nonneg a1 (b hu).1.1
  · rw [hr]; exact mul_nonneg a1 ((b hu).2 j' hj').1
  · rw [hr]; exact mul_nonneg a1 a2

/-- The slopes of an element whose start or end lies deep in regions. -/
theorem deep_slope (D : RelaxedPoint o po m P env) (h : SetupEx colloc o um uo po m oc P)
    (hu : o.useFesd = true) (hF : um.F.isSome = true) (hS : SignsOk o um) (hz : um.nZ = 0)
    (h0 : um.InitialMultipliers po m.dims env) (hc : um.SameSwitching po m.dims env) {ε δ M κ : ℝ}
    (hε : P.compRes env ≤ ε) (hε0 : 0 ≤ ε) (hδ : 0 < δ) {k e : Nat} (hk : HasFE po k e) {reg : Nat → Nat}
    (hreg : ∀ s < um.nSys, reg s < (um.Fmat s).nCols ∧
      (um.DeepIn s (reg s) δ (startVal po m.dims k e env) [] (pVal m.dims k env) ∨
        po.rbe = true ∧ um.DeepIn s (reg s) δ (xEndVal po m.dims k e env) [] (pVal m.dims k env)))
    (hM : um.JumpBound M) (hM0 : 0 ≤ M) (hκ : ∑ s ∈ Finset.range um.nSys, selConst o um s (reg s) ≤ κ)
    {j : Nat} (hj : j < o.nS) (row : Fin um.nX) :
    |um.stageRhs po m.dims k e j row env - um.regionField reg (uVal m.dims k env) (pVal m.dims k env)
      (vVal m.dims env) (toVec um.nX (xVal po m.dims k e j env)) row| ≤ κ * (ε / δ) * M := by
  obtain ⟨hw, hr⟩ := D.weights h hF hS hk hj
  have hz' : m.dims.nZ = 0 := h.toSetup.dims.2.2.1.trans hz
  rw [hr row, zVal_nil hz']
  unfold UserModel.rhsStewart UserModel.regionField
  rw [toVec_ofFn (by rw [length_xVal, h.toSetup.dims.1]), ← Finset.sum_sub_distrib]
  refine le_trans ?_ (mul_le_mul_of_nonneg_right (mul_le_mul_of_nonneg_right hκ (div_nonneg hε0 hδ.le)) hM0)
  rw [Finset.sum_mul, Finset.sum_mul]
  refine (Finset.abs_sum_le_sum_abs _ _).trans (Finset.sum_le_sum fun s hs => ?_)
  have hs := Finset.mem_range.1 hs
  obtain ⟨r1, r2⟩ := hreg s hs
  refine convex_near r1 (hw s hs).1 (hw s hs).2 ?_ fun i hi => hM row row.2 s hs i hi _ r1 _ _ _ _
  rcases r2 with r2 | ⟨hb, r2⟩
  · exact C97_selection_start D h hu hF hS hz h0 hc hε hδ hk hj hs r1 r2
  · exact C97_selection_end D h hu hF hS hz hb hε hδ hk hj hs r1 r2

/-- The last NLP solution of a successful `solve` in a Scholtes or Fischer-Burmeister mode. -/
theorem success_relaxed (h : SetupEx colloc o um uo po m oc P) (hS : Reachable colloc o um uo orc S)
    (hL : o.nfeAfter.length = o.nStages) (hon : orc.Exact P) (hok : (S.solve orc).2 = .ok r)
    (hs : r.status = .success) (hm : ExactMode o)
    (hpss : o.pss = .stewart ∨ um.nSys ≤ 1) (hz : um.nZ = 0) :
    ∃ (env : Env) (sigma tau : ℝ), RelaxedPoint o po m P env ∧ um.InitialMultipliers po m.dims env ∧
      ResultsSpec po m.dims S.m.x0 env r.res ∧ (∀ t ∈ P.p, env t = paramVal um S sigma tau t) ∧
      S.m.x0.length = um.nX ∧
      (o.polish = true → sigma = 0) ∧
      (o.polish = false → ∃ n, 0 < n ∧ n ≤ po.maxIterHomotopy ∧
        (S.solve orc).1.log.length = S.log.length + n ∧ sigma = sigmaAt o (n - 1) ∧
        (P.compRes env < o.compTol ∨ sigmaAt o (n - 1) ≤ o.sigmaN ∨ n = po.maxIterHomotopy)) := by
  have h' := h.toSetup
  have hi := hS.inv h'
  obtain ⟨hr, -⟩ := ready_of_ok h' hi hok
  cases hpol : o.polish with
  | false =>
    obtain ⟨env, n, tau, n1, n2, hlog, D, hI, hR, hp, hstop⟩ := success_point h hS hL hon hok hs hpol hm hpss hz
    exact ⟨env, _, tau, D, hI, hR, hp, hr.x0, fun hc => absurd hc (by simp),
      fun _ => ⟨n, n1, n2, hlog, rfl, hstop⟩⟩
  | true =>
    obtain ⟨env, sigma, tau, f1, f2, f3, f4, f5, -, f7⟩ := C87_success_is_feasible h hS hL hon hok hs
    obtain ⟨g1, g2⟩ := initial_of_params h' hi hr.x0 hz (f5 hpss)
    have hnb : o.mpcc ≠ .boolean := by
      rcases hm with (hm | hm | hm | hm) | ⟨hm | hm, -⟩ <;> rw [hm] <;> decide
    exact ⟨env, sigma, tau, ⟨hm, (h.iff hnb).2 f1, g2⟩, g1, f3, f5 hpss, hr.x0, fun _ => (f7 hpol).1,
      fun hc => absurd hc (by simp)⟩

/-- A successful solve with FESD of a switched system without algebraic variables. -/
structure SwitchedRun (colloc : IrkScheme → Nat → List ℝ) (o : Opts) (um : UserModel) (uo : Option UserOcp)
    (po : PreOpts) (m : PreModel) (oc : PreOcp) (P : Problem) (orc : Oracle) (S : Solver) (r : SolveResult)
    (L M : ℝ) : Prop where
  setup : SetupEx colloc o um uo po m oc P
  reach : Reachable colloc o um uo orc S
  lists : o.nfeAfter.length = o.nStages
  /-- points the NLP solver accepts satisfy their constraints -/
  exact : orc.Exact P
  ok : (S.solve orc).2 = .ok r
  success : r.status = .success
  fesd : o.useFesd = true
  mpcc : o.mpcc = .scholtesIneq ∨ o.mpcc = .scholtesEq ∨
    ((o.mpcc = .fischerBurmeister ∨ o.mpcc = .fischerBurmeisterIpAug) ∧ o.crossComp = .complementAll)
  pss : o.pss = .stewart ∨ um.nSys ≤ 1
  sot : o.sot ≠ .local
  fields : um.F.isSome = true
  signs : SignsOk o um
  nz : um.nZ = 0
  pair : ∃ q, IsPair po m.dims q
  /-- parameters that differ between the control stages do not enter the switching functions -/
  same : ∀ k < o.nStages, ∀ s < um.nSys, ∀ n x, (um.cVec s).entry n x [] (S.m.pVal.getD k [])
    = (um.cVec s).entry n x [] (S.m.pVal.getD 0 [])
  jump : um.JumpBound M
  lipschitz : ∀ reg : Nat → Nat, (∀ s < um.nSys, reg s < (um.Fmat s).nCols) →
    ∀ u p v x y, ‖um.regionField reg u p v x - um.regionField reg u p v y‖ ≤ L * ‖x - y‖

/-- C111: convergence for switched systems.  Fix the scheme, the number of stages `n`, the representation, a
Lipschitz constant `L`, a bound `D` on derivatives and a time `T`.  There are a step length `H0` and a constant
`C` such that for every problem with these data and every grid: if `solve` reports SUCCESS, the reported
trajectory comes with a tolerance `ε` (zero with polishing; without, at most the last homotopy parameter or half
its square, and below `comp_tol` unless the schedule ended or the budget was used up), and as long as each
element begins or ends in a region with distance `δ` to the others, the trajectory differs from the solution `φ`
that follows these regions by at most `C * (H ^ n + κ ε / δ M)`, plus initial difference and rounding. -/
theorem C111_switched {sc : IrkScheme} {n : Nat} {rep : IrkRep} (hn : 0 < n)
    (hcol : rep = .integral → CollocOk (colloc sc n) n ∧ ∀ t ∈ colloc sc n, 0 ≤ t ∧ t ≤ 1)
    {L : ℝ} (hL0 : 0 ≤ L) (D T : ℝ) :
    ∃ H0 > 0, ∃ C : ℝ, ∀ {o : Opts} {um : UserModel} {uo : Option UserOcp} {po : PreOpts} {m : PreModel}
      {oc : PreOcp} {P : Problem} {orc : Oracle} {S : Solver} {r : SolveResult} {M : ℝ},
      o.scheme = sc → o.nS = n → o.irkRep = rep → 0 ≤ M → SwitchedRun colloc o um uo po m oc P orc S r L M →
      ∃ ε : ℝ, 0 ≤ ε ∧ (o.polish = true → ε = 0) ∧
        (o.polish = false → ∃ i, 0 < i ∧ i ≤ po.maxIterHomotopy ∧
          (S.solve orc).1.log.length = S.log.length + i ∧
          (o.mpcc = .scholtesIneq ∨ o.mpcc = .scholtesEq → ε ≤ sigmaAt o (i - 1)) ∧
          (o.mpcc = .fischerBurmeister ∨ o.mpcc = .fischerBurmeisterIpAug → ε ≤ sigmaAt o (i - 1) ^ 2 / 2) ∧
          (ε < o.compTol ∨ sigmaAt o (i - 1) ≤ o.sigmaN ∨ i = po.maxIterHomotopy)) ∧
        ∀ (reg : Nat → Nat → Nat → Nat) (φ : ℝ → Fin um.nX → ℝ) (N : Nat) (δ κ H : ℝ),
          0 < δ → H ≤ H0 → 0 ≤ H → (∀ h ∈ r.res.timeSteps, 0 ≤ h ∧ h ≤ H) →
          um.Passes o (fun k => S.m.pVal.getD k []) (po.rbe = true) reg N δ r.res →
          um.SwitchedReference o (fun k => S.m.pVal.getD k []) reg N n D r.res φ →
          0 ≤ κ → (∀ k e, ∑ s ∈ Finset.range um.nSys, selConst o um s (reg k e s) ≤ κ) →
          ∀ (N' : Nat) (t : ℝ) (x : List ℝ), N' ≤ N → t ≤ T → r.res.tGrid[N']? = some t →
            r.res.xTraj[N']? = some x → ∀ i : Fin um.nX,
              |x.getD i 0 - φ t i| ≤ C * (‖toVec um.nX S.m.x0 - φ 0‖ + H ^ n + κ * (ε / δ) * M
                + if rep = .integral then 0 else 1 / 10 ^ 11) := by
  by_cases hgen : rep ≠ .integral → ∃ t, generateButcher n sc = .ok t
  swap
  · refine ⟨1, one_pos, 0, ?_⟩
    intro o um uo po m oc P orc S r M e1 e2 e3 _ run
    subst e1 e2 e3
    exact absurd (fun hr => (run.setup.toSetup.built.opts.diff hr).imp fun t ht => ht.1) hgen
  obtain ⟨a, b, c, tab, ho, htab, hform⟩ := rk_form hn hcol hgen
  obtain ⟨A, hA0, hA, hB⟩ := coeff_bound n a b
  have htab0 : 0 ≤ tab := by rw [htab]; split <;> norm_num
  have hAL0 : 0 ≤ A * L := mul_nonneg hA0 hL0
  refine ⟨1 / (2 * (A * L) + 1), by positivity,
    Real.exp (2 * A * L * T) * (1 + T * (|D| * (1 + A + n) + A)), ?_⟩
  intro o um uo po m oc P orc S r M e1 e2 e3 hM0 run
  subst e1 e2 e3
  obtain ⟨h, hS, hLn, hon, hok, hs, hu, hmode, hpss, hsot, hF, hsg, hz, ⟨q, hq⟩, hsw, hM, hLip⟩ := run
  have h' := h.toSetup
  have hi := hS.inv h'
  have hm : ExactMode o := by
    rcases hmode with hm | hm | ⟨hm, hcc⟩
    · exact .inl (.inr (.inl hm))
    · exact .inl (.inl hm)
    · exact .inr ⟨hm, fun _ => hcc⟩
  obtain ⟨env, sigma, tau, Dp, hI, hR, hp, hx0, hpol, hnpol⟩ := success_relaxed h hS hLn hon hok hs hm hpss hz
  have hsig : env .sigma = sigma := hp _ (sigma_mem h')
  have hres := C97_residual Dp h hq
  have hrt : (o.mpcc = .scholtesIneq ∨ o.mpcc = .scholtesEq → relaxTol o env = sigma) ∧
      (o.mpcc = .fischerBurmeister ∨ o.mpcc = .fischerBurmeisterIpAug → relaxTol o env = sigma ^ 2 / 2) := by
    unfold relaxTol
    rw [hsig]
    constructor
    · rintro (hm | hm) <;> rw [hm]
    · rintro (hm | hm) <;> rw [hm]
  have hlist : po.nfeList = o.nfeAfter := by rw [h'.opts]
  have hst := Nat.pos_of_ne_zero h'.built.ok.primal.stages
  have hpk : ∀ k < po.nStages, pVal m.dims k env = S.m.pVal.getD k [] := fun k hk =>
    pVal_of_params_stage h' hi (fun t ht _ => hp t ht) hk
  have hsame : um.SameSwitching po m.dims env := by
    intro k hk s hs n x
    rw [hpk k hk, hpk 0 hst]
    exact hsw k (h'.e_nStages ▸ hk) s hs n x
  have hnn := Dp.residual_nonneg h hq
  refine ⟨P.compRes env, hnn, fun hp' => ?_, fun hp' => ?_, ?_⟩
  · refine le_antisymm (hres.trans (le_of_eq ?_)) hnn
    rcases hmode with hm | hm | ⟨hm, -⟩
    · rw [hrt.1 (.inl hm), hpol hp']
    · rw [hrt.1 (.inr hm), hpol hp']
    · rw [hrt.2 hm, hpol hp']; norm_num
  · obtain ⟨i, i1, i2, i3, i4, i5⟩ := hnpol hp'
    refine ⟨i, i1, i2, i3, fun hm => ?_, fun hm => ?_, i5⟩
    · rw [← i4, ← hrt.1 hm]
      exact hres
    · rw [← i4, ← hrt.2 hm]
      exact hres
  · intro reg φ N δ κ H hδ hH hHn hstep hpass href hκ0 hκ N' t x hN' htT ht hx i
    have hη : 0 ≤ κ * (P.compRes env / δ) * M := by positivity
    have hdom : ∀ k e, HasFE po k e → k < o.nStages ∧ e < o.nfeAfter.getD k 0 := by
      intro k e hk
      refine ⟨h'.e_nStages ▸ hk.1, ?_⟩
      have := hk.2
      unfold nfe at this
      rwa [hlist] at this
    have hx0' : S.m.x0 = (List.range m.dims.nX).map fun i => env (.x0 i) :=
      x0_of_params h' hx0 fun t ht _ => hp t ht
    have hL' : po.nfeList.length = po.nStages := by rw [hlist, hLn, h'.e_nStages]
    have hxe : ∀ k e, HasFE po k e → r.res.xTraj[(o.nfeAfter.take k).sum + e + 1]?
        = some (xEndVal po m.dims k e env) := by
      intro k e hk
      rw [hR.xTraj, List.getElem?_cons_succ, List.getElem?_map, ← hlist, elements_get hL' hk]
      rfl
    have key := trajectory_error (N0 := N) hη hn ho htab0 hA0 hA hB hL0 hH h hLn
      (fun k e hk => hform h rfl rfl rfl Dp.feas k e hk) hR hx0' hstep
      (φ := φ) (D := D)
      (f := fun k e => um.regionField (reg k e) (uVal m.dims k env) (S.m.pVal.getD k []) (vVal m.dims env))
      (fun k e hk hN => ?_) N' t x hN' ht hx
    · have hi' := norm_le_pi_norm (toVec um.nX x - φ t) i
      rw [Real.norm_eq_abs, Pi.sub_apply] at hi'
      refine (hi'.trans key.2).trans ?_
      rw [← htab]
      exact bound_constant hA0 hL0 htab0 hη hHn (norm_nonneg _) key.1 htT
    · obtain ⟨d1, d2⟩ := hdom k e hk
      have hps := hpass k d1 e d2 hN _ _ (xTraj_start h' hLn hR hx0' hk) (hxe k e hk)
      refine ⟨hLip _ (fun s hs => (hps s hs).1) _ _ _, fun t t' ht ht' => ?_, fun j hj row => ?_⟩
      · exact href k d1 e d2 hN (uVal m.dims k env) (vVal m.dims env) t t'
          (by rw [hR.uList, List.getElem?_map, List.getElem?_range hk.1]; rfl) hR.v ht ht'
      · have hso : sotVal po k env = 1 := by
          unfold sotVal
          rw [if_neg (by rw [h'.e_sot]; exact hsot)]
          rfl
        beta_reduce at hps ⊢
        rw [← hpk k hk.1] at hps ⊢
        rw [hso, one_mul]
        exact deep_slope Dp h hu hF hsg hz hI hsame le_rfl hnn hδ hk hps hM hM0
          (hκ k e) hj row

/-- C111 in terms of the options, with a Scholtes mode, the LINEAR update and the automatic budget: with at least
`q` finite elements in every control stage, the difference to the solution that follows the regions is at most
`C * (Δ ^ n + κ ε / δ M)` with `Δ` the terminal time over the number of control stages times `q`, times
`1 + gamma_h`, and `ε` the larger of `comp_tol / √slope` and `sigma_N`, with and without polishing. -/
theorem C111_refinement {sc : IrkScheme} {n : Nat} {rep : IrkRep} (hn : 0 < n)
    (hcol : rep = .integral → CollocOk (colloc sc n) n ∧ ∀ t ∈ colloc sc n, 0 ≤ t ∧ t ≤ 1)
    {L : ℝ} (hL0 : 0 ≤ L) (D T : ℝ) :
    ∃ H0 > 0, ∃ C : ℝ, ∀ {o : Opts} {um : UserModel} {uo : Option UserOcp} {po : PreOpts} {m : PreModel}
      {oc : PreOcp} {P : Problem} {orc : Oracle} {S : Solver} {r : SolveResult} {M : ℝ},
      o.scheme = sc → o.nS = n → o.irkRep = rep → 0 ≤ M → SwitchedRun colloc o um uo po m oc P orc S r L M →
      o.mpcc = .scholtesIneq ∨ o.mpcc = .scholtesEq → o.maxIterHomotopy = 0 → o.rule = .linear →
      0 < o.slope → o.slope < 1 → 0 < o.compTol → o.compTol ≤ o.sigma0 →
      0 ≤ o.gammaH → o.gammaH ≤ 1 → 0 ≤ o.terminalTime →
      ∀ q > 0, (∀ k < o.nStages, q ≤ o.nfeAfter.getD k 0) →
      ∀ Δ ε, Δ = (1 + o.gammaH) * (o.terminalTime / (o.nStages * q)) → Δ ≤ H0 →
      ε = max (o.compTol / √o.slope) o.sigmaN →
        ∀ (reg : Nat → Nat → Nat → Nat) (φ : ℝ → Fin um.nX → ℝ) (N : Nat) (δ κ : ℝ), 0 < δ →
          um.Passes o (fun k => S.m.pVal.getD k []) (po.rbe = true) reg N δ r.res →
          um.SwitchedReference o (fun k => S.m.pVal.getD k []) reg N n D r.res φ →
          0 ≤ κ → (∀ k e, ∑ s ∈ Finset.range um.nSys, selConst o um s (reg k e s) ≤ κ) →
          ∀ (N' : Nat) (t : ℝ) (x : List ℝ), N' ≤ N → t ≤ T → r.res.tGrid[N']? = some t →
            r.res.xTraj[N']? = some x → ∀ i : Fin um.nX,
              |x.getD i 0 - φ t i| ≤ C * (‖toVec um.nX S.m.x0 - φ 0‖ + Δ ^ n + κ * (ε / δ) * M
                + if rep = .integral then 0 else 1 / 10 ^ 11) := by
  obtain ⟨H0, hH0, C, hC⟩ := C111_switched hn hcol hL0 D T
  refine ⟨H0, hH0, |C|, ?_⟩
  intro o um uo po m oc P orc S r M e1 e2 e3 hM0 run hmode hmax hrule s0 s1 hct hcs g0 g1 hT q hq hqn Δ ε hΔ hle
    hε reg φ N δ κ hδ hpass href hκ0 hκ N' t x hN' htT ht hx i
  obtain ⟨ε', n0, n1, n2, n3⟩ := hC e1 e2 e3 hM0 run
  have hεε : ε' ≤ ε := by
    rw [hε]
    cases hpol : o.polish with
    | true =>
      rw [n1 hpol]
      exact le_max_of_le_left (by positivity)
    | false =>
      obtain ⟨i, -, -, -, i1, -, i2⟩ := n2 hpol
      exact tol_of_budget run.setup hmax hrule s0 s1 hct hcs (i1 hmode) i2
  obtain ⟨env, sigma, tau, f1, -, hR, -⟩ := C87_success_is_feasible run.setup run.reach run.lists run.exact
    run.ok run.success
  have hst := steps_small run.setup f1 hR (fun _ => ⟨g0, g1⟩) hT hq hqn
  rw [if_pos run.fesd, ← hΔ] at hst
  have hΔ0 : 0 ≤ Δ := by rw [hΔ]; positivity
  refine (n3 reg φ N δ κ Δ hδ hle hΔ0 hst hpass href hκ0 hκ N' t x hN' htT ht hx i).trans ?_
  have htab : (0 : ℝ) ≤ if rep = .integral then 0 else 1 / 10 ^ 11 := by split <;> norm_num
  have hdiv : κ * (ε' / δ) * M ≤ κ * (ε / δ) * M :=
    mul_le_mul_of_nonneg_right (mul_le_mul_of_nonneg_left (div_le_div_of_nonneg_right hεε hδ.le) hκ0) hM0
  have hd0 : 0 ≤ κ * (ε' / δ) * M := by positivity
  have hp0 : 0 ≤ Δ ^ n := pow_nonneg hΔ0 _
  refine (mul_le_mul_of_nonneg_right (le_abs_self C) (by positivity)).trans ?_
  exact mul_le_mul_of_nonneg_left (by linarith) (abs_nonneg _)

end

theorem slide_field (u p v : List ℝ) :
    slideModel.regionField (fun _ => 0) u p v = fun _ _ => -1 := by
  funext x i
  simp [UserModel.regionField, UserModel.nSys, UserModel.Fmat, slideModel]

theorem slide_lipschitz (reg : Nat → Nat) (u p v : List ℝ) (x y : Fin slideModel.nX → ℝ) :
    ‖slideModel.regionField reg u p v x - slideModel.regionField reg u p v y‖ ≤ 0 * ‖x - y‖ := by
  have : slideModel.regionField reg u p v x = slideModel.regionField reg u p v y := rfl
  rw [this, sub_self, norm_zero, zero_mul]

theorem slide_jump : slideModel.JumpBound 2 := by
  intro row hrow s hs i hi i' hi' x u p v
  obtain rfl := slide_sys hs
  show |(if i = 0 then (-1 : ℝ) else 1) - if i' = 0 then -1 else 1| ≤ 2
  split <;> split <;> norm_num

theorem four_solution (t0 t1 : ℝ) :
    SmoothSolution 2 1 (fun _ : Fin 1 → ℝ => fun _ => (-1 : ℝ)) (fun t _ => 4 - t) t0 t1 := by
  refine ⟨fun _ _ => -1, contDiff_const, fun q hq t _ => ?_, fun t _ => ⟨rfl, ?_⟩⟩
  · rw [iteratedDeriv_const]
    split
    · rw [pi_norm_le_iff_of_nonneg one_pos.le]; intro i; simp
    · simp
  · refine HasDerivAt.hasDerivWithinAt (hasDerivAt_pi.2 fun i => ?_)
    simpa using (hasDerivAt_id t).const_sub 4

/-- The states of `ẋ = -sign x` change by at most the step length. -/
theorem slide_drop {nf : Nat} {uo : Option UserOcp} {po : PreOpts} {m : PreModel} {oc : PreOcp} {P : Problem}
    {env : Env} (h : SetupEx demoColloc (slideOpts 1 nf) slideModel uo po m oc P)
    (D : RelaxedPoint (slideOpts 1 nf) po m P env) {k e : Nat} (hk : HasFE po k e) (hh : 0 ≤ hVal po k e env) :
    (startVal po m.dims k e env).getD 0 0 - hVal po k e env ≤ (xEndVal po m.dims k e env).getD 0 0 := by
  have hst : ∀ j < 2, -1 ≤ slideModel.stageRhs po m.dims k e j 0 env := by
    intro j hj
    obtain ⟨hw, hr⟩ := D.weights h rfl (slide_signs 1 nf) hk (show j < (slideOpts 1 nf).nS from hj)
    obtain ⟨w0, w1⟩ := hw 0 Nat.one_pos
    rw [hr 0]
    have e1 : (slideModel.Fmat 0).nCols = 2 := rfl
    rw [e1] at w0 w1
    have a0 := w0 0 (by norm_num)
    have a1 := w0 1 (by norm_num)
    rw [Finset.sum_range_succ, Finset.sum_range_one] at w1
    have e2 : slideModel.nSys = 1 := rfl
    unfold UserModel.rhsStewart
    rw [e2, Finset.sum_range_one, e1, Finset.sum_range_succ, Finset.sum_range_one]
    show -1 ≤ (-1 : ℝ) * _ + 1 * _
    linarith
  have hso : sotVal po k env = 1 := by
    unfold sotVal
    rw [if_neg (by rw [h.toSetup.e_sot]; simp [slideOpts, Opts.default])]
    rfl
  rw [(slide_weights 1 nf).step h D.feas (fun _ => (slide_colloc 1 nf).1) hk (show 0 < slideModel.nX from one_pos)]
  have e3 : (slideOpts 1 nf).nS = 2 := rfl
  rw [e3, Finset.sum_range_succ, Finset.sum_range_one, hso, one_mul, one_mul]
  have b0 := hst 0 (by norm_num)
  have b1 := hst 1 (by norm_num)
  have : -1 ≤ slideW 0 * slideModel.stageRhs po m.dims k e 0 0 env
      + slideW 1 * slideModel.stageRhs po m.dims k e 1 0 env := by
    simp only [slideW]
    norm_num
    linarith
  nlinarith

/-- The hypotheses are met: `ẋ = -sign x` from the initial state 4 with any number `nf ≥ 2` of elements.  All
elements lie in the first region with distance at least 2, and the solution is `4 - t`. -/
example (nf : Nat) (hn : 2 ≤ nf) : ∃ po m oc P S r φ,
    SwitchedRun demoColloc (slideOpts 1 nf) slideModel none po m oc P (exactOracle P) S r 0 2 ∧
    slideModel.Passes (slideOpts 1 nf) (fun k => S.m.pVal.getD k []) (po.rbe = true) (fun _ _ _ => 0) nf 2 r.res ∧
    slideModel.SwitchedReference (slideOpts 1 nf) (fun k => S.m.pVal.getD k []) (fun _ _ _ => 0) nf
      (slideOpts 1 nf).nS 1 r.res φ ∧
    (∀ h ∈ r.res.timeSteps, 0 ≤ h ∧ h ≤ 2 / nf) ∧ r.res.xTraj.length = nf + 1 ∧
    φ 0 = toVec 1 S.m.x0 := by
  obtain ⟨po, m, oc, P, h0, hrb⟩ := slide_setup_pos .stewart Nat.one_pos (by omega : 0 < nf)
  replace h0 : SetupEx demoColloc (slideOpts 1 nf) slideModel (some UserOcp.trivial) po m oc P := h0
  have h : SetupEx demoColloc (slideOpts 1 nf) slideModel none po m oc _ :=
    ⟨h0.toSetup.toNone, rfl, by simp [UserOcp.trivial]⟩
  have h' := h.toSetup
  obtain ⟨hcr, hS, hrd⟩ := h'.create (exactOracle _) (by simp [slideOpts, Opts.default])
  have hL : (slideOpts 1 nf).nfeAfter.length = (slideOpts 1 nf).nStages := by
    simp [slideOpts, Opts.default, Opts.nfeAfter]
  have hS' := hS.set .x0 (.vec [4])
  have hrd' : Ready slideModel (Solver.set ⟨po, m, _, none, []⟩ .x0 (.vec [4])).1 := ⟨rfl, hrd.guess⟩
  obtain ⟨w0, lam00, hini, -⟩ := C54_initialise_writes_x0 h' hS' hrd' Nat.one_pos (.inl rfl)
  obtain ⟨r, hok⟩ := C49_solve_succeeds _ h' hS' hrd' rfl hini Nat.one_pos hL
    (fun _ s hs s' hs' => by rw [slide_sys hs, slide_sys hs'])
  have hq : IsPair po m.dims (.region 0 0) := by
    refine ⟨h'.e_pss, ?_, ?_⟩
    · rw [h'.dims.2.2.2.2.2.2.1]; exact Nat.one_pos
    · rw [h'.dims.2.2.2.2.2.2.2.1 h'.e_pss 0 Nat.one_pos]; exact Nat.two_pos
  have hsu : r.status = .success := by
    refine C100_one_switch (u := fun _ _ => 0) (v := fun _ => 0) h hS' (exactOracle_complete _) hok rfl
      (fun _ => by norm_num [slideOpts, Opts.default])
      (by norm_num [slideOpts, Opts.default]) (by norm_num [slideOpts, Opts.default]) rfl rfl hrb (.inl rfl) rfl
      (slide_oneSwitch Nat.one_pos hn h0) (slide_plain 1 nf) (fun _ => slide_colloc 1 nf) (slide_weights 1 nf)
      ?_ ?_ ?_
    · intro k hk x; rfl
    · intro k _ i hi; simp [slideModel] at hi
    · intro i _; exact ⟨bot_le, le_top⟩
  have hrun : SwitchedRun demoColloc (slideOpts 1 nf) slideModel none po m oc _ (exactOracle _) _ r 0 2 :=
    ⟨h, hS', hL, exactOracle_exact _, hok, hsu, rfl, .inl rfl, .inl rfl, by simp [slideOpts, Opts.default], rfl,
      slide_signs 1 nf, rfl, ⟨_, hq⟩, fun k _ s hs n x => by obtain rfl := slide_sys hs; rfl, ?_, ?_⟩
  · have hqn : ∀ k < (slideOpts 1 nf).nStages, nf ≤ (slideOpts 1 nf).nfeAfter.getD k 0 := by
      intro k hk
      obtain rfl : k = 0 := by simpa [slideOpts] using hk
      simp [slideOpts, Opts.default, Opts.nfeAfter]
    obtain ⟨env, sigma, tau, D, -, hR, hp, hx0, -⟩ := success_relaxed h hS' hL (exactOracle_exact _) hok hsu
      (.inl (.inr (.inl rfl))) (.inl rfl) rfl
    have hst := steps_small h ((h.spec D.feas)) hR (fun _ => by norm_num [slideOpts, Opts.default])
      (by norm_num [slideOpts, Opts.default]) (by omega : 0 < nf) hqn
    have hst' : ∀ h ∈ r.res.timeSteps, 0 ≤ h ∧ h ≤ 2 / nf := by
      intro s hs
      refine ⟨(hst s hs).1, (hst s hs).2.trans (le_of_eq ?_)⟩
      norm_num [slideOpts, Opts.default]
      ring
    have hx0' := x0_of_params h' hx0 fun t ht _ => hp t ht
    have hpos : (0 : ℝ) < nf := by exact_mod_cast (by omega : 0 < nf)
    have e1 : po.nStages = 1 := h'.e_nStages
    have e2 : nfe po 0 = nf := by
      unfold nfe
      rw [h'.opts]
      simp [slideOpts, Opts.default, Opts.nfeAfter]
    have hfe : ∀ e, e < nf → HasFE po 0 e := fun e he => ⟨by rw [e1]; exact Nat.one_pos, by rw [e2]; exact he⟩
    have low : ∀ e, e < nf → 4 - e * (2 / nf) ≤ (startVal po m.dims 0 e env).getD 0 0 := by
      intro e
      induction e with
      | zero =>
        intro _
        rw [startVal_first (by simp [prevFe]), ← hx0']
        show 4 - ((0 : Nat) : ℝ) * (2 / nf) ≤ ([4] : List ℝ).getD 0 0
        norm_num
      | succ e ih =>
        intro he
        have hk := hfe e (by omega)
        have hm : hVal po 0 e env ∈ r.res.timeSteps := by
          rw [hR.steps]
          exact List.mem_map.2 ⟨(0, e), by rw [elements_eq_allFE, mem_allFE]; exact hk, rfl⟩
        have h1 := slide_drop h D hk (hst' _ hm).1
        have h2 := (hst' _ hm).2
        rw [startVal_prev (k' := 0) (e' := e) (by simp [prevFe])]
        have := ih (by omega)
        push_cast
        linarith
    refine ⟨po, m, oc, _, _, r, fun t _ => 4 - t, hrun, ?_, ?_, hst', ?_, ?_⟩
    · intro k hk e he hN x x' hx hx' s hs
      obtain rfl := slide_sys hs
      obtain rfl : k = 0 := by simpa [slideOpts] using hk
      have he : e < nf := by simpa using hN
      rw [xTraj_start h' hL hR hx0' (hfe e he)] at hx
      obtain rfl := Option.some.inj hx
      refine ⟨show 0 < 2 by norm_num, .inl fun n _ _ => ?_⟩
      show (2 : ℝ) ≤ 1 * (startVal po m.dims 0 e env).getD 0 0
      have h1 := low e he
      have h2 : (e : ℝ) * (2 / nf) ≤ 2 := by
        rw [mul_div_assoc', div_le_iff₀ hpos]
        have : (e : ℝ) ≤ nf := by exact_mod_cast he.le
        linarith
      linarith
    · intro k hk e he hN u v t t' hu hv ht ht'
      rw [slide_field]
      exact four_solution t t'
    · rw [hR.xTraj, List.length_cons, List.length_map, length_elements, e1]
      simp [e2]
    · funext i
      fin_cases i
      show (4 : ℝ) - 0 = ([4] : List ℝ).getD 0 0
      norm_num
  · exact slide_jump
  · exact fun reg _ u p v x y => slide_lipschitz reg u p v x y

end Nosnoc
