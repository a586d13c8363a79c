import Verif.Props.Selection
import Verif.Props.ExactSim
import Verif.Props.Progress
import Verif.Props.Time
import Verif.Spec.Accuracy
/-
C108: what SUCCESS says about the accuracy of the reported trajectory.
-/
namespace Nosnoc

section
variable {colloc : IrkScheme → Nat → List ℝ} {o : Opts} {um : UserModel} {uo : Option UserOcp}
  {po : PreOpts} {m : PreModel} {oc : PreOcp} {P : Problem} {orc : Oracle} {S : Solver}
  {r : SolveResult} {env : Env} {sigma tau : ℝ}

/-- The parameters of a stage at a point that carries the values stored in the solver object. -/
theorem pVal_of_params_stage (h : Setup colloc o um uo po m oc P) (hS : Inv po m P S)
    (hp : ∀ t ∈ P.p, ¬ IsLam00 t → env t = paramVal um S sigma tau t) {k : Nat} (hk : k < po.nStages) :
    pVal m.dims k env = S.m.pVal.getD k [] := by
  have hl : (S.m.pVal.getD k []).length = m.dims.nPtv + m.dims.nPgl := by
    refine hS.pRow _ ?_
    rw [List.getD_eq_getElem?_getD, List.getElem?_eq_getElem (by rw [hS.pLen]; exact hk)]
    exact List.getElem_mem _
  unfold pVal
  rw [← hl]
  have : ∀ i ∈ List.range (S.m.pVal.getD k []).length,
      env (.pStage k i) = (S.m.pVal.getD k []).getD i 0 := by
    intro i hi
    rw [hp _ (pStage_mem h hk (by rw [← hl]; exact List.mem_range.1 hi)) fun hc => hc]
    rfl
  rw [List.map_congr_left this]
  exact map_getD_range _

/-- The last NLP solution of a successful `solve` without polishing, as a point of a relaxed problem, and
the residual it ends with. -/
theorem success_point (h : SetupEx colloc o um uo po m oc P) (hS : Reachable colloc o um uo orc S)
    (hL : o.nfeAfter.length = o.nStages) (hon : orc.Exact P) (hok : (S.solve orc).2 = .ok r)
    (hs : r.status = .success) (hpol : o.polish = false) (hm : ExactMode o)
    (hpss : o.pss = .stewart ∨ um.nSys ≤ 1) (hz : um.nZ = 0) :
    ∃ (env : Env) (n : Nat) (tau : ℝ), 0 < n ∧ n ≤ po.maxIterHomotopy ∧
      (S.solve orc).1.log.length = S.log.length + n ∧
      RelaxedPoint o po m P env ∧ um.InitialMultipliers po m.dims env ∧
      ResultsSpec po m.dims S.m.x0 env r.res ∧
      (∀ t ∈ P.p, env t = paramVal um S (sigmaAt o (n - 1)) tau t) ∧
      (P.compRes env < o.compTol ∨ sigmaAt o (n - 1) ≤ o.sigmaN ∨ n = po.maxIterHomotopy) := by
  have h' := h.toSetup
  have hi := hS.inv h'
  obtain ⟨hr, S1, lam00, hini⟩ := ready_of_ok h' hi hok
  obtain ⟨lam, w0, lbx, ubx, n, calls, sols, hlam, hh, hlog, hw, hwl, -, -, -, -, -, -⟩ :=
    C49_results_of_last_solve orc h' hS hr hpol hok
  obtain ⟨env, sigma, tau, f1, f2, f3, f4, f5, f6, -⟩ := C87_success_is_feasible h hS hL hon hok hs
  obtain ⟨k, hk, hsig, htau⟩ := f6 hpol
  have hkn : k = n - 1 := by
    rw [hlog, List.length_append, List.length_map, List.length_range] at hk
    have := hh.pos
    omega
  subst hkn
  subst hsig htau
  obtain ⟨g1, g2⟩ := initial_of_params h' hi hr.x0 hz (f5 hpss)
  have hnb : o.mpcc ≠ .boolean := by
    rcases hm with (hm | hm | hm | hm) | ⟨hm | hm, -⟩ <;> rw [hm] <;> decide
  have ho : S.o = po := hi.opts
  refine ⟨env, n, _, hh.pos, ho ▸ hh.le, ?_, ⟨hm, (h.iff hnb).2 f1, g2⟩, g1, f3, f5 hpss, ?_⟩
  · rw [hlog, List.length_append, List.length_map, List.length_range]
  · have hst := hh.stop
    have hsched : sigmaAt po.toOpts (n - 1) = sigmaAt o (n - 1) := by
      rw [h'.opts]
      generalize n - 1 = k
      clear * -
      induction k with
      | zero => rfl
      | succ k ih => rw [sigmaAt_succ, ih, sigmaAt_succ]; rfl
    have hres : S.residual (sols (n - 1)).x (calls (n - 1)).p = P.compRes env := by
      rw [hini] at hlam
      obtain rfl : lam00 = lam := by injection hlam
      have hpe : (calls (n - 1)).p = P.p.map env := by
        rw [hh.params (n - 1) (by have := hh.pos; omega), ho, hsched]
        have := pValues_paramVal h' hi hr.x0 hini hpss (sigmaAt o (n - 1))
          (min (sigmaAt o (n - 1) ^ (3 / 2 : ℝ)) (sigmaAt o (n - 1)))
        rw [this, hi.p]
        exact (List.map_congr_left (f5 hpss)).symm
      have hwl' : r.wSol.length = P.form.w.length := by rw [hwl, hi.w]
      have hP : S.residual (sols (n - 1)).x (calls (n - 1)).p
          = P.compRes (P.point r.wSol (calls (n - 1)).p) := by
        unfold Solver.residual
        rw [← hw, hi.prob]
        rfl
      rw [hP]
      unfold Problem.compRes evalVec
      congr 1
      refine List.map_congr_left (C84_closed h' h.sound (fun t ht => ?_) fun t ht => ?_).2.2
      · have := (h'.point_w (p := (calls (n - 1)).p) hwl').trans f2.symm
        exact List.map_inj_left.1 this t ht
      · have := h'.point_p (p := (calls (n - 1)).p) hwl' (by rw [hpe]; simp)
        rw [hpe] at this
        rw [hpe]
        exact List.map_inj_left.1 this t ht
    rw [hres, ho, h'.e_compTol, h'.e_sigmaN, hsched] at hst
    exact hst

/-- The state at the beginning of element `(k, e)` in the reported trajectory. -/
theorem xTraj_start (h : Setup colloc o um uo po m oc P) (hL : o.nfeAfter.length = o.nStages)
    {x0 : List ℝ} {res : Results} (hR : ResultsSpec po m.dims x0 env res)
    (hx : x0 = (List.range m.dims.nX).map fun i => env (.x0 i)) {k e : Nat} (hk : HasFE po k e) :
    res.xTraj[(o.nfeAfter.take k).sum + e]? = some (startVal po m.dims k e env) := by
  have hlist : po.nfeList = o.nfeAfter := by rw [h.opts]
  have hL' : po.nfeList.length = po.nStages := by rw [hlist, hL, h.e_nStages]
  have step : ∀ k e, HasFE po k e →
      res.xTraj[(o.nfeAfter.take k).sum + e + 1]? = some (xEndVal po m.dims k e env) := by
    intro k e hk
    rw [hR.xTraj, List.getElem?_cons_succ, List.getElem?_map, ← hlist, elements_get hL' hk]
    rfl
  cases e with
  | succ e =>
    rw [startVal_prev (k' := k) (e' := e) (by simp [prevFe])]
    exact step k e ⟨hk.1, by have := hk.2; omega⟩
  | zero =>
    cases k with
    | zero =>
      rw [startVal_first (by simp [prevFe]), hR.xTraj, hx]
      simp
    | succ k =>
      have hk' : k < po.nStages := by have := hk.1; omega
      have hn := (h.built.ok.primal.nfe k hk').2
      rw [startVal_prev (k' := k) (e' := nfe po k - 1) (by simp [prevFe])]
      have hs : (o.nfeAfter.take (k + 1)).sum = (o.nfeAfter.take k).sum + nfe po k := by
        rw [List.take_add_one, List.sum_append, ← hlist]
        congr 1
        unfold nfe
        rw [List.getD_eq_getElem?_getD, List.getElem?_eq_getElem (by omega)]
        simp
      have := step k (nfe po k - 1) ⟨hk', by omega⟩
      rw [← this, hs]
      congr 1
      omega

/-- C108: if the NLP solver is exact and `solve` (without polishing) reports SUCCESS after `n` NLP solves, the
reported trajectory of a piecewise constant system follows the regions it lies in up to some `ε`, which is at
most the last homotopy parameter (Fischer-Burmeister: half its square).  It is less than `comp_tol`, or the
last homotopy parameter is at most `sigma_N`, or the budget of NLP solves was used up. -/
theorem C108_accuracy (h : SetupEx colloc o um uo po m oc P) (hS : Reachable colloc o um uo orc S)
    (hL : o.nfeAfter.length = o.nStages) (hon : orc.Exact P) (hok : (S.solve orc).2 = .ok r)
    (hs : r.status = .success) (hpol : o.polish = false) (hu : o.useFesd = true)
    (hmode : o.mpcc = .scholtesIneq ∨ o.mpcc = .scholtesEq ∨
      ((o.mpcc = .fischerBurmeister ∨ o.mpcc = .fischerBurmeisterIpAug) ∧ o.crossComp = .complementAll))
    (hpss : o.pss = .stewart ∨ um.nSys ≤ 1) (hsot : o.sot ≠ .local)
    (hF : um.F.isSome = true) (hsg : SignsOk o um) (hpc : um.PiecewiseConstant)
    (hq : ∃ q, IsPair po m.dims q)
    (hsw : ∀ k < o.nStages, ∀ s < um.nSys, ∀ n x, (um.cVec s).entry n x [] (S.m.pVal.getD k [])
      = (um.cVec s).entry n x [] (S.m.pVal.getD 0 []))
    {b : Nat → ℝ} (hb : SchemeWeights colloc o b)
    (hcol : o.irkRep = .integral → CollocOk (colloc o.scheme o.nS) o.nS) :
    ∃ (n : Nat) (W ε : ℝ), 0 < n ∧ n ≤ po.maxIterHomotopy ∧
      (S.solve orc).1.log.length = S.log.length + n ∧
      (o.irkRep = .integral → W = 1) ∧ |W - 1| ≤ 1 / 10 ^ 11 ∧
      FollowsRegions o um (fun k => S.m.pVal.getD k []) (po.rbe = true) W ε r.res ∧
      (o.mpcc = .scholtesIneq ∨ o.mpcc = .scholtesEq → ε ≤ sigmaAt o (n - 1)) ∧
      (o.mpcc = .fischerBurmeister ∨ o.mpcc = .fischerBurmeisterIpAug → ε ≤ sigmaAt o (n - 1) ^ 2 / 2) ∧
      (ε < o.compTol ∨ sigmaAt o (n - 1) ≤ o.sigmaN ∨ n = po.maxIterHomotopy) := by
  have h' := h.toSetup
  have hi := hS.inv h'
  have hm : ExactMode o := by
    rcases hmode with hm | hm | ⟨hm, hcc⟩
    · exact .inl (.inr (.inl hm))
    · exact .inl (.inl hm)
    · exact .inr ⟨hm, fun _ => hcc⟩
  obtain ⟨env, n, tau, n1, n2, hlog, D, hI, hR, hp, hstop⟩ :=
    success_point h hS hL hon hok hs hpol hm hpss hpc.noZ
  obtain ⟨q, hq⟩ := hq
  have hres := C97_residual D h hq
  have hsig : env .sigma = sigmaAt o (n - 1) := hp _ (sigma_mem h')
  have hlist : po.nfeList = o.nfeAfter := by rw [h'.opts]
  have hL' : po.nfeList.length = po.nStages := by rw [hlist, hL, h'.e_nStages]
  have hst := Nat.pos_of_ne_zero h'.built.ok.primal.stages
  have hpk : ∀ k < po.nStages, pVal m.dims k env = S.m.pVal.getD k [] := fun k hk =>
    pVal_of_params_stage h' hi (fun t ht _ => hp t ht) hk
  have hsame : um.SameSwitching po m.dims env := by
    intro k hk s hs n x
    rw [hpk k hk, hpk 0 hst]
    exact hsw k (h'.e_nStages ▸ hk) s hs n x
  obtain ⟨hrd, -⟩ := ready_of_ok h' hi hok
  have hx0 : S.m.x0 = (List.range m.dims.nX).map fun i => env (.x0 i) := by
    have : ∀ i ∈ List.range m.dims.nX, env (.x0 i) = S.m.x0.getD i 0 := by
      intro i hi
      rw [hp _ (x0_mem h' (List.mem_range.1 hi))]; rfl
    rw [List.map_congr_left this, h'.dims.1, ← hrd.x0]
    exact (map_getD_range _).symm
  obtain ⟨W1, W2⟩ := C92_weights h hb
  refine ⟨n, ∑ j ∈ Finset.range o.nS, b j, P.compRes env, n1, n2, hlog, W1, W2, ?_, ?_, ?_, hstop⟩
  · intro k hk e he
    have hFE : HasFE po k e := ⟨by rw [h'.e_nStages]; exact hk, by unfold nfe; rw [hlist]; exact he⟩
    refine ⟨startVal po m.dims k e env, xEndVal po m.dims k e env, uVal m.dims k env, vVal m.dims env,
      hVal po k e env, xTraj_start h' hL hR hx0 hFE, ?_, ?_, ?_, hR.v, fun δ reg hδ hreg row hrow M hM => ?_⟩
    · rw [hR.xTraj, List.getElem?_cons_succ, List.getElem?_map, ← hlist, elements_get hL' hFE]
      rfl
    · rw [hR.steps, List.getElem?_map, ← hlist, elements_get hL' hFE]
      rfl
    · rw [hR.uList, List.getElem?_map, List.getElem?_range hFE.1]
      rfl
    · have hso : sotVal po k env = 1 := by
        unfold sotVal
        rw [if_neg (by rw [h'.e_sot]; exact hsot)]
        rfl
      beta_reduce at hM hreg ⊢
      rw [← hpk k hFE.1] at hM hreg ⊢
      have := C97_element D h hu hF hsg hpc hI hsame hb hcol le_rfl hδ hFE (reg := reg)
        (fun s hs => ⟨(hreg s hs).1, (hreg s hs).2.imp id .inr⟩) hrow hM
      rw [hso, mul_one] at this
      exact this
  · intro hm
    refine hres.trans (le_of_eq ?_)
    unfold relaxTol
    rcases hm with hm | hm <;> rw [hm] <;> exact hsig
  · intro hm
    refine hres.trans (le_of_eq ?_)
    unfold relaxTol
    rcases hm with hm | hm <;> rw [hm, ← hsig]

/-- The tolerance with the automatic budget and the LINEAR update. -/
theorem tol_of_budget (h : SetupEx colloc o um uo po m oc P)
    (hmax : o.maxIterHomotopy = 0) (hrule : o.rule = .linear) (h0 : 0 < o.slope) (h1 : o.slope < 1)
    (hc : 0 < o.compTol) (hcs : o.compTol ≤ o.sigma0) {n : Nat} {ε : ℝ} (e1 : ε ≤ sigmaAt o (n - 1))
    (e2 : ε < o.compTol ∨ sigmaAt o (n - 1) ≤ o.sigmaN ∨ n = po.maxIterHomotopy) :
    ε ≤ max (o.compTol / √o.slope) o.sigmaN := by
  rcases e2 with e2 | e2 | e2
  · refine le_max_of_le_left (e2.le.trans ?_)
    rw [le_div_iff₀ (Real.sqrt_pos.2 h0)]
    have : √o.slope ≤ 1 := Real.sqrt_le_one.2 h1.le
    nlinarith
  · exact le_max_of_le_right (e1.trans e2)
  · refine le_max_of_le_left (e1.trans ?_)
    rw [e2]
    have hpre : o.preprocess colloc = .ok po := by
      have hok := h.toSetup.ok
      unfold construct at hok
      simp only [bind_eq_ok] at hok
      obtain ⟨_, -, po', h1, h2⟩ := hok
      obtain ⟨_, -, _, -, _, -, h3⟩ := h2
      cases h3
      exact h1
    exact (C48_default_budget hpre hmax hrule h0 h1 hc hcs).2.1

/-- C108 with the automatic budget (`max_iter_homotopy = 0`), the LINEAR update and a Scholtes mode: SUCCESS
always means that the reported trajectory follows the regions it lies in up to the larger of `comp_tol /
sqrt(slope)` and `sigma_N`. -/
theorem C108_default_budget (h : SetupEx colloc o um uo po m oc P) (hS : Reachable colloc o um uo orc S)
    (hL : o.nfeAfter.length = o.nStages) (hon : orc.Exact P) (hok : (S.solve orc).2 = .ok r)
    (hs : r.status = .success) (hpol : o.polish = false) (hu : o.useFesd = true)
    (hmode : o.mpcc = .scholtesIneq ∨ o.mpcc = .scholtesEq)
    (hmax : o.maxIterHomotopy = 0) (hrule : o.rule = .linear) (h0 : 0 < o.slope) (h1 : o.slope < 1)
    (hc : 0 < o.compTol) (hcs : o.compTol ≤ o.sigma0)
    (hpss : o.pss = .stewart ∨ um.nSys ≤ 1) (hsot : o.sot ≠ .local)
    (hF : um.F.isSome = true) (hsg : SignsOk o um) (hpc : um.PiecewiseConstant)
    (hq : ∃ q, IsPair po m.dims q)
    (hsw : ∀ k < o.nStages, ∀ s < um.nSys, ∀ n x, (um.cVec s).entry n x [] (S.m.pVal.getD k [])
      = (um.cVec s).entry n x [] (S.m.pVal.getD 0 []))
    {b : Nat → ℝ} (hb : SchemeWeights colloc o b)
    (hcol : o.irkRep = .integral → CollocOk (colloc o.scheme o.nS) o.nS) :
    ∃ W ε : ℝ, (o.irkRep = .integral → W = 1) ∧ |W - 1| ≤ 1 / 10 ^ 11 ∧
      ε ≤ max (o.compTol / √o.slope) o.sigmaN ∧
      FollowsRegions o um (fun k => S.m.pVal.getD k []) (po.rbe = true) W ε r.res := by
  obtain ⟨n, W, ε, n1, n2, -, w1, w2, hf, e1, -, e2⟩ := C108_accuracy h hS hL hon hok hs hpol hu
    (hmode.imp id .inl) hpss hsot hF hsg hpc hq hsw hb hcol
  refine ⟨W, ε, w1, w2, ?_, hf⟩
  exact tol_of_budget h hmax hrule h0 h1 hc hcs (e1 hmode) e2

/-- C108 for simulations: every step of a simulation that is reported as SUCCESS follows the regions it lies
in, with the parameters of this step. -/
theorem C108_simulation {x0 : List ℝ} {N : Nat} {pv : Option Arr} {wi : Option (List Arr)}
    {L L' : Looper} {stop bb : Bool} {R : SimResults}
    (h : SetupEx colloc o um uo po m oc P) (hL : o.nfeAfter.length = o.nStages)
    (hS : Reachable colloc o um uo orc S) (hon : orc.Exact P)
    (hc : Looper.create S x0 N pv wi = .ok L)
    (hrun : L.run orc stop = (L', .ok bb)) (hR : L'.getResults = .ok R)
    (hpol : o.polish = false) (hu : o.useFesd = true)
    (hmode : o.mpcc = .scholtesIneq ∨ o.mpcc = .scholtesEq)
    (hmax : o.maxIterHomotopy = 0) (hrule : o.rule = .linear) (h0 : 0 < o.slope) (h1 : o.slope < 1)
    (hct : 0 < o.compTol) (hcs : o.compTol ≤ o.sigma0)
    (hpss : o.pss = .stewart ∨ um.nSys ≤ 1) (hsot : o.sot ≠ .local)
    (hF : um.F.isSome = true) (hsg : SignsOk o um) (hpc : um.PiecewiseConstant)
    (hq : ∃ q, IsPair po m.dims q)
    {b : Nat → ℝ} (hb : SchemeWeights colloc o b)
    (hcol : o.irkRep = .integral → CollocOk (colloc o.scheme o.nS) o.nS) :
    ∃ before result calls, Simulation orc S L'.solver x0 N o.nfeAfter.sum before result calls R ∧
      ∀ i < N, R.status[i]? = some .success →
        ∃ W ε : ℝ, (o.irkRep = .integral → W = 1) ∧ |W - 1| ≤ 1 / 10 ^ 11 ∧
          ε ≤ max (o.compTol / √o.slope) o.sigmaN ∧
          FollowsRegions o um (fun _ => (before i).m.pVal.headD []) (po.rbe = true) W ε (result i).res := by
  have h' := h.toSetup
  obtain ⟨result, calls, sim, q1, -⟩ := run_sim h' hL hS hc hrun hR
  obtain ⟨⟨-, hN1, -⟩, -⟩ := (C64_create_iff h' hS x0 N pv wi).1.1 ⟨L, hc⟩
  refine ⟨beforeStep orc L, result, calls, sim, fun i hi hst => ?_⟩
  have hst' : (result i).status = .success := by
    rw [sim.status, List.getElem?_map, List.getElem?_range hi] at hst
    exact Option.some.inj hst
  obtain ⟨W, ε, w1, w2, w3, w4⟩ := C108_default_budget h (q1 i hi).1 hL hon (sim.solved i hi).1 hst' hpol hu
    hmode hmax hrule h0 h1 hct hcs hpss hsot hF hsg hpc hq
    (fun k hk s _ n x => by obtain rfl : k = 0 := by omega
                            rfl) hb hcol
  refine ⟨W, ε, w1, w2, w3, fun k hk e he => ?_⟩
  obtain rfl : k = 0 := by omega
  have hh : (beforeStep orc L i).m.pVal.headD [] = (beforeStep orc L i).m.pVal.getD 0 [] := by
    cases (beforeStep orc L i).m.pVal <;> rfl
  rw [hh]
  exact w4 0 hk e he

end

/-- The hypotheses of C108 are met by every simulation of `ẋ = -sign x` from any initial state, with an NLP
solver that is exact and complete: all steps succeed.  So from `x0 = 1` the first reported step is `-h` up to
`h * ε`. -/
example (x0 : ℝ) (N nf : Nat) (hn : 2 ≤ nf) : ∃ po m oc P S L L' R,
    SetupEx demoColloc (slideOpts 1 nf) slideModel none po m oc P ∧
    (slideOpts 1 nf).nfeAfter.length = (slideOpts 1 nf).nStages ∧
    Reachable demoColloc (slideOpts 1 nf) slideModel none (exactOracle P) S ∧
    (exactOracle P).Exact P ∧ Looper.create S [x0] N none none = .ok L ∧
    L.run (exactOracle P) false = (L', .ok true) ∧ L'.getResults = .ok R ∧
    R.status = List.replicate N .success ∧
    (slideOpts 1 nf).polish = false ∧ (slideOpts 1 nf).useFesd = true ∧
    (slideOpts 1 nf).mpcc = .scholtesIneq ∧ (slideOpts 1 nf).maxIterHomotopy = 0 ∧
    (slideOpts 1 nf).rule = .linear ∧ 0 < (slideOpts 1 nf).slope ∧ (slideOpts 1 nf).slope < 1 ∧
    0 < (slideOpts 1 nf).compTol ∧ (slideOpts 1 nf).compTol ≤ (slideOpts 1 nf).sigma0 ∧
    (slideOpts 1 nf).pss = .stewart ∧ (slideOpts 1 nf).sot ≠ .local ∧ slideModel.F.isSome = true ∧
    SignsOk (slideOpts 1 nf) slideModel ∧ slideModel.PiecewiseConstant ∧ (∃ q, IsPair po m.dims q) ∧
    SchemeWeights demoColloc (slideOpts 1 nf) slideW ∧
    CollocOk (demoColloc (slideOpts 1 nf).scheme (slideOpts 1 nf).nS) (slideOpts 1 nf).nS ∧ po.rbe = true := by
  obtain ⟨po, m, oc, P, h0, hr⟩ := slide_setup_pos .stewart Nat.one_pos (by omega : 0 < nf)
  replace h0 : SetupEx demoColloc (slideOpts 1 nf) slideModel (some UserOcp.trivial) po m oc P := h0
  have h : SetupEx demoColloc (slideOpts 1 nf) slideModel none po m oc _ :=
    ⟨h0.toSetup.toNone, rfl, by simp [UserOcp.trivial]⟩
  have h' := h.toSetup
  obtain ⟨hcr, hS, hrd⟩ := h'.create (exactOracle _) (by simp [slideOpts, Opts.default])
  have hL : (slideOpts 1 nf).nfeAfter.length = (slideOpts 1 nf).nStages := by
    simp [slideOpts, Opts.default, Opts.nfeAfter]
  obtain ⟨L, hc⟩ := (C64_create_iff h' hS [x0] N none none).1.2 ⟨⟨rfl, rfl, rfl⟩, .inl rfl⟩
  obtain ⟨L', R, hrun, hR⟩ := C62_run_returns h' hL hS hrd Nat.one_pos rfl (fun hp => nomatch hp) (.inl ⟨.inl rfl, rfl⟩)
    (fun _ s hs s' hs' => by rw [slide_sys hs, slide_sys hs']) hc false
  have hq : IsPair po m.dims (.region 0 0) := by
    refine ⟨h'.e_pss, ?_, ?_⟩
    · rw [h'.dims.2.2.2.2.2.2.1]; exact Nat.one_pos
    · rw [h'.dims.2.2.2.2.2.2.2.1 h'.e_pss 0 Nat.one_pos]; exact Nat.two_pos
  refine ⟨po, m, oc, _, _, L, L', R, h, hL, hS, exactOracle_exact _, hc, hrun, hR, ?_, rfl, rfl, rfl, rfl, rfl,
    by norm_num [slideOpts, Opts.default], by norm_num [slideOpts, Opts.default],
    by norm_num [slideOpts, Opts.default], by norm_num [slideOpts, Opts.default], rfl,
    by simp [slideOpts, Opts.default], rfl, slide_signs 1 nf, slide_pc, ⟨_, hq⟩, slide_weights 1 nf,
    (slide_colloc 1 nf).1, hr⟩
  exact C100_simulation h hL hS (exactOracle_complete _) hc hrun hR rfl
    (fun _ => by norm_num [slideOpts, Opts.default])
    (by norm_num [slideOpts, Opts.default]) (by norm_num [slideOpts, Opts.default]) rfl rfl hr (.inl rfl) rfl
    (slide_oneSwitch Nat.one_pos hn h0) (slide_plain 1 nf) (fun _ => slide_colloc 1 nf) (slide_weights 1 nf)

end Nosnoc
