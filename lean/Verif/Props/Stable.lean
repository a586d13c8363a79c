import Verif.Props.Converge
import Verif.Proofs.RkStable
/-
C130: the reported states are determined by the initial state, the controls, the parameters and the step lengths.
-/
namespace Nosnoc

/-- A successful solve of a smooth system without algebraic variables. -/
structure SmoothSolve (colloc : IrkScheme → Nat → List ℝ) (o : Opts) (um : UserModel) (uo : Option UserOcp)
    (po : PreOpts) (m : PreModel) (oc : PreOcp) (P : Problem) (orc : Oracle) (S : Solver) (r : SolveResult)
    (L : ℝ) (g : Nat → (x z u p v : List ℝ) → ℝ) : Prop where
  setup : SetupEx colloc o um uo po m oc P
  reach : Reachable colloc o um uo orc S
  lists : o.nfeAfter.length = o.nStages
  /-- points the NLP solver accepts satisfy their constraints -/
  exact : orc.Exact P
  ok : (S.solve orc).2 = .ok r
  success : r.status = .success
  mpcc : o.mpcc ≠ .boolean
  sot : o.sot ≠ .local
  stewart : o.pss = .stewart → um.F.isSome = true
  step : o.pss = .step → ∀ s < um.nSys, (um.Smat s).IsSign ∧ (um.Smat s).Partition
  nz : um.nZ = 0
  /-- the vector field is the same in all regions -/
  rhs : um.SmoothRhs g
  lipschitz : ∀ u p v x y, ‖um.field g u p v x - um.field g u p v y‖ ≤ L * ‖x - y‖

theorem elements_count {po : PreOpts} (hL : po.nfeList.length = po.nStages) :
    (elements po).length = po.nfeList.sum := by
  rw [length_elements]
  unfold nfe
  rw [← hL]
  congr 1
  refine List.ext_getElem (by simp) fun i h1 h2 => ?_
  simp [List.getD_eq_getElem?_getD, h2]

section
variable {colloc : IrkScheme → Nat → List ℝ}

theorem SmoothRun.solve {o : Opts} {um : UserModel} {uo : Option UserOcp} {po : PreOpts} {m : PreModel}
    {oc : PreOcp} {P : Problem} {orc : Oracle} {S : Solver} {r : SolveResult} {L D : ℝ}
    {g : Nat → (x z u p v : List ℝ) → ℝ} {φ : ℝ → Fin um.nX → ℝ}
    (h : SmoothRun colloc o um uo po m oc P orc S r L D g φ) :
    SmoothSolve colloc o um uo po m oc P orc S r L g :=
  ⟨h.setup, h.reach, h.lists, h.exact, h.ok, h.success, h.mpcc, h.sot, h.stewart, h.step, h.nz, h.rhs,
    h.lipschitz⟩

/-- Such a solve steps through the elements with the Runge-Kutta method of the options: the states at the grid
points, the stages and the step lengths. -/
theorem SmoothSolve.steps {o : Opts} {um : UserModel} {uo : Option UserOcp} {po : PreOpts} {m : PreModel}
    {oc : PreOcp} {P : Problem} {orc : Oracle} {S : Solver} {r : SolveResult} {L : ℝ}
    {g : Nat → (x z u p v : List ℝ) → ℝ} (A : SmoothSolve colloc o um uo po m oc P orc S r L g)
    {a : Nat → Nat → ℝ} {b : Nat → ℝ}
    (hform : ∀ {env : Env}, P.form.Feasible env → ∀ k e, HasFE po k e →
        (∀ j < o.nS, ∀ i < um.nX, (xVal po m.dims k e j env).getD i 0 = (startVal po m.dims k e env).getD i 0
          + hVal po k e env * ∑ r ∈ Finset.range o.nS,
            a j r * (sotVal po k env * um.stageRhs po m.dims k e r i env)) ∧
        ∀ i < um.nX, (xEndVal po m.dims k e env).getD i 0 = (startVal po m.dims k e env).getD i 0
          + hVal po k e env * ∑ r ∈ Finset.range o.nS,
            b r * (sotVal po k env * um.stageRhs po m.dims k e r i env)) :
    r.res.xTraj.length = o.nfeAfter.sum + 1 ∧ r.res.xTraj[0]? = some S.m.x0 ∧ S.m.x0.length = um.nX ∧
    r.res.tGrid = (List.range (o.nfeAfter.sum + 1)).map (fun n => (r.res.timeSteps.take n).sum) ∧
    ∀ k < o.nStages, ∀ e < o.nfeAfter.getD k 0, ∃ (u v xs xe : List ℝ) (h : ℝ) (X : Nat → Fin um.nX → ℝ),
      r.res.uList[k]? = some u ∧ r.res.vGlobal = [v] ∧
      r.res.xTraj[(o.nfeAfter.take k).sum + e]? = some xs ∧ r.res.xTraj[(o.nfeAfter.take k).sum + e + 1]? = some xe ∧
      xe.length = um.nX ∧ r.res.timeSteps[(o.nfeAfter.take k).sum + e]? = some h ∧
      (∀ j < o.nS, X j = toVec um.nX xs + h • ∑ q ∈ Finset.range o.nS,
        a j q • um.field g u (S.m.pVal.getD k []) v (X q)) ∧
      toVec um.nX xe = toVec um.nX xs + h • ∑ q ∈ Finset.range o.nS,
        b q • um.field g u (S.m.pVal.getD k []) v (X q) := by
  obtain ⟨h, hS, hLn, hon, hok, hs, hb, hsot, hF, hsg, hz, hg, hLip⟩ := A
  have h' := h.toSetup
  have hi := hS.inv h'
  obtain ⟨hrd, -⟩ := ready_of_ok h' hi hok
  obtain ⟨env, sigma, tau, f1, -, hR, f4, -⟩ := C87_success_is_feasible h hS hLn hon hok hs
  have hf : P.form.Feasible env := (h.iff hb).2 f1
  have hlist : po.nfeList = o.nfeAfter := by rw [h'.opts]
  have hL' : po.nfeList.length = po.nStages := by rw [hlist, hLn, h'.e_nStages]
  have hlen : (elements po).length = o.nfeAfter.sum := by rw [elements_count hL', hlist]
  have hx0 := x0_of_params h' hrd.x0 f4
  refine ⟨by rw [hR.xTraj]; simp [hlen], by rw [hR.xTraj]; rfl, hrd.x0, by rw [hR.grid, hlen], ?_⟩
  intro k hk e he
  have hfe : HasFE po k e := ⟨h'.e_nStages ▸ hk, by unfold nfe; rw [hlist]; exact he⟩
  have hq := elements_get hL' hfe
  rw [hlist] at hq
  obtain ⟨-, x1, x2, x3⟩ := xTraj_pos h' hLn hR hx0 hq
  obtain ⟨fm1, fm2⟩ := hform hf k e hfe
  have hK : ∀ j < o.nS, ∀ i : Fin um.nX, sotVal po k env * um.stageRhs po m.dims k e j i env
      = um.field g (uVal m.dims k env) (S.m.pVal.getD k []) (vVal m.dims env)
        (toVec um.nX (xVal po m.dims k e j env)) i := by
    intro j hj i
    have hso : sotVal po k env = 1 := by
      unfold sotVal
      rw [if_neg (by rw [h'.e_sot]; exact hsot)]
      rfl
    have hpv : pVal m.dims k env = S.m.pVal.getD k [] := pVal_of_params_stage h' hi
      (fun t ht hl => f4 t ht hl) hfe.1
    rw [hso, one_mul, stageRhs_unswitched h hf hF hsg (hg i i.2) hfe hj, hpv,
      zVal_nil (by rw [h'.dims.2.2.1, hz])]
    unfold UserModel.field
    rw [toVec_ofFn (by rw [length_xVal, h'.dims.1])]
  refine ⟨uVal m.dims k env, vVal m.dims env, _, _, _, fun j => toVec um.nX (xVal po m.dims k e j env),
    by rw [hR.uList, List.getElem?_map, List.getElem?_range hfe.1]; rfl, hR.v, x1, x2, ?_, x3, fun j hj => ?_, ?_⟩
  · unfold xEndVal
    simp [h'.dims.1]
  · funext i
    simp only [toVec, Pi.add_apply, Pi.smul_apply, Finset.sum_apply, smul_eq_mul]
    rw [fm1 j hj i i.2]
    congr 2
    refine Finset.sum_congr rfl fun q hq => ?_
    rw [hK q (Finset.mem_range.1 hq) i]
  · funext i
    simp only [toVec, Pi.add_apply, Pi.smul_apply, Finset.sum_apply, smul_eq_mul]
    rw [fm2 i i.2]
    congr 2
    refine Finset.sum_congr rfl fun q hq => ?_
    rw [hK q (Finset.mem_range.1 hq) i]

/-- C130: stability.  Fix the scheme, the number of stages and the representation, and a Lipschitz constant `L`.
There are a step length `H0` and a constant `C` such that the following holds for every smooth system with this
Lipschitz constant and every two successful solves of it on the same grid, with the same step lengths, reported
controls, global variables and parameters, and whatever initial states, other options, objectives, guesses and
NLP solvers: if the steps are at most `H0`, the reported states at time `t` differ by at most `exp (C t)` times
the difference of the initial states. -/
theorem C130_stable {sc : IrkScheme} {n : Nat} {rep : IrkRep} (hn : 0 < n)
    (hcol : rep = .integral → CollocOk (colloc sc n) n ∧ ∀ t ∈ colloc sc n, 0 ≤ t ∧ t ≤ 1)
    {L : ℝ} (hL0 : 0 ≤ L) :
    ∃ H0 > 0, ∃ C ≥ 0, ∀ {o o' : Opts} {um : UserModel} {uo uo' : Option UserOcp} {po po' : PreOpts}
      {m m' : PreModel} {oc oc' : PreOcp} {P P' : Problem} {orc orc' : Oracle} {S S' : Solver}
      {r r' : SolveResult} {g : Nat → (x z u p v : List ℝ) → ℝ},
      o.scheme = sc → o.nS = n → o.irkRep = rep → o'.scheme = sc → o'.nS = n → o'.irkRep = rep →
      o'.nStages = o.nStages → o'.nfeAfter = o.nfeAfter →
      SmoothSolve colloc o um uo po m oc P orc S r L g →
      SmoothSolve colloc o' um uo' po' m' oc' P' orc' S' r' L g →
      (∀ k < o.nStages, S'.m.pVal.getD k [] = S.m.pVal.getD k []) →
      r'.res.uList = r.res.uList → r'.res.vGlobal = r.res.vGlobal → r'.res.timeSteps = r.res.timeSteps →
      (∀ h ∈ r.res.timeSteps, 0 ≤ h ∧ h ≤ H0) →
      ∀ (N : Nat) (t : ℝ) (x x' : List ℝ), r.res.tGrid[N]? = some t → r.res.xTraj[N]? = some x →
        r'.res.xTraj[N]? = some x' →
        ∀ i : Fin um.nX, |x.getD i 0 - x'.getD i 0|
          ≤ Real.exp (C * t) * ‖toVec um.nX S.m.x0 - toVec um.nX S'.m.x0‖ := by
  by_cases hgen : rep ≠ .integral → ∃ t, generateButcher n sc = .ok t
  swap
  · refine ⟨1, one_pos, 0, le_rfl, ?_⟩
    intro o o' um uo uo' po po' m m' oc oc' P P' orc orc' S S' r r' g e1 e2 e3 _ _ _ _ _ A
    subst e1 e2 e3
    exact absurd (fun hr => (A.setup.toSetup.built.opts.diff hr).imp fun t ht => ht.1) hgen
  obtain ⟨a, b, c, δ, ho, hδ, hform⟩ := rk_form hn hcol hgen
  obtain ⟨A, hA0, hA, hB⟩ := coeff_bound n a b
  have hAL0 : 0 ≤ A * L := mul_nonneg hA0 hL0
  refine ⟨1 / (2 * (A * L) + 1), by positivity, 2 * A * L, by positivity, ?_⟩
  intro o o' um uo uo' po po' m m' oc oc' P P' orc orc' S S' r r' g e1 e2 e3 e1' e2' e3' eN eL B B' hpv hu hv hst
    hstep N
  subst e1 e2 e3
  obtain ⟨l1, s1, -, g1, st1⟩ := B.steps (a := a) (b := b) fun hf k e hk => hform B.setup rfl rfl rfl hf k e hk
  obtain ⟨l2, s2, -, g2, st2⟩ := B'.steps (a := a) (b := b) fun hf k e hk => by
    rw [e2']
    exact hform B'.setup e1' e2' e3' hf k e hk
  rw [eL] at l2
  rw [eN, eL, e2'] at st2
  have key : ∀ (N : Nat) (t : ℝ) (x x' : List ℝ), r.res.tGrid[N]? = some t → r.res.xTraj[N]? = some x →
        r'.res.xTraj[N]? = some x' → ‖toVec um.nX x - toVec um.nX x'‖
          ≤ Real.exp (2 * A * L * t) * ‖toVec um.nX S.m.x0 - toVec um.nX S'.m.x0‖ := by
    intro N
    induction N with
    | zero =>
      intro t x x' ht hx hx'
      rw [s1] at hx
      rw [s2] at hx'
      rw [g1] at ht
      simp at ht
      rw [← Option.some.inj hx, ← Option.some.inj hx', ← ht]
      simp
    | succ N ih =>
      intro t x x' ht hx hx'
      have hN : N < o.nfeAfter.sum := by
        have := (List.getElem?_eq_some_iff.1 hx).1
        omega
      obtain ⟨k, e, hk, he, hidx⟩ : ∃ k e, k < o.nStages ∧ e < o.nfeAfter.getD k 0 ∧
          N = (o.nfeAfter.take k).sum + e := by
        have h' := B.setup.toSetup
        have hlist : po.nfeList = o.nfeAfter := by rw [h'.opts]
        have hL' : po.nfeList.length = po.nStages := by rw [hlist, B.lists, h'.e_nStages]
        have hN' : N < (elements po).length := by rw [elements_count hL', hlist]; exact hN
        obtain ⟨q, hq⟩ : ∃ q, (elements po)[N]? = some q := ⟨_, List.getElem?_eq_getElem hN'⟩
        have hk : HasFE po q.1 q.2 := by
          have := List.mem_of_getElem? hq
          rw [elements_eq_allFE, mem_allFE] at this
          exact this
        refine ⟨q.1, q.2, h'.e_nStages ▸ hk.1, by have := hk.2; unfold nfe at this; rwa [hlist] at this, ?_⟩
        have hg := elements_get hL' hk
        rw [hlist] at hg
        have hnd : (elements po).Nodup := by rw [elements_eq_allFE]; exact allFE_nodup
        have l2 := (List.getElem?_eq_some_iff.1 hg).1
        refine (List.Nodup.getElem_inj_iff hnd (hi := hN') (hj := l2)).1 ?_
        have a1 := (List.getElem?_eq_some_iff.1 hq).2
        have a2 := (List.getElem?_eq_some_iff.1 hg).2
        rw [a1, a2]
      obtain ⟨u, v, xs, xe, h, X, q1, q2, q3, q4, -, q5, q6, q7⟩ := st1 k hk e he
      obtain ⟨u', v', xs', xe', h'', X', q1', q2', q3', q4', -, q5', q6', q7'⟩ := st2 k hk e he
      rw [hu, q1] at q1'
      rw [hv, q2] at q2'
      rw [hst, q5] at q5'
      obtain rfl := Option.some.inj q1'
      obtain rfl : v = v' := by simpa using q2'
      obtain rfl := Option.some.inj q5'
      rw [hpv k hk] at q6' q7'
      rw [← hidx] at q3 q4 q3' q4' q5
      rw [q4] at hx
      rw [q4'] at hx'
      obtain rfl := Option.some.inj hx
      obtain rfl := Option.some.inj hx'
      set t0 := (r.res.timeSteps.take N).sum with ht0
      have hg0 : r.res.tGrid[N]? = some t0 := by
        rw [g1, List.getElem?_map, List.getElem?_range (by omega)]
        rfl
      have hg' : t = t0 + h := by
        rw [g1, List.getElem?_map, List.getElem?_range (by omega)] at ht
        have ht := Option.some.inj ht
        rw [← ht]
        beta_reduce
        rw [List.take_add_one, q5]
        simp [ht0]
      obtain ⟨b1, b2⟩ := hstep h (List.mem_of_getElem? q5)
      have b4 : h * (A * L) ≤ 1 / 2 := by
        rw [le_div_iff₀ (by positivity)] at b2
        nlinarith
      have est := (rk_stable hn b1 hA hB (B.lipschitz u (S.m.pVal.getD k []) v) hL0 b4 q6 q7 q6' q7').2
      have i2 := ih t0 _ _ hg0 q3 q3'
      rw [hg', mul_add (2 * A * L), Real.exp_add, mul_comm (Real.exp _), mul_assoc]
      exact est.trans (mul_le_mul_of_nonneg_left i2 (Real.exp_pos _).le)
  intro t x x' ht hx hx' i
  have := norm_le_pi_norm (toVec um.nX x - toVec um.nX x') i
  rw [Real.norm_eq_abs, Pi.sub_apply] at this
  exact this.trans (key N t x x' ht hx hx')

/-- C130: in particular, from the same initial state they report the same trajectory. -/
theorem C130_unique {sc : IrkScheme} {n : Nat} {rep : IrkRep} (hn : 0 < n)
    (hcol : rep = .integral → CollocOk (colloc sc n) n ∧ ∀ t ∈ colloc sc n, 0 ≤ t ∧ t ≤ 1)
    {L : ℝ} (hL0 : 0 ≤ L) :
    ∃ H0 > 0, ∀ {o o' : Opts} {um : UserModel} {uo uo' : Option UserOcp} {po po' : PreOpts}
      {m m' : PreModel} {oc oc' : PreOcp} {P P' : Problem} {orc orc' : Oracle} {S S' : Solver}
      {r r' : SolveResult} {g : Nat → (x z u p v : List ℝ) → ℝ},
      o.scheme = sc → o.nS = n → o.irkRep = rep → o'.scheme = sc → o'.nS = n → o'.irkRep = rep →
      o'.nStages = o.nStages → o'.nfeAfter = o.nfeAfter →
      SmoothSolve colloc o um uo po m oc P orc S r L g →
      SmoothSolve colloc o' um uo' po' m' oc' P' orc' S' r' L g →
      (∀ k < o.nStages, S'.m.pVal.getD k [] = S.m.pVal.getD k []) → S'.m.x0 = S.m.x0 →
      r'.res.uList = r.res.uList → r'.res.vGlobal = r.res.vGlobal → r'.res.timeSteps = r.res.timeSteps →
      (∀ h ∈ r.res.timeSteps, 0 ≤ h ∧ h ≤ H0) →
      r'.res.xTraj = r.res.xTraj := by
  obtain ⟨H0, hH0, C, -, hC⟩ := C130_stable (colloc := colloc) hn hcol hL0
  refine ⟨H0, hH0, ?_⟩
  intro o o' um uo uo' po po' m m' oc oc' P P' orc orc' S S' r r' g e1 e2 e3 e1' e2' e3' eN eL B B' hpv hx0 hu hv hst
    hstep
  have key := hC e1 e2 e3 e1' e2' e3' eN eL B B' hpv hu hv hst hstep
  have len : ∀ {o um uo po m oc P orc S r}, SmoothSolve colloc o um uo po m oc P orc S r L g →
      r.res.xTraj.length = o.nfeAfter.sum + 1 ∧ r.res.tGrid.length = o.nfeAfter.sum + 1 ∧
      ∀ x ∈ r.res.xTraj, x.length = um.nX := by
    intro o um uo po m oc P orc S r A
    have h' := A.setup.toSetup
    obtain ⟨hrd, -⟩ := ready_of_ok h' (A.reach.inv h') A.ok
    obtain ⟨env, sigma, tau, -, -, hR, -⟩ := C87_success_is_feasible A.setup A.reach A.lists A.exact A.ok A.success
    have hlist : po.nfeList = o.nfeAfter := by rw [h'.opts]
    have hlen : (elements po).length = o.nfeAfter.sum := by
      rw [elements_count (by rw [hlist, A.lists, h'.e_nStages]), hlist]
    refine ⟨by rw [hR.xTraj]; simp [hlen], by rw [hR.grid]; simp [hlen], fun x hx => ?_⟩
    rw [hR.xTraj] at hx
    rcases List.mem_cons.1 hx with rfl | hx
    · exact hrd.x0
    · obtain ⟨q, -, rfl⟩ := List.mem_map.1 hx
      unfold xEndVal
      simp [h'.dims.1]
  obtain ⟨l1, l2, l3⟩ := len B
  obtain ⟨l1', -, l3'⟩ := len B'
  refine List.ext_getElem (by rw [l1, l1', eL]) fun N h1 h2 => ?_
  have := key N _ _ _ (List.getElem?_eq_getElem (by omega)) (List.getElem?_eq_getElem h2) (List.getElem?_eq_getElem h1)
  rw [hx0, sub_self, norm_zero, mul_zero] at this
  have c1 := l3 _ (List.getElem_mem h2)
  have c2 := l3' _ (List.getElem_mem h1)
  refine List.ext_getElem (by rw [c1, c2]) fun i h3 h4 => ?_
  have h5 := this ⟨i, by omega⟩
  have h6 := abs_nonpos_iff.1 h5
  simp only [List.getD_eq_getElem?_getD, List.getElem?_eq_getElem h3, List.getElem?_eq_getElem h4,
    Option.getD_some] at h6
  linarith

/-- C130: without FESD, and for systems without controls and global variables, it is determined by the initial
state, the parameters and the grid: the guess, the NLP solver, the homotopy and the complementarity mode do not
matter. -/
theorem C130_no_fesd {sc : IrkScheme} {n : Nat} {rep : IrkRep} (hn : 0 < n)
    (hcol : rep = .integral → CollocOk (colloc sc n) n ∧ ∀ t ∈ colloc sc n, 0 ≤ t ∧ t ≤ 1)
    {L : ℝ} (hL0 : 0 ≤ L) :
    ∃ H0 > 0, ∀ {o o' : Opts} {um : UserModel} {uo uo' : Option UserOcp} {po po' : PreOpts}
      {m m' : PreModel} {oc oc' : PreOcp} {P P' : Problem} {orc orc' : Oracle} {S S' : Solver}
      {r r' : SolveResult} {g : Nat → (x z u p v : List ℝ) → ℝ},
      o.scheme = sc → o.nS = n → o.irkRep = rep → o'.scheme = sc → o'.nS = n → o'.irkRep = rep →
      o'.nStages = o.nStages → o'.nfeAfter = o.nfeAfter → o'.terminalTime = o.terminalTime →
      o.useFesd = false → o'.useFesd = false → um.nU = 0 → um.nV = 0 →
      SmoothSolve colloc o um uo po m oc P orc S r L g →
      SmoothSolve colloc o' um uo' po' m' oc' P' orc' S' r' L g →
      (∀ k < o.nStages, S'.m.pVal.getD k [] = S.m.pVal.getD k []) → S'.m.x0 = S.m.x0 →
      0 ≤ o.terminalTime →
      ∀ q > 0, (∀ k < o.nStages, q ≤ o.nfeAfter.getD k 0) → o.terminalTime / (o.nStages * q) ≤ H0 →
      r'.res.xTraj = r.res.xTraj ∧ r'.res.tGrid = r.res.tGrid := by
  obtain ⟨H0, hH0, hC⟩ := C130_unique (colloc := colloc) hn hcol hL0
  refine ⟨H0, hH0, ?_⟩
  intro o o' um uo uo' po po' m m' oc oc' P P' orc orc' S S' r r' g e1 e2 e3 e1' e2' e3' eN eL eT f f' hU hV A A' hpv
    hx0 hT q hq hqn hle
  obtain ⟨env, sigma, tau, f1, -, hR, -⟩ := C87_success_is_feasible A.setup A.reach A.lists A.exact A.ok A.success
  obtain ⟨env', sigma', tau', -, -, hR', -⟩ :=
    C87_success_is_feasible A'.setup A'.reach A'.lists A'.exact A'.ok A'.success
  have h := A.setup.toSetup
  have h' := A'.setup.toSetup
  have els : elements po' = elements po := by
    unfold elements nfe
    rw [h.opts, h'.opts]
    simp only [eN, eL]
  have hst : r'.res.timeSteps = r.res.timeSteps := by
    rw [hR'.steps, hR.steps, els]
    refine List.map_congr_left fun q _ => ?_
    unfold hVal nominalH nfe
    rw [if_neg (by rw [h'.e_useFesd, f']; simp), if_neg (by rw [h.e_useFesd, f]; simp),
      h.e_nStages, h'.e_nStages, h.e_terminalTime, h'.e_terminalTime, show po.nfeList = o.nfeAfter by rw [h.opts],
      show po'.nfeList = o'.nfeAfter by rw [h'.opts], eN, eL, eT]
    rfl
  have hst' := steps_small A.setup f1 hR (by simp [f]) hT hq hqn
  rw [if_neg (by simp [f]), one_mul] at hst'
  refine ⟨hC e1 e2 e3 e1' e2' e3' eN eL A A' hpv hx0 ?_ ?_ hst fun s hs => ⟨(hst' s hs).1, (hst' s hs).2.trans hle⟩,
    by rw [hR'.grid, hR.grid, els, hst]⟩
  · rw [hR'.uList, hR.uList, h.e_nStages, h'.e_nStages, eN]
    refine List.map_congr_left fun k _ => ?_
    unfold uVal
    rw [h.dims.2.1, h'.dims.2.1, hU]
    rfl
  · rw [hR'.v, hR.v]
    unfold vVal
    rw [h.dims.2.2.2.1, h'.dims.2.2.2.1, hV]
    rfl

end
end Nosnoc
