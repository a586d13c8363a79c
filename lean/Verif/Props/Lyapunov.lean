import Verif.Props.Descend
import Verif.Props.ExactSim
/-
C123: Lyapunov functions of the discontinuous system.
-/
namespace Nosnoc

section
variable {colloc : IrkScheme → Nat → List ℝ} {o : Opts} {um : UserModel} {uo : Option UserOcp}
  {po : PreOpts} {m : PreModel} {oc : PreOcp} {P : Problem} {orc : Oracle} {S : Solver}
  {r : SolveResult} {env : Env} {stop : Bool} {L L' : Looper} {N : Nat} {x0 : List ℝ} {pv : Option Arr}
  {wi : Option (List Arr)} {R : SimResults} {b : Bool}

/-- With one stage at the end of the element (implicit Euler) and exact complementarity, the right-hand side
used in the step belongs to the Filippov set at the end of the step. -/
theorem ExactPoint.euler_filippov (D : ExactPoint o po m P env) (h : SetupEx colloc o um uo po m oc P)
    (hF : um.F.isSome = true) (hS : SignsOk o um) (hz : um.nZ = 0) (hb : po.rbe = true) (h1 : o.nS = 1)
    {k e : Nat} (hk : HasFE po k e) :
    um.InFilippov (xEndVal po m.dims k e env) (uVal m.dims k env) (pVal m.dims k env) (vVal m.dims env)
      fun row => um.stageRhs po m.dims k e 0 row env := by
  have hz' : m.dims.nZ = 0 := by rw [h.toSetup.dims.2.2.1, hz]
  obtain ⟨hw, hr⟩ := D.weights h hF hS hk (j := 0) (by omega)
  have he := C16_last_stage_is_end h D.feas hb hk
  rw [h1] at he
  simp only [Nat.sub_self] at he
  refine ⟨wgt o um env k e 0, fun s hs => ⟨(hw s hs).1, (hw s hs).2, fun i hi hne => ?_⟩, fun row _ => ?_⟩
  · exact SwitchAt.closed h hF hS (D.switch_end h hz' hk) (fun q hq => D.last_nonneg h hk hq)
      (fun q hq hθ => D.last h hk hq (by omega) (.inl hb) hθ) hs hi hne
  · beta_reduce
    rw [hr row, he, zVal_nil hz']
    rfl

/-- Options under which a SUCCESS is a point with exact complementarity. -/
structure PolishedOpts (o : Opts) (um : UserModel) : Prop where
  polish : o.polish = true
  fesd : o.useFesd = true
  mode : o.mpcc = .scholtesIneq ∨ o.mpcc = .scholtesEq ∨
    ((o.mpcc = .fischerBurmeister ∨ o.mpcc = .fischerBurmeisterIpAug) ∧ o.crossComp = .complementAll)
  pss : o.pss = .stewart ∨ um.nSys ≤ 1
  sot : o.sot ≠ .local
  gamma : o.gammaH ≤ 1
  time : 0 ≤ o.terminalTime

/-- The integration scheme and the problem are of one of the two kinds for which Lyapunov functions are inherited:
one stage at the end of the element (implicit Euler); or piecewise constant systems, where the complementarity
conditions reach the end of every element and the switching functions are the same in all control stages. -/
def LyapunovScheme (o : Opts) (um : UserModel) (po : PreOpts) : Prop :=
  po.rbe = true ∧ o.nS = 1 ∨
  um.PiecewiseConstant ∧ (po.rbe = true ∨ o.crossComp = .sumLambdas) ∧
    (o.nStages = 1 ∨ ∀ s < um.nSys, ∀ n x p p', (um.cVec s).entry n x [] p = (um.cVec s).entry n x [] p')

/-- C123: over every element of every feasible point with exact complementarity, a Lyapunov function of the
discontinuous system does not increase. -/
theorem C123_element (h : SetupEx colloc o um uo po m oc P) (D : ExactPoint o po m P env)
    (hF : um.F.isSome = true) (hS : SignsOk o um) (hz : um.nZ = 0)
    (h0 : um.InitialMultipliers po m.dims env) (hsch : LyapunovScheme o um po)
    {w : Nat → ℝ} (hb : SchemeWeights colloc o w)
    (hc : o.irkRep = .integral → CollocOk (colloc o.scheme o.nS) o.nS)
    (hsot : o.sot ≠ .local) (hγ : o.gammaH ≤ 1) (hT : 0 ≤ o.terminalTime)
    {V : List ℝ → ℝ} {q : List ℝ → Nat → ℝ} (hV : um.Lyapunov V q) {k e : Nat} (hk : HasFE po k e) :
    V (xEndVal po m.dims k e env) ≤ V (startVal po m.dims k e env) := by
  have hso : sotVal po k env = 1 := by
    unfold sotVal
    rw [if_neg (by rw [h.toSetup.e_sot]; exact hsot)]
    rfl
  have hh := hVal_nonneg h.toSetup hγ hT (h.spec D.feas) hk
  have hd := h.toSetup.dims.1
  have hl1 : (xEndVal po m.dims k e env).length = um.nX := by rw [length_xEndVal, hd]
  have hl2 : (startVal po m.dims k e env).length = um.nX := by rw [length_startVal, hd]
  have hcv := hV.1 _ _ hl1 hl2
  obtain ⟨y, W, hW, hy, hfil⟩ : ∃ (y : Nat → ℝ) (W : ℝ), 0 ≤ W ∧ (∀ i < um.nX,
      (xEndVal po m.dims k e env).getD i 0 = (startVal po m.dims k e env).getD i 0
        + hVal po k e env * (W * y i)) ∧
      um.InFilippov (xEndVal po m.dims k e env) (uVal m.dims k env) (pVal m.dims k env) (vVal m.dims env) y := by
    rcases hsch with ⟨hr, h1⟩ | ⟨hpc, hr, hsame⟩
    · refine ⟨_, w 0, hb.nonneg 0 (by omega), fun i hi => ?_, D.euler_filippov h hF hS hz hr h1 hk⟩
      rw [hb.step h D.feas hc hk hi, hso, h1]
      simp
    · have hsm : um.SameSwitching po m.dims env := by
        intro k hk s hs n x
        rcases hsame with h1 | h1
        · obtain rfl : k = 0 := by have := h.e_nStages; omega
          rfl
        · exact h1 s hs _ _ _ _
      obtain ⟨y, y1, y2⟩ := D.segment h hF hS hpc h0 hsm hb hc hk (hr.imp_right .inl)
      refine ⟨y, ∑ j ∈ Finset.range o.nS, w j, (hb.sum_pos h).le, fun i hi => ?_, ?_⟩
      · rw [y1 i hi, hso, mul_one]
      · have := y2 (fun i => (xEndVal po m.dims k e env).getD i 0) 1 zero_le_one le_rfl fun i hi => by ring
        have e1 : (List.range um.nX).map (fun i => (xEndVal po m.dims k e env).getD i 0)
            = xEndVal po m.dims k e env := by
          rw [← hl1]; exact map_getD_range _
        rwa [e1] at this
  have hq := hV.2 _ _ _ _ _ hl1 hfil
  rw [Finset.sum_congr (g := fun i => - (hVal po k e env * W) * (q (xEndVal po m.dims k e env) i * y i)) rfl
    fun i hi => by rw [hy i (Finset.mem_range.1 hi)]; ring, ← Finset.mul_sum] at hcv
  have : 0 ≤ - (hVal po k e env * W) * ∑ i ∈ Finset.range um.nX, q (xEndVal po m.dims k e env) i * y i := by
    rw [neg_mul, neg_nonneg]
    exact mul_nonpos_of_nonneg_of_nonpos (mul_nonneg hh hW) hq
  linarith

/-- The point with exact complementarity behind a SUCCESS with polishing. -/
theorem polished_point (h : SetupEx colloc o um uo po m oc P) (hS : Reachable colloc o um uo orc S)
    (hL : o.nfeAfter.length = o.nStages) (hon : orc.Exact P) (hok : (S.solve orc).2 = .ok r)
    (hs : r.status = .success) (hpo : PolishedOpts o um) (hz : um.nZ = 0) :
    ∃ env, ExactPoint o po m P env ∧ um.InitialMultipliers po m.dims env ∧
      ResultsSpec po m.dims S.m.x0 env r.res ∧ S.m.x0 = (List.range m.dims.nX).map fun i => env (.x0 i) := by
  have h' := h.toSetup
  have hi := hS.inv h'
  obtain ⟨hrd, -⟩ := ready_of_ok h' hi hok
  obtain ⟨env, sigma, tau, f1, -, hR, f4, f5, -, f7⟩ := C87_success_is_feasible h hS hL hon hok hs
  have hnb : o.mpcc ≠ .boolean := by
    rcases hpo.mode with hm | hm | ⟨hm | hm, -⟩ <;> rw [hm] <;> decide
  obtain ⟨g1, g2⟩ := initial_of_params h' hi hrd.x0 hz (f5 hpo.pss)
  have hsig : env .sigma = 0 := by
    rw [f4 _ (sigma_mem h') fun hc => hc]
    exact (f7 hpo.polish).1
  refine ⟨env, ⟨hpo.fesd, ?_, (h.iff hnb).2 f1, hsig, ?_, g2⟩, g1, hR, ?_⟩
  · rcases hpo.mode with hm | hm | ⟨hm, hcc⟩
    · exact .inl (.inr (.inl hm))
    · exact .inl (.inl hm)
    · exact .inr ⟨hm, fun _ => hcc⟩
  · intro hs
    rcases hpo.mode with hm | hm | ⟨hm | hm, -⟩ <;> rw [hm] at hs <;> simp at hs
  · have : ∀ i ∈ List.range m.dims.nX, env (.x0 i) = S.m.x0.getD i 0 := by
      intro i hi
      rw [f4 _ (x0_mem h' (List.mem_range.1 hi)) fun hc => hc]; rfl
    rw [List.map_congr_left this, h'.dims.1, ← hrd.x0]
    exact (map_getD_range _).symm

/-- Neighbouring states of a SUCCESS with polishing. -/
theorem lyapunov_chain (h : SetupEx colloc o um uo po m oc P) (hL : o.nfeAfter.length = o.nStages)
    (hon : orc.Exact P) (hpo : PolishedOpts o um) (hF : um.F.isSome = true) (hsg : SignsOk o um) (hz : um.nZ = 0)
    (hsch : LyapunovScheme o um po) {w : Nat → ℝ} (hb : SchemeWeights colloc o w)
    (hcol : o.irkRep = .integral → CollocOk (colloc o.scheme o.nS) o.nS)
    {V : List ℝ → ℝ} {q : List ℝ → Nat → ℝ} (hV : um.Lyapunov V q) (T : Solver) (r : SolveResult)
    (hT : Reachable colloc o um uo orc T) (hok : (T.solve orc).2 = .ok r) (hs : r.status = .success) :
    r.res.xTraj.IsChain fun x y => V y ≤ V x := by
  obtain ⟨env, D, h0, hR, hx⟩ := polished_point h hT hL hon hok hs hpo hz
  exact xTraj_chain h.toSetup hL hR hx fun k e hk =>
    C123_element h D hF hsg hz h0 hsch hb hcol hpo.sot hpo.gamma hpo.time hV hk

/-- C123: with polishing and an NLP solver whose accepted points satisfy their constraints, Lyapunov functions of
the discontinuous system do not increase along the states of the trajectory of any SUCCESS. -/
theorem C123_reported (h : SetupEx colloc o um uo po m oc P) (hS : Reachable colloc o um uo orc S)
    (hL : o.nfeAfter.length = o.nStages) (hon : orc.Exact P) (hok : (S.solve orc).2 = .ok r)
    (hs : r.status = .success) (hpo : PolishedOpts o um) (hF : um.F.isSome = true) (hsg : SignsOk o um)
    (hz : um.nZ = 0) (hsch : LyapunovScheme o um po) {w : Nat → ℝ} (hb : SchemeWeights colloc o w)
    (hcol : o.irkRep = .integral → CollocOk (colloc o.scheme o.nS) o.nS)
    {V : List ℝ → ℝ} {q : List ℝ → Nat → ℝ} (hV : um.Lyapunov V q) (n n' : Nat) (x x' : List ℝ) (hn : n ≤ n')
    (hx : r.res.xTraj[n]? = some x) (hx' : r.res.xTraj[n']? = some x') : V x' ≤ V x :=
  chain_anti (lyapunov_chain h hL hon hpo hF hsg hz hsch hb hcol hV S r hS hok hs) n n' x x' hn hx hx'

/-- C123 for simulations: if all steps are reported as SUCCESS, the function does not increase along the states
in `X_sim`. -/
theorem C123_simulation (h : SetupEx colloc o um uo po m oc P) (hS : Reachable colloc o um uo orc S)
    (hL : o.nfeAfter.length = o.nStages) (hon : orc.Exact P)
    (hc : Looper.create S x0 N pv wi = .ok L)
    (hrun : L.run orc stop = (L', .ok b)) (hR : L'.getResults = .ok R)
    (hst : ∀ s ∈ R.status, s = .success) (hpo : PolishedOpts o um) (hF : um.F.isSome = true)
    (hsg : SignsOk o um) (hz : um.nZ = 0) (hsch : LyapunovScheme o um po) {w : Nat → ℝ}
    (hb : SchemeWeights colloc o w)
    (hcol : o.irkRep = .integral → CollocOk (colloc o.scheme o.nS) o.nS)
    {V : List ℝ → ℝ} {q : List ℝ → Nat → ℝ} (hV : um.Lyapunov V q) (n n' : Nat) (x x' : List ℝ) (hn : n ≤ n')
    (hx : R.xSim[n]? = some x) (hx' : R.xSim[n']? = some x') : V x' ≤ V x :=
  chain_anti (sim_chain h hL hS hc hrun hR hst (lyapunov_chain h hL hon hpo hF hsg hz hsch hb hcol hV))
    n n' x x' hn hx hx'

end

end Nosnoc
