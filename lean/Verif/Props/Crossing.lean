import Verif.Props.SimConverge
import Verif.Props.Descend
import Verif.Proofs.CrossingError
/-
C131: simulations of trajectories that cross a switching surface converge.
-/
namespace Nosnoc

/-- A simulation with FESD and polishing of a system with one switching function and two regions `i` and `i'`,
all of whose steps are reported as SUCCESS; the parameters have the values `p` in all steps. -/
structure CrossRun (colloc : IrkScheme → Nat → List ℝ) (o : Opts) (um : UserModel) (uo : Option UserOcp)
    (po : PreOpts) (m : PreModel) (oc : PreOcp) (P : Problem) (orc : Oracle) (S : Solver) (x0 : List ℝ) (N : Nat)
    (pv : Option Arr) (R : SimResults) (p : List ℝ) (bw : Nat → ℝ) (i i' : Nat) (L : ℝ) : Prop where
  sim : SimRun colloc o um uo po m oc P orc S x0 N pv R
  polish : o.polish = true
  fesd : o.useFesd = true
  mode : o.mpcc = .scholtesIneq ∨ o.mpcc = .scholtesEq ∨
    ((o.mpcc = .fischerBurmeister ∨ o.mpcc = .fischerBurmeisterIpAug) ∧ o.crossComp = .complementAll)
  fields : um.F.isSome = true
  signs : SignsOk o um
  one : um.nSys = 1
  two : (um.Fmat 0).nCols = 2
  single : (um.Smat 0).cols = 1
  regions : i < 2 ∧ i' < 2 ∧ i ≠ i'
  opposite : (um.Smat 0).entry i 0 = -(um.Smat 0).entry i' 0
  weights : SchemeWeights colloc o bw
  ends : po.rbe = true ∨ o.crossComp = .sumLambdas
  gamma : 0 ≤ o.gammaH ∧ o.gammaH ≤ 1
  time : 0 ≤ o.terminalTime
  params : ∀ k < N, simParams um S pv k = p
  lipschitz : ∀ x y, ‖um.regionField (fun _ => i) [] p [] x - um.regionField (fun _ => i) [] p [] y‖ ≤ L * ‖x - y‖
  lipschitz' : ∀ x y,
    ‖um.regionField (fun _ => i') [] p [] x - um.regionField (fun _ => i') [] p [] y‖ ≤ L * ‖x - y‖

section
variable {colloc : IrkScheme → Nat → List ℝ} {o : Opts} {um : UserModel} {uo : Option UserOcp}
  {po : PreOpts} {m : PreModel} {oc : PreOcp} {P : Problem} {orc : Oracle} {S : Solver} {x0 : List ℝ} {N : Nat}
  {pv : Option Arr} {R : SimResults} {p : List ℝ} {bw : Nat → ℝ} {i i' : Nat} {L : ℝ}

/-- A region with a positive weight in an element contains all Runge-Kutta points of the element in its closure. -/
theorem ExactPoint.closedStage {env : Env} (D : ExactPoint o po m P env) (h : SetupEx colloc o um uo po m oc P)
    (hF : um.F.isSome = true) (hS : SignsOk o um) (hz : m.dims.nZ = 0) {k e : Nat} (hk : HasFE po k e) {j j' : Nat}
    (hj : j < o.nS) (hj' : j' < o.nS) {s : Nat} (hs : s < um.nSys) {i : Nat} (hi : i < (um.Fmat s).nCols)
    (hw : wgt o um env k e j s i ≠ 0) :
    um.InClosedRegion s i (xVal po m.dims k e j' env) (pVal m.dims k env) := by
  have hsw : SwitchAt um po (xVal po m.dims k e j' env) (pVal m.dims k env) (lamAt k e j' env) := by
    have sw := ((h.spec D.feas).alg k e hk j' (h.e_nS ▸ hj')).1
    rw [zVal_nil hz] at sw
    unfold UserModel.Switching at sw
    unfold SwitchAt
    cases hp : po.pss with
    | stewart => rw [hp] at sw; exact fun s hs => ⟨_, fun i hi => sw s hs i hi⟩
    | step => rw [hp] at sw; exact fun s hs i hi => sw s hs i hi
  exact SwitchAt.closed h hF hS hsw
    (fun q hq => (stage_pairs h D.mode D.feas D.sigma D.slack D.lam00 hk hj' hq).2.1)
    (fun q hq hθ => (D.pair h hk hq hj hθ).1 j' hj') hs hi hw

/-- The elements of such a simulation as Runge-Kutta steps. -/
theorem CrossRun.steps (A : CrossRun colloc o um uo po m oc P orc S x0 N pv R p bw i i' L) {n : Nat}
    {a : Nat → Nat → ℝ} {b : Nat → ℝ} (hnS : o.nS = n)
    (hcol : o.irkRep = .integral → CollocOk (colloc o.scheme o.nS) o.nS)
    (hform : ∀ {env : Env}, P.form.Feasible env → ∀ k e, HasFE po k e →
        (∀ j < n, ∀ i < um.nX, (xVal po m.dims k e j env).getD i 0 = (startVal po m.dims k e env).getD i 0
          + hVal po k e env * ∑ r ∈ Finset.range n,
            a j r * (sotVal po k env * um.stageRhs po m.dims k e r i env)) ∧
        ∀ i < um.nX, (xEndVal po m.dims k e env).getD i 0 = (startVal po m.dims k e env).getD i 0
          + hVal po k e env * ∑ r ∈ Finset.range n,
            b r * (sotVal po k env * um.stageRhs po m.dims k e r i env)) :
    ∃ (h : Nat → ℝ) (X K : Nat → Nat → Fin um.nX → ℝ) (w : Nat → Nat → ℝ),
      SwitchSteps n a b bw (um.regionField (fun _ => i) [] p []) (um.regionField (fun _ => i') [] p [])
        (um.surface i' p) ((1 + o.gammaH) * (o.terminalTime / o.nfeAfter.sum)) (N * o.nfeAfter.sum)
        (fun k => toVec um.nX (R.xSim.getD k [])) (fun k => R.tGrid.getD k 0) h X K w ∧
      ∀ k < N * o.nfeAfter.sum, ∀ j < n, ∀ j' < n,
        (w k j ≠ 0 → um.surface i' p (X k j') ≤ 0) ∧ (w k j ≠ 1 → 0 ≤ um.surface i' p (X k j')) := by
  subst hnS
  have hr := A.sim
  have h := hr.setup
  have h' := h.toSetup
  have hu := A.fesd
  have hm : ExactMode o := by
    rcases A.mode with hm | hm | ⟨hm, hcc⟩
    · exact .inl (.inr (.inl hm))
    · exact .inl (.inl hm)
    · exact .inr ⟨hm, fun _ => hcc⟩
  obtain ⟨⟨hU, hN1, hnE0⟩, ⟨hx0, hlen, hlenT, hgrid⟩, before, result, hsteps⟩ := hr.steps
  have hsmall := hr.small (fun _ => ⟨A.gamma.1, A.gamma.2⟩) A.time
  rw [if_pos hu] at hsmall
  set nE := o.nfeAfter.sum with hnE
  have hz' : m.dims.nZ = 0 := h'.dims.2.2.1.trans hr.nz
  have hpt : ∀ k, ∃ env : Env, k < N → ExactPoint o po m P env ∧ um.InitialMultipliers po m.dims env ∧
      pVal m.dims 0 env = p ∧
      ∀ e < nE, HasFE po 0 e ∧
        R.xSim[k * nE + e]? = some (startVal po m.dims 0 e env) ∧
        R.xSim[k * nE + e + 1]? = some (xEndVal po m.dims 0 e env) ∧
        R.timeSteps[k * nE + e]? = some (hVal po 0 e env) := by
    intro k
    by_cases hk : k < N
    swap
    · exact ⟨fun _ => 0, fun hh => absurd hh hk⟩
    obtain ⟨a1, a2, a3, a4, a5⟩ := hsteps k hk
    have hinv := a1.inv h'
    obtain ⟨env, sigma, tau, Dp, hI, hR, hp, hx0, hpol, -⟩ :=
      success_relaxed h a1 hr.lists hr.exact a2 a3 hm (.inr A.one.le) hr.nz
    have hsig : env .sigma = 0 := (hp _ (sigma_mem h')).trans (hpol A.polish)
    refine ⟨env, fun _ => ⟨⟨hu, hm, Dp.feas, hsig, ?_, Dp.lam00⟩, hI,
      ((pVal_of_params h' hinv fun t ht _ => hp t ht).trans a4).trans (A.params k hk),
      a5 env hR (x0_of_params h' hx0 fun t ht _ => hp t ht)⟩⟩
    intro hs
    rcases A.mode with hm | hm | ⟨hm | hm, -⟩ <;> rw [hm] at hs <;> simp at hs
  choose E hE using hpt
  have hpos : ∀ k < N * nE, k / nE < N ∧ k % nE < nE ∧ k / nE * nE + k % nE = k := fun k hk =>
    ⟨Nat.div_lt_of_lt_mul (by rw [Nat.mul_comm]; omega), Nat.mod_lt _ hnE0, by
      rw [Nat.mul_comm]; exact Nat.div_add_mod k _⟩
  have hdat : ∀ k < N * nE, ExactPoint o po m P (E (k / nE)) ∧ um.InitialMultipliers po m.dims (E (k / nE)) ∧
      pVal m.dims 0 (E (k / nE)) = p ∧ HasFE po 0 (k % nE) ∧
      R.xSim.getD k [] = startVal po m.dims 0 (k % nE) (E (k / nE)) ∧
      R.xSim.getD (k + 1) [] = xEndVal po m.dims 0 (k % nE) (E (k / nE)) ∧
      R.timeSteps[k]? = some (hVal po 0 (k % nE) (E (k / nE))) := by
    intro k hk
    obtain ⟨k1, k2, k3⟩ := hpos k hk
    obtain ⟨c1, c2, c3, c4⟩ := hE _ k1
    obtain ⟨d1, d2, d3, d4⟩ := c4 _ k2
    rw [k3] at d2 d3 d4
    exact ⟨c1, c2, c3, d1, by rw [List.getD_eq_getElem?_getD, d2]; rfl,
      by rw [List.getD_eq_getElem?_getD, d3]; rfl, d4⟩
  have hsot : ∀ env, sotVal po 0 env = 1 := by
    intro env
    unfold sotVal
    rw [if_neg (by rw [h'.e_sot]; exact hr.sot)]
    rfl
  have hu0 : ∀ env, uVal m.dims 0 env = [] := by
    intro env; unfold uVal; rw [h'.dims.2.1, hU]; rfl
  have hv0 : ∀ env, vVal m.dims env = [] := by
    intro env; unfold vVal; rw [h'.dims.2.2.2.1, hr.nv]; rfl
  have hsame : ∀ env, um.SameSwitching po m.dims env := by
    intro env k' hk' s hs n x
    obtain rfl : k' = 0 := by have := h'.e_nStages; omega
    rfl
  obtain ⟨r1, r2, r3⟩ := A.regions
  have s0 : 0 < um.nSys := by rw [A.one]; exact one_pos
  -- weights
  have hW : ∀ k < N * nE, ∀ j < o.nS,
      0 ≤ wgt o um (E (k / nE)) 0 (k % nE) j 0 i ∧ 0 ≤ wgt o um (E (k / nE)) 0 (k % nE) j 0 i' ∧
      wgt o um (E (k / nE)) 0 (k % nE) j 0 i + wgt o um (E (k / nE)) 0 (k % nE) j 0 i' = 1 ∧
      ∀ row, um.stageRhs po m.dims 0 (k % nE) j row (E (k / nE))
        = (um.Fmat 0).entry row i (xVal po m.dims 0 (k % nE) j (E (k / nE))) [] [] p []
            * wgt o um (E (k / nE)) 0 (k % nE) j 0 i
          + (um.Fmat 0).entry row i' (xVal po m.dims 0 (k % nE) j (E (k / nE))) [] [] p []
            * wgt o um (E (k / nE)) 0 (k % nE) j 0 i' := by
    intro k hk j hj
    obtain ⟨c1, c2, c3, c4, -⟩ := hdat k hk
    obtain ⟨w1, w2⟩ := c1.weights h A.fields A.signs c4 hj
    obtain ⟨w3, w4⟩ := w1 0 s0
    have two : ∀ f : Nat → ℝ, ∑ q ∈ Finset.range 2, f q = f i + f i' := by
      intro f
      rw [Finset.sum_range_succ, Finset.sum_range_one]
      have : (i = 0 ∧ i' = 1) ∨ (i = 1 ∧ i' = 0) := by omega
      rcases this with ⟨rfl, rfl⟩ | ⟨rfl, rfl⟩
      · rfl
      · exact add_comm _ _
    rw [A.two, two] at w4
    refine ⟨w3 i (by rw [A.two]; exact r1), w3 i' (by rw [A.two]; exact r2), w4, fun row => ?_⟩
    rw [w2 row, c3, hu0, hv0, zVal_nil hz']
    unfold UserModel.rhsStewart
    rw [A.one, Finset.sum_range_one, A.two, two]
  have hcl : ∀ k < N * nE, ∀ j < o.nS, ∀ q < 2, wgt o um (E (k / nE)) 0 (k % nE) j 0 q ≠ 0 →
      0 ≤ um.surface q p (toVec um.nX (R.xSim.getD k [])) ∧
      0 ≤ um.surface q p (toVec um.nX (R.xSim.getD (k + 1) [])) := by
    intro k hk j hj q hq hw
    obtain ⟨c1, c2, c3, c4, c5, c6, -⟩ := hdat k hk
    obtain ⟨d1, d2⟩ := c1.closed h A.fields A.signs hz' c2 (hsame _) c4
      (A.ends.imp_right Or.inl) hj s0 (by rw [A.two]; exact hq) hw
    have e1 := d1 0 (by rw [A.single]; exact one_pos)
    have e2 := d2 0 (by rw [A.single]; exact one_pos)
    rw [c3] at e1 e2
    unfold UserModel.surface
    rw [c5, c6, toVec_ofFn (by rw [length_startVal, h'.dims.1]), toVec_ofFn (by rw [length_xEndVal, h'.dims.1])]
    exact ⟨e1, e2⟩
  have hopp : ∀ x, um.surface i p x = -um.surface i' p x := by
    intro x
    unfold UserModel.surface
    rw [A.opposite]
    ring
  refine ⟨fun k => R.timeSteps.getD k 0,
    fun k j => toVec um.nX (xVal po m.dims 0 (k % nE) j (E (k / nE))),
    fun k j row => um.stageRhs po m.dims 0 (k % nE) j row (E (k / nE)),
    fun k j => wgt o um (E (k / nE)) 0 (k % nE) j 0 i, ?_, ?_⟩
  swap
  · have hcs : ∀ k < N * nE, ∀ j < o.nS, ∀ j' < o.nS, ∀ q < 2, wgt o um (E (k / nE)) 0 (k % nE) j 0 q ≠ 0 →
        0 ≤ um.surface q p (toVec um.nX (xVal po m.dims 0 (k % nE) j' (E (k / nE)))) := by
      intro k hk j hj j' hj' q hq hw
      obtain ⟨c1, c2, c3, c4, -⟩ := hdat k hk
      have d := c1.closedStage h A.fields A.signs hz' c4 hj hj' s0 (by rw [A.two]; exact hq) hw
      have e1 := d 0 (by rw [A.single]; exact one_pos)
      rw [c3] at e1
      unfold UserModel.surface
      rw [toVec_ofFn (by rw [length_xVal, h'.dims.1])]
      exact e1
    intro k hk j hj j' hj'
    obtain ⟨w1, w2, w3, -⟩ := hW k hk j hj
    constructor
    · intro hw
      have e1 := hcs k hk j hj j' hj' i r1 hw
      rw [hopp] at e1
      linarith
    · exact fun hw => hcs k hk j hj j' hj' i' r2 fun h0 => hw (by rw [h0] at w3; linarith)
  have hgk : ∀ k ≤ N * nE, R.tGrid.getD k 0 = (R.timeSteps.take k).sum := by
    intro k hk
    rw [hgrid, List.getD_eq_getElem?_getD, List.getElem?_map, List.getElem?_range (by omega)]
    rfl
  have vecStep : ∀ k < N * nE, ∀ (v : Nat → ℝ) (y : List ℝ),
      (∀ r < um.nX, y.getD r 0 = (startVal po m.dims 0 (k % nE) (E (k / nE))).getD r 0
        + hVal po 0 (k % nE) (E (k / nE)) * ∑ q ∈ Finset.range o.nS,
          v q * (sotVal po 0 (E (k / nE)) * um.stageRhs po m.dims 0 (k % nE) q r (E (k / nE)))) →
      toVec um.nX y = toVec um.nX (R.xSim.getD k []) + R.timeSteps.getD k 0 • ∑ q ∈ Finset.range o.nS,
        v q • (fun row : Fin um.nX => um.stageRhs po m.dims 0 (k % nE) q row (E (k / nE))) := by
    intro k hk v y hy
    obtain ⟨-, -, -, -, c5, -, c7⟩ := hdat k hk
    funext r
    rw [c5, List.getD_eq_getElem?_getD, c7]
    simp only [toVec, Pi.add_apply, Pi.smul_apply, Finset.sum_apply, smul_eq_mul, Option.getD_some]
    rw [hy r r.2]
    simp only [hsot, one_mul]
  refine ⟨?_, ?_, ?_, ?_, ?_, ?_, A.weights.nonneg, A.weights.sum_pos h, ?_, ?_, ?_, ?_⟩
  · rw [hgk 0 (by omega)]; simp
  · intro k hk
    beta_reduce
    rw [hgk k hk.le, hgk (k + 1) hk]
    obtain ⟨-, -, -, -, -, -, c7⟩ := hdat k hk
    rw [List.take_add_one, List.getD_eq_getElem?_getD, c7]
    simp
  · intro k hk
    obtain ⟨-, -, -, -, -, -, c7⟩ := hdat k hk
    beta_reduce
    rw [List.getD_eq_getElem?_getD, c7]
    exact hsmall _ (List.mem_of_getElem? c7)
  · intro k hk j hj
    obtain ⟨c1, -, -, c4, -⟩ := hdat k hk
    exact vecStep k hk _ _ ((hform c1.feas 0 _ c4).1 j hj)
  · intro k hk
    obtain ⟨c1, -, -, c4, -, c6, -⟩ := hdat k hk
    beta_reduce
    rw [c6]
    exact vecStep k hk _ _ (hform c1.feas 0 _ c4).2
  · intro k hk
    obtain ⟨c1, -, -, c4, -, c6, -⟩ := hdat k hk
    beta_reduce
    rw [c6]
    exact vecStep k hk _ _ fun r hr => A.weights.step h c1.feas hcol c4 hr
  · intro k hk j hj
    obtain ⟨-, -, w3, w4⟩ := hW k hk j hj
    funext row
    rw [w4 row]
    simp only [Pi.add_apply, Pi.smul_apply, smul_eq_mul, UserModel.regionField, A.one, Finset.sum_range_one]
    rw [toVec_ofFn (by rw [length_xVal, h'.dims.1]), ← w3]
    ring
  · intro k hk j hj
    obtain ⟨w1, w2, w3, -⟩ := hW k hk j hj
    exact ⟨w1, by linarith⟩
  · intro k hk j hj hw
    obtain ⟨e1, e2⟩ := hcl k hk j hj i r1 hw
    rw [hopp] at e1 e2
    exact ⟨by linarith, by linarith⟩
  · intro k hk j hj hw
    obtain ⟨w1, w2, w3, -⟩ := hW k hk j hj
    exact hcl k hk j hj i' r2 fun h0 => hw (by rw [h0] at w3; linarith)

/-- C131: simulations of trajectories that cross a switching surface converge.  Fix the scheme, the number of
stages `n`, the representation, a Lipschitz constant `L` of the two vector fields, and the constants of the
crossing (`D`: derivatives of the solution, `T`: time, `η`: how far the two parts are continued, `α`: the speed of
the crossing, `Lψ`: Lipschitz constant of the switching function, `r`: the neighbourhood, `vel`: velocity).  There
are `H0 > 0` and `C` such that for every system with one switching function and every simulation with FESD and
polishing, all steps of which are reported as SUCCESS, with any number of steps and finite elements, whose longest
possible finite element `Δ` is at most `H0`: with `err` the sum of the initial difference, `Δ ^ n` and the rounding
of the Butcher tables, if `err ≤ H0`, then

* up to time `T` the states in `X_sim` differ from the trajectory by at most `C * err`;
* there is a position `N1` such that all elements before it (of positive length) begin and end on the side of the
  first region, and all elements after it on the side of the second one;
* the time of position `N1` differs from the true switching time `ts` by at most `C * err` unless it is the end of
  the simulation, and no time before exceeds `ts` by more than this.

Nothing is assumed about the computed states. -/
theorem C131_crossing {sc : IrkScheme} {n : Nat} {rep : IrkRep} (hn : 0 < n)
    (hcol : rep = .integral → CollocOk (colloc sc n) n ∧ ∀ t ∈ colloc sc n, 0 ≤ t ∧ t ≤ 1)
    {L : ℝ} (hL0 : 0 ≤ L) (D T : ℝ) {η r : ℝ} (hη : 0 < η) (hr0 : 0 < r) (α Lψ vel : ℝ) :
    ∃ H0 > 0, ∃ C : ℝ, ∀ {o : Opts} {um : UserModel} {uo : Option UserOcp} {po : PreOpts} {m : PreModel}
      {oc : PreOcp} {P : Problem} {orc : Oracle} {S : Solver} {x0 : List ℝ} {N : Nat} {pv : Option Arr}
      {R : SimResults} {p : List ℝ} {bw : Nat → ℝ} {i i' : Nat} {φA φB : ℝ → Fin um.nX → ℝ}
      {G : (Fin um.nX → ℝ) →ₗ[ℝ] ℝ} {ts μ : ℝ},
      o.scheme = sc → o.nS = n → o.irkRep = rep →
      CrossRun colloc o um uo po m oc P orc S x0 N pv R p bw i i' L →
      Crossing n D (um.regionField (fun _ => i) [] p []) (um.regionField (fun _ => i') [] p [])
        (um.surface i' p) φA φB G ts η T α Lψ r vel μ →
      ∀ Δ, Δ = (1 + o.gammaH) * (o.terminalTime / o.nfeAfter.sum) → Δ ≤ H0 →
      ∀ err, err = ‖toVec um.nX x0 - φA 0‖ + Δ ^ n + (if rep = .integral then 0 else 1 / 10 ^ 11) → err ≤ H0 →
      (∀ (k : Nat) (t : ℝ) (x : List ℝ), R.tGrid[k]? = some t → R.xSim[k]? = some x → t ≤ T →
        ∀ j : Fin um.nX, |x.getD j 0 - (if t ≤ ts then φA t else φB t) j| ≤ C * err) ∧
      ∃ N1 < R.tGrid.length,
        (∀ (k : Nat) (t t' : ℝ) (x x' : List ℝ), R.tGrid[k]? = some t →
          R.tGrid[k + 1]? = some t' → t < t' → R.xSim[k]? = some x → R.xSim[k + 1]? = some x' →
          (k < N1 → um.surface i' p (toVec um.nX x) ≤ 0 ∧ um.surface i' p (toVec um.nX x') ≤ 0) ∧
          (N1 ≤ k → t ≤ T → 0 ≤ um.surface i' p (toVec um.nX x) ∧ 0 ≤ um.surface i' p (toVec um.nX x'))) ∧
        (∀ t : ℝ, R.tGrid[N1]? = some t → N1 + 1 < R.tGrid.length → |t - ts| ≤ C * err) ∧
        ∀ (k : Nat) (t : ℝ), R.tGrid[k]? = some t → k ≤ N1 → t ≤ ts + C * err := by
  by_cases hgen : rep ≠ .integral → ∃ t, generateButcher n sc = .ok t
  swap
  · refine ⟨1, one_pos, 0, ?_⟩
    intro o um uo po m oc P orc S x0 N pv R p bw i i' φA φB G ts μ e1 e2 e3 A
    subst e1 e2 e3
    exact absurd (fun hrep => (A.sim.setup.toSetup.built.opts.diff hrep).imp fun t ht => ht.1) hgen
  obtain ⟨a, b, c, tab, ho, htab, hform⟩ := rk_form hn hcol hgen
  obtain ⟨A0, hA0, hA, hB⟩ := coeff_bound n a b
  have htab0 : 0 ≤ tab := by rw [htab]; split <;> norm_num
  have hAL0 : 0 ≤ A0 * L := mul_nonneg hA0 hL0
  set C := crossConst n A0 L D T α Lψ with hC
  have q1 : 0 < 1 / (2 * (A0 * L) + 1) := by positivity
  have q2 : 0 < r / (4 * A0 * |vel| + 1) := by positivity
  have q3 : 0 < η / 2 / (|C| + 1) := by positivity
  have q4 : 0 < r / 2 / (|C| + 1) := by positivity
  refine ⟨min (min (1 / (2 * (A0 * L) + 1)) (r / (4 * A0 * |vel| + 1)))
    (min (η / 2) (min (η / 2 / (|C| + 1)) (r / 2 / (|C| + 1)))), by
      refine lt_min (lt_min q1 q2) (lt_min (by linarith) (lt_min q3 q4)), C, ?_⟩
  intro o um uo po m oc P orc S x0 N pv R p bw i i' φA φB G ts μ e1 e2 e3 A Cr Δ hΔ hle err herr hle'
  subst e1 e2 e3
  have hr := A.sim
  have h := hr.setup
  have hΔ0 : 0 ≤ Δ := by
    have := A.gamma.1
    have := A.time
    rw [hΔ]; positivity
  have herr0 : 0 ≤ err := by
    rw [herr]
    refine add_nonneg (by positivity) ?_
    split <;> norm_num
  obtain ⟨⟨l1, l2⟩, l3, -⟩ : (Δ ≤ 1 / (2 * (A0 * L) + 1) ∧ Δ ≤ r / (4 * A0 * |vel| + 1)) ∧ Δ ≤ η / 2 ∧
      (Δ ≤ η / 2 / (|C| + 1) ∧ Δ ≤ r / 2 / (|C| + 1)) := by
    simpa only [le_min_iff] using hle
  obtain ⟨-, -, l4, l5⟩ : (err ≤ 1 / (2 * (A0 * L) + 1) ∧ err ≤ r / (4 * A0 * |vel| + 1)) ∧ err ≤ η / 2 ∧
      (err ≤ η / 2 / (|C| + 1) ∧ err ≤ r / 2 / (|C| + 1)) := by
    simpa only [le_min_iff] using hle'
  have hvel : vel ≤ |vel| := le_abs_self vel
  have l2' : 4 * A0 * vel * Δ ≤ r := by
    rw [le_div_iff₀ (by positivity)] at l2
    have : A0 * vel * Δ ≤ A0 * |vel| * Δ :=
      mul_le_mul_of_nonneg_right (mul_le_mul_of_nonneg_left hvel hA0) hΔ0
    nlinarith
  have hCe : ∀ y, err ≤ y / (|C| + 1) → C * err ≤ y := by
    intro y hy
    rw [le_div_iff₀ (by positivity)] at hy
    have : C * err ≤ |C| * err := mul_le_mul_of_nonneg_right (le_abs_self C) herr0
    nlinarith
  obtain ⟨-, ⟨hx0, hlen, hlenT, hgrid⟩, -⟩ := hr.steps
  have hglen : R.tGrid.length = N * o.nfeAfter.sum + 1 := by rw [hgrid]; simp
  obtain ⟨hh, X, K, w, St, -⟩ := A.steps rfl (fun hi => (hcol hi).1) fun hf => hform h rfl rfl rfl hf
  rw [← hΔ] at St
  have hx0' : R.xSim.getD 0 [] = x0 := by rw [List.getD_eq_getElem?_getD, hx0]; rfl
  obtain ⟨N1, n1, n2, n3, n4, n5, n6⟩ := St.crosses hn ho htab0 hA hB A.lipschitz A.lipschitz' hL0 hΔ0 l1 Cr l2' l3
    (E := C * err) (by rw [herr, ← htab, hx0']) (hCe _ l4) (hCe _ l5)
  have getT : ∀ {k t}, R.tGrid[k]? = some t → R.tGrid.getD k 0 = t ∧ k ≤ N * o.nfeAfter.sum := by
    intro k t ht
    refine ⟨by rw [List.getD_eq_getElem?_getD, ht]; rfl, ?_⟩
    have := (List.getElem?_eq_some_iff.1 ht).1
    omega
  have getX : ∀ {k x}, R.xSim[k]? = some x → R.xSim.getD k [] = x ∧ k ≤ N * o.nfeAfter.sum := by
    intro k t ht
    refine ⟨by rw [List.getD_eq_getElem?_getD, ht]; rfl, ?_⟩
    have := (List.getElem?_eq_some_iff.1 ht).1
    omega
  refine ⟨?_, N1, by omega, ?_, ?_, ?_⟩
  · intro k t x ht hx htT j
    obtain ⟨t1, t2⟩ := getT ht
    obtain ⟨x1, -⟩ := getX hx
    have := n6 k t2 (by rw [t1]; exact htT)
    rw [t1, x1] at this
    have hj := norm_le_pi_norm (toVec um.nX x - if t ≤ ts then φA t else φB t) j
    rw [Real.norm_eq_abs, Pi.sub_apply] at hj
    exact hj.trans this
  · intro k t t' x x' ht ht' htt hx hx'
    obtain ⟨t1, -⟩ := getT ht
    obtain ⟨t2, -⟩ := getT ht'
    obtain ⟨x1, -⟩ := getX hx
    obtain ⟨x2, x3⟩ := getX hx'
    have hnz : hh k ≠ 0 := by
      intro h0
      have := St.next k (by omega)
      rw [t1, t2, h0] at this
      linarith
    refine ⟨fun hk => ?_, fun hk htT => ?_⟩
    · have := St.first k (by omega) 0 hn (by rw [(n2 k hk).resolve_left hnz 0 hn]; exact one_ne_zero)
      rwa [x1, x2] at this
    · have := St.second k (by omega) 0 hn (by
        rw [(n3 k hk (by omega) (by rw [t1]; exact htT)).resolve_left hnz 0 hn]; exact zero_ne_one)
      rwa [x1, x2] at this
  · intro t ht hN
    obtain ⟨t1, -⟩ := getT ht
    have := n4 (by omega)
    rwa [t1] at this
  · intro k t ht hk
    obtain ⟨t1, -⟩ := getT ht
    have := n5 k hk
    rwa [t1] at this

end
end Nosnoc
