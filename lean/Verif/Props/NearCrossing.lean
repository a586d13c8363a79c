import Verif.Props.Crossing
import Verif.Props.ShipAccuracy
import Verif.Proofs.NearCrossingError
/-
C134: simulations of trajectories that cross a switching surface, without polishing.
-/
namespace Nosnoc

/-- A simulation with FESD and without polishing of a system with one switching function and two regions `i` and
`i'`, all of whose steps are reported as SUCCESS: a Scholtes mode with the automatic number of homotopy iterations and
LINEAR updates, a scheme whose last point is the end of the element; the parameters have the values `p` in all
steps. -/
structure NearCrossRun (colloc : IrkScheme → Nat → List ℝ) (o : Opts) (um : UserModel) (uo : Option UserOcp)
    (po : PreOpts) (m : PreModel) (oc : PreOcp) (P : Problem) (orc : Oracle) (S : Solver) (x0 : List ℝ) (N : Nat)
    (pv : Option Arr) (R : SimResults) (p : List ℝ) (bw : Nat → ℝ) (i i' : Nat) (L : ℝ) : Prop where
  sim : SimRun colloc o um uo po m oc P orc S x0 N pv R
  polish : o.polish = false
  fesd : o.useFesd = true
  mode : o.mpcc = .scholtesIneq ∨ o.mpcc = .scholtesEq
  budget : o.maxIterHomotopy = 0
  rule : o.rule = .linear
  slope : 0 < o.slope ∧ o.slope < 1
  tol : 0 < o.compTol ∧ o.compTol ≤ o.sigma0
  fields : um.F.isSome = true
  signs : SignsOk o um
  one : um.nSys = 1
  two : (um.Fmat 0).nCols = 2
  single : (um.Smat 0).cols = 1
  regions : i < 2 ∧ i' < 2 ∧ i ≠ i'
  opposite : (um.Smat 0).entry i 0 = -(um.Smat 0).entry i' 0
  weights : SchemeWeights colloc o bw
  ends : po.rbe = true
  gamma : 0 ≤ o.gammaH ∧ o.gammaH ≤ 1
  time : 0 ≤ o.terminalTime
  params : ∀ k < N, simParams um S pv k = p
  lipschitz : ∀ x y, ‖um.regionField (fun _ => i) [] p [] x - um.regionField (fun _ => i) [] p [] y‖ ≤ L * ‖x - y‖
  lipschitz' : ∀ x y,
    ‖um.regionField (fun _ => i') [] p [] x - um.regionField (fun _ => i') [] p [] y‖ ≤ L * ‖x - y‖

section
variable {colloc : IrkScheme → Nat → List ℝ} {o : Opts} {um : UserModel} {uo : Option UserOcp}
  {po : PreOpts} {m : PreModel} {oc : PreOcp} {P : Problem} {orc : Oracle} {S : Solver} {x0 : List ℝ} {N : Nat}
  {pv : Option Arr} {R : SimResults} {p : List ℝ} {bw : Nat → ℝ} {i i' : Nat} {L : ℝ}

theorem finalTol_pos (h : 0 < o.compTol) (hs : 0 < o.slope) : 0 < finalTol o :=
  lt_max_of_lt_left (div_pos h (Real.sqrt_pos.2 hs))

theorem NearCrossRun.selConst_le (A : NearCrossRun colloc o um uo po m oc P orc S x0 N pv R p bw i i' L) (q : Nat) :
    0 ≤ selConst o um 0 q ∧ selConst o um 0 q ≤ 1 := by
  unfold selConst
  cases o.pss with
  | stewart =>
    dsimp only
    rw [A.two]
    norm_num
  | step =>
    refine ⟨Nat.cast_nonneg _, ?_⟩
    dsimp only
    have : ((Finset.range (um.Smat 0).cols).filter fun n => (um.Smat 0).entry q n ≠ 0).card ≤ 1 :=
      (Finset.card_filter_le _ _).trans (by rw [A.single]; simp)
    exact_mod_cast this

/-- The elements of such a simulation as Runge-Kutta steps. -/
theorem NearCrossRun.steps (A : NearCrossRun colloc o um uo po m oc P orc S x0 N pv R p bw i i' L) {n : Nat}
    {a : Nat → Nat → ℝ} {b : Nat → ℝ} (hnS : o.nS = n)
    (hcol : o.irkRep = .integral → CollocOk (colloc o.scheme o.nS) o.nS)
    (hform : ∀ {env : Env}, P.form.Feasible env → ∀ k e, HasFE po k e →
        (∀ j < n, ∀ i < um.nX, (xVal po m.dims k e j env).getD i 0 = (startVal po m.dims k e env).getD i 0
          + hVal po k e env * ∑ r ∈ Finset.range n,
            a j r * (sotVal po k env * um.stageRhs po m.dims k e r i env)) ∧
        ∀ i < um.nX, (xEndVal po m.dims k e env).getD i 0 = (startVal po m.dims k e env).getD i 0
          + hVal po k e env * ∑ r ∈ Finset.range n,
            b r * (sotVal po k env * um.stageRhs po m.dims k e r i env)) :
    ∃ (h : Nat → ℝ) (X K : Nat → Nat → Fin um.nX → ℝ) (w : Nat → Nat → ℝ),
      NearSteps n a b bw (um.regionField (fun _ => i) [] p []) (um.regionField (fun _ => i') [] p [])
        (um.surface i' p) ((1 + o.gammaH) * (o.terminalTime / o.nfeAfter.sum)) (√(finalTol o)) (√(finalTol o))
        (N * o.nfeAfter.sum)
        (fun k => toVec um.nX (R.xSim.getD k [])) (fun k => R.tGrid.getD k 0) h X K w := by
  subst hnS
  have hr := A.sim
  have h := hr.setup
  have h' := h.toSetup
  have hu := A.fesd
  have hm : ExactMode o := A.mode.elim (fun hm => .inl (.inr (.inl hm))) fun hm => .inl (.inl hm)
  obtain ⟨pr, hpr⟩ : ∃ q, IsPair po m.dims q := by
    obtain ⟨-, -, -, -, -, -, dS, dF, dC⟩ := h'.dims
    have s0 : 0 < um.nSys := by rw [A.one]; exact one_pos
    cases hp : po.pss with
    | stewart => exact ⟨.region 0 0, hp, by rw [dS]; exact s0, by
        rw [dF hp 0 s0, A.two]; exact Nat.two_pos⟩
    | step =>
      obtain ⟨v1, v2⟩ := h'.shapes_step hp A.fields s0
      obtain ⟨r1, r2, r3⟩ := A.regions
      have hne : (um.Smat 0).entry i' 0 ≠ 0 := by
        intro hz
        have hz' : (um.Smat 0).entry i 0 = 0 := by rw [A.opposite, hz, neg_zero]
        obtain ⟨_, _, u⟩ := (A.signs 0 s0).1 fun _ => true
        have e1 := u ⟨i, by rw [v1, A.two]; exact r1⟩ fun k hk hc => absurd (by
          obtain rfl : k = 0 := by rw [A.single] at hk; omega
          exact hz') hc
        have e2 := u ⟨i', by rw [v1, A.two]; exact r2⟩ fun k hk hc => absurd (by
          obtain rfl : k = 0 := by rw [A.single] at hk; omega
          exact hz) hc
        exact r3 (Fin.mk.inj_iff.1 (e1.trans e2.symm))
      exact ⟨.neg 0 0, hp, by rw [dS]; exact s0, by
        rw [dC hp 0 s0]
        exact v2 i' (by rw [v1, A.two]; exact r2) 0 (by rw [A.single]; exact one_pos) hne⟩
  obtain ⟨⟨hU, hN1, hnE0⟩, ⟨hx0, hlen, hlenT, hgrid⟩, before, result, hsteps⟩ := hr.steps
  have hsmall := hr.small (fun _ => ⟨A.gamma.1, A.gamma.2⟩) A.time
  rw [if_pos hu] at hsmall
  set nE := o.nfeAfter.sum with hnE
  have hz' : m.dims.nZ = 0 := h'.dims.2.2.1.trans hr.nz
  have hpt : ∀ k, ∃ env : Env, k < N → (RelaxedPoint o po m P env ∧ P.compRes env ≤ finalTol o) ∧ um.InitialMultipliers po m.dims env ∧
      pVal m.dims 0 env = p ∧
      ∀ e < nE, HasFE po 0 e ∧
        R.xSim[k * nE + e]? = some (startVal po m.dims 0 e env) ∧
        R.xSim[k * nE + e + 1]? = some (xEndVal po m.dims 0 e env) ∧
        R.timeSteps[k * nE + e]? = some (hVal po 0 e env) := by
    intro k
    by_cases hk : k < N
    swap
    · exact ⟨fun _ => 0, fun hh => absurd hh hk⟩
    obtain ⟨a1, a2, a3, a4, a5⟩ := hsteps k hk
    have hinv := a1.inv h'
    obtain ⟨env, j, tau, j0, j1, -, Dp, hI, hR, hp, hstop⟩ :=
      success_point h a1 hr.lists hr.exact a2 a3 A.polish hm (.inr A.one.le) hr.nz
    obtain ⟨hrd, -⟩ := ready_of_ok h' hinv a2
    have hres : P.compRes env ≤ sigmaAt o (j - 1) := by
      refine (C97_residual Dp h hpr).trans (le_of_eq ?_)
      refine Eq.trans ?_ (hp _ (sigma_mem h'))
      unfold relaxTol
      rcases A.mode with hm | hm <;> rw [hm]
    have htol : P.compRes env ≤ finalTol o :=
      tol_of_budget h A.budget A.rule A.slope.1 A.slope.2 A.tol.1 A.tol.2 hres hstop
    exact ⟨env, fun _ => ⟨⟨Dp, htol⟩, hI,
      ((pVal_of_params h' hinv fun t ht _ => hp t ht).trans a4).trans (A.params k hk),
      a5 env hR (x0_of_params h' hrd.x0 fun t ht _ => hp t ht)⟩⟩
  choose E hE using hpt
  have hpos : ∀ k < N * nE, k / nE < N ∧ k % nE < nE ∧ k / nE * nE + k % nE = k := fun k hk =>
    ⟨Nat.div_lt_of_lt_mul (by rw [Nat.mul_comm]; omega), Nat.mod_lt _ hnE0, by
      rw [Nat.mul_comm]; exact Nat.div_add_mod k _⟩
  have hdat : ∀ k < N * nE, (RelaxedPoint o po m P (E (k / nE)) ∧ P.compRes (E (k / nE)) ≤ finalTol o) ∧ um.InitialMultipliers po m.dims (E (k / nE)) ∧
      pVal m.dims 0 (E (k / nE)) = p ∧ HasFE po 0 (k % nE) ∧
      R.xSim.getD k [] = startVal po m.dims 0 (k % nE) (E (k / nE)) ∧
      R.xSim.getD (k + 1) [] = xEndVal po m.dims 0 (k % nE) (E (k / nE)) ∧
      R.timeSteps[k]? = some (hVal po 0 (k % nE) (E (k / nE))) := by
    intro k hk
    obtain ⟨k1, k2, k3⟩ := hpos k hk
    obtain ⟨c1, c2, c3, c4⟩ := hE _ k1
    obtain ⟨d1, d2, d3, d4⟩ := c4 _ k2
    rw [k3] at d2 d3 d4
    exact ⟨c1, c2, c3, d1, by rw [List.getD_eq_getElem?_getD, d2]; rfl,
      by rw [List.getD_eq_getElem?_getD, d3]; rfl, d4⟩
  have hsot : ∀ env, sotVal po 0 env = 1 := by
    intro env
    unfold sotVal
    rw [if_neg (by rw [h'.e_sot]; exact hr.sot)]
    rfl
  have hu0 : ∀ env, uVal m.dims 0 env = [] := by
    intro env; unfold uVal; rw [h'.dims.2.1, hU]; rfl
  have hv0 : ∀ env, vVal m.dims env = [] := by
    intro env; unfold vVal; rw [h'.dims.2.2.2.1, hr.nv]; rfl
  have hsame : ∀ env, um.SameSwitching po m.dims env := by
    intro env k' hk' s hs n x
    obtain rfl : k' = 0 := by have := h'.e_nStages; omega
    rfl
  obtain ⟨r1, r2, r3⟩ := A.regions
  have s0 : 0 < um.nSys := by rw [A.one]; exact one_pos
  -- weights
  have hW : ∀ k < N * nE, ∀ j < o.nS,
      0 ≤ wgt o um (E (k / nE)) 0 (k % nE) j 0 i ∧ 0 ≤ wgt o um (E (k / nE)) 0 (k % nE) j 0 i' ∧
      wgt o um (E (k / nE)) 0 (k % nE) j 0 i + wgt o um (E (k / nE)) 0 (k % nE) j 0 i' = 1 ∧
      ∀ row, um.stageRhs po m.dims 0 (k % nE) j row (E (k / nE))
        = (um.Fmat 0).entry row i (xVal po m.dims 0 (k % nE) j (E (k / nE))) [] [] p []
            * wgt o um (E (k / nE)) 0 (k % nE) j 0 i
          + (um.Fmat 0).entry row i' (xVal po m.dims 0 (k % nE) j (E (k / nE))) [] [] p []
            * wgt o um (E (k / nE)) 0 (k % nE) j 0 i' := by
    intro k hk j hj
    obtain ⟨c1, c2, c3, c4, -⟩ := hdat k hk
    obtain ⟨w1, w2⟩ := c1.1.weights h A.fields A.signs c4 hj
    obtain ⟨w3, w4⟩ := w1 0 s0
    have two : ∀ f : Nat → ℝ, ∑ q ∈ Finset.range 2, f q = f i + f i' := by
      intro f
      rw [Finset.sum_range_succ, Finset.sum_range_one]
      have : (i = 0 ∧ i' = 1) ∨ (i = 1 ∧ i' = 0) := by omega
      rcases this with ⟨rfl, rfl⟩ | ⟨rfl, rfl⟩
      · rfl
      · exact add_comm _ _
    rw [A.two, two] at w4
    refine ⟨w3 i (by rw [A.two]; exact r1), w3 i' (by rw [A.two]; exact r2), w4, fun row => ?_⟩
    rw [w2 row, c3, hu0, hv0, zVal_nil hz']
    unfold UserModel.rhsStewart
    rw [A.one, Finset.sum_range_one, A.two, two]
  have htol0 : 0 < finalTol o := finalTol_pos A.tol.1 A.slope.1
  have hsq0 : 0 < √(finalTol o) := Real.sqrt_pos.2 htol0
  have hdeep : ∀ k < N * nE, ∀ j < o.nS, ∀ q < 2,
      √(finalTol o) ≤ um.surface q p (toVec um.nX (R.xSim.getD k [])) ∨
      √(finalTol o) ≤ um.surface q p (toVec um.nX (R.xSim.getD (k + 1) [])) →
      1 - √(finalTol o) ≤ wgt o um (E (k / nE)) 0 (k % nE) j 0 q := by
    intro k hk j hj q hq hw
    obtain ⟨⟨c1, c1'⟩, c2, c3, c4, c5, c6, -⟩ := hdat k hk
    have hle : 1 - √(finalTol o) ≤ 1 - selConst o um 0 q * (finalTol o / √(finalTol o)) := by
      obtain ⟨s1, s2⟩ := A.selConst_le q
      have : finalTol o / √(finalTol o) = √(finalTol o) := Real.div_sqrt
      rw [this]
      have := mul_le_mul_of_nonneg_right s2 hsq0.le
      linarith
    refine hle.trans ?_
    unfold UserModel.surface at hw
    rw [c5, c6, toVec_ofFn (by rw [length_startVal, h'.dims.1]), toVec_ofFn (by rw [length_xEndVal, h'.dims.1])] at hw
    rcases hw with hw | hw
    · refine C97_selection_start c1 h hu A.fields A.signs hr.nz c2 (hsame _) c1' hsq0 c4 hj s0
        (by rw [A.two]; exact hq) fun n hn _ => ?_
      obtain rfl : n = 0 := by rw [A.single] at hn; omega
      rw [c3]
      exact hw
    · refine C97_selection_end c1 h hu A.fields A.signs hr.nz A.ends c1' hsq0 c4 hj s0
        (by rw [A.two]; exact hq) fun n hn _ => ?_
      obtain rfl : n = 0 := by rw [A.single] at hn; omega
      rw [c3]
      exact hw
  have hopp : ∀ x, um.surface i p x = -um.surface i' p x := by
    intro x
    unfold UserModel.surface
    rw [A.opposite]
    ring
  refine ⟨fun k => R.timeSteps.getD k 0,
    fun k j => toVec um.nX (xVal po m.dims 0 (k % nE) j (E (k / nE))),
    fun k j row => um.stageRhs po m.dims 0 (k % nE) j row (E (k / nE)),
    fun k j => wgt o um (E (k / nE)) 0 (k % nE) j 0 i, ?_⟩
  have hgk : ∀ k ≤ N * nE, R.tGrid.getD k 0 = (R.timeSteps.take k).sum := by
    intro k hk
    rw [hgrid, List.getD_eq_getElem?_getD, List.getElem?_map, List.getElem?_range (by omega)]
    rfl
  have vecStep : ∀ k < N * nE, ∀ (v : Nat → ℝ) (y : List ℝ),
      (∀ r < um.nX, y.getD r 0 = (startVal po m.dims 0 (k % nE) (E (k / nE))).getD r 0
        + hVal po 0 (k % nE) (E (k / nE)) * ∑ q ∈ Finset.range o.nS,
          v q * (sotVal po 0 (E (k / nE)) * um.stageRhs po m.dims 0 (k % nE) q r (E (k / nE)))) →
      toVec um.nX y = toVec um.nX (R.xSim.getD k []) + R.timeSteps.getD k 0 • ∑ q ∈ Finset.range o.nS,
        v q • (fun row : Fin um.nX => um.stageRhs po m.dims 0 (k % nE) q row (E (k / nE))) := by
    intro k hk v y hy
    obtain ⟨-, -, -, -, c5, -, c7⟩ := hdat k hk
    funext r
    rw [c5, List.getD_eq_getElem?_getD, c7]
    simp only [toVec, Pi.add_apply, Pi.smul_apply, Finset.sum_apply, smul_eq_mul, Option.getD_some]
    rw [hy r r.2]
    simp only [hsot, one_mul]
  refine ⟨?_, ?_, ?_, ?_, ?_, ?_, A.weights.nonneg, ?_, ?_, ?_, ?_, ?_⟩
  · rw [hgk 0 (by omega)]; simp
  · intro k hk
    beta_reduce
    rw [hgk k hk.le, hgk (k + 1) hk]
    obtain ⟨-, -, -, -, -, -, c7⟩ := hdat k hk
    rw [List.take_add_one, List.getD_eq_getElem?_getD, c7]
    simp
  · intro k hk
    obtain ⟨-, -, -, -, -, -, c7⟩ := hdat k hk
    beta_reduce
    rw [List.getD_eq_getElem?_getD, c7]
    exact hsmall _ (List.mem_of_getElem? c7)
  · intro k hk j hj
    obtain ⟨c1, -, -, c4, -⟩ := hdat k hk
    exact vecStep k hk _ _ ((hform c1.1.feas 0 _ c4).1 j hj)
  · intro k hk
    obtain ⟨c1, -, -, c4, -, c6, -⟩ := hdat k hk
    beta_reduce
    rw [c6]
    exact vecStep k hk _ _ (hform c1.1.feas 0 _ c4).2
  · intro k hk
    obtain ⟨c1, -, -, c4, -, c6, -⟩ := hdat k hk
    beta_reduce
    rw [c6]
    exact vecStep k hk _ _ fun r hr => A.weights.step h c1.1.feas hcol c4 hr
  · have := abs_le.1 (C92_weights h A.weights).2
    norm_num at this
    linarith
  · intro k hk j hj
    obtain ⟨-, -, w3, w4⟩ := hW k hk j hj
    funext row
    rw [w4 row]
    simp only [Pi.add_apply, Pi.smul_apply, smul_eq_mul, UserModel.regionField, A.one, Finset.sum_range_one]
    rw [toVec_ofFn (by rw [length_xVal, h'.dims.1]), ← w3]
    ring
  · intro k hk j hj
    obtain ⟨w1, w2, w3, -⟩ := hW k hk j hj
    exact ⟨w1, by linarith⟩
  · intro k hk j hj hw
    obtain ⟨w1, w2, w3, -⟩ := hW k hk j hj
    beta_reduce at hw ⊢
    constructor
    · by_contra hc
      have := hdeep k hk j hj i' r2 (.inl (not_le.1 hc).le)
      linarith
    · by_contra hc
      have := hdeep k hk j hj i' r2 (.inr (not_le.1 hc).le)
      linarith
  · intro k hk j hj hw
    beta_reduce at hw ⊢
    constructor
    · by_contra hc
      have := hdeep k hk j hj i r1 (.inl (by rw [hopp]; have := not_le.1 hc; linarith))
      linarith
    · by_contra hc
      have := hdeep k hk j hj i r1 (.inr (by rw [hopp]; have := not_le.1 hc; linarith))
      linarith

/-- C134: simulations of trajectories that cross a switching surface, without polishing (the shipped setting).  Fix
the scheme, the number of stages `n`, the representation, a Lipschitz constant `L` of the two vector fields, and the
constants of the crossing (`D`, `T`, `η`, `α`, `Lψ`, `r`, `vel`, `μ` as in C131; `W`: the difference of the vector
fields along the trajectory).  There are `H0 > 0` and `C` such that for every system with one switching function and
every simulation with FESD, all steps of which are reported as SUCCESS, with any number of steps and finite elements,
whose longest possible finite element `Δ` is at most `H0`: with `tol` the largest complementarity residual a
successful solve can end with and `err` the sum of the initial difference, `Δ ^ n`, `√tol` and the rounding of the
Butcher tables, if `err ≤ H0`, then

* up to time `T` the states in `X_sim` differ from the trajectory by at most `C * err`;
* there are positions `N1 ≤ N2` such that all elements before `N1` begin and end on the side of the first region and
  all elements after `N2` on the side of the second one, up to `√tol`;
* the times of all positions from `N1` to `N2` differ from the true switching time `ts` by at most `C * err` unless
  `N1` is the end of the simulation, and no time before exceeds `ts` by more than this.

Nothing is assumed about the computed states. -/
theorem C134_crossing {sc : IrkScheme} {n : Nat} {rep : IrkRep} (hn : 0 < n)
    (hcol : rep = .integral → CollocOk (colloc sc n) n ∧ ∀ t ∈ colloc sc n, 0 ≤ t ∧ t ≤ 1)
    {L : ℝ} (hL0 : 0 ≤ L) (D T : ℝ) {η r : ℝ} (hη : 0 < η) (hr0 : 0 < r) (α Lψ vel μ W : ℝ) :
    ∃ H0 > 0, ∃ C : ℝ, ∀ {o : Opts} {um : UserModel} {uo : Option UserOcp} {po : PreOpts} {m : PreModel}
      {oc : PreOcp} {P : Problem} {orc : Oracle} {S : Solver} {x0 : List ℝ} {N : Nat} {pv : Option Arr}
      {R : SimResults} {p : List ℝ} {bw : Nat → ℝ} {i i' : Nat} {φA φB : ℝ → Fin um.nX → ℝ}
      {G : (Fin um.nX → ℝ) →ₗ[ℝ] ℝ} {ts : ℝ},
      o.scheme = sc → o.nS = n → o.irkRep = rep →
      NearCrossRun colloc o um uo po m oc P orc S x0 N pv R p bw i i' L →
      Crossing n D (um.regionField (fun _ => i) [] p []) (um.regionField (fun _ => i') [] p [])
        (um.surface i' p) φA φB G ts η T α Lψ r vel μ →
      (∀ s, 0 ≤ s → s ≤ ts + η → ‖um.regionField (fun _ => i) [] p [] (φA s)
        - um.regionField (fun _ => i') [] p [] (φA s)‖ ≤ W) →
      (∀ s, ts - η ≤ s → s ≤ T → ‖um.regionField (fun _ => i) [] p [] (φB s)
        - um.regionField (fun _ => i') [] p [] (φB s)‖ ≤ W) →
      ∀ Δ, Δ = (1 + o.gammaH) * (o.terminalTime / o.nfeAfter.sum) → Δ ≤ H0 →
      ∀ err, err = ‖toVec um.nX x0 - φA 0‖ + Δ ^ n + √(finalTol o) + (if rep = .integral then 0 else 1 / 10 ^ 11) →
      err ≤ H0 →
      (∀ (k : Nat) (t : ℝ) (x : List ℝ), R.tGrid[k]? = some t → R.xSim[k]? = some x → t ≤ T →
        ∀ j : Fin um.nX, |x.getD j 0 - (if t ≤ ts then φA t else φB t) j| ≤ C * err) ∧
      ∃ N1 N2, N1 ≤ N2 ∧ N2 < R.tGrid.length ∧
        (∀ (k : Nat) (t : ℝ) (x x' : List ℝ), R.tGrid[k]? = some t →
          R.xSim[k]? = some x → R.xSim[k + 1]? = some x' →
          (k < N1 → um.surface i' p (toVec um.nX x) ≤ √(finalTol o) ∧
            um.surface i' p (toVec um.nX x') ≤ √(finalTol o)) ∧
          (N2 ≤ k → t ≤ T → -√(finalTol o) ≤ um.surface i' p (toVec um.nX x) ∧
            -√(finalTol o) ≤ um.surface i' p (toVec um.nX x'))) ∧
        (∀ (k : Nat) (t : ℝ), R.tGrid[k]? = some t → N1 ≤ k → k ≤ N2 → N1 + 1 < R.tGrid.length →
          |t - ts| ≤ C * err) ∧
        ∀ (k : Nat) (t : ℝ), R.tGrid[k]? = some t → k ≤ N1 → t ≤ ts + C * err := by
  by_cases hgen : rep ≠ .integral → ∃ t, generateButcher n sc = .ok t
  swap
  · refine ⟨1, one_pos, 0, ?_⟩
    intro o um uo po m oc P orc S x0 N pv R p bw i i' φA φB G ts e1 e2 e3 A
    subst e1 e2 e3
    exact absurd (fun hrep => (A.sim.setup.toSetup.built.opts.diff hrep).imp fun t ht => ht.1) hgen
  obtain ⟨a, b, c, tab, ho, htab, hform⟩ := rk_form hn hcol hgen
  obtain ⟨A0, hA0, hA, hB⟩ := coeff_bound n a b
  have htab0 : 0 ≤ tab := by rw [htab]; split <;> norm_num
  have hAL0 : 0 ≤ A0 * L := mul_nonneg hA0 hL0
  set B := nearConst n A0 L D T α Lψ vel ((α - μ * vel) / 2) with hB0
  set C := |B| * (1 + |W|) with hC
  have q1 : 0 < 1 / (2 * (A0 * L) + 1) := by positivity
  have q2 : 0 < r / (4 * A0 * |vel| + 1) := by positivity
  have q3 : 0 < η / 2 / (|C| + 1) := by positivity
  have q4 : 0 < r / 2 / (|C| + 1) := by positivity
  refine ⟨min (min (1 / (2 * (A0 * L) + 1)) (r / (4 * A0 * |vel| + 1)))
    (min (min (η / 2) (1 / 4)) (min (η / 2 / (|C| + 1)) (r / 2 / (|C| + 1)))), by
      refine lt_min (lt_min q1 q2) (lt_min (lt_min (by linarith) (by norm_num)) (lt_min q3 q4)), C, ?_⟩
  intro o um uo po m oc P orc S x0 N pv R p bw i i' φA φB G ts e1 e2 e3 A Cr gA gB Δ hΔ hle err herr hle'
  subst e1 e2 e3
  have hr := A.sim
  have h := hr.setup
  have hΔ0 : 0 ≤ Δ := by
    have := A.gamma.1
    have := A.time
    rw [hΔ]; positivity
  have herr0 : 0 ≤ err := by
    rw [herr]
    refine add_nonneg (by positivity) ?_
    split <;> norm_num
  obtain ⟨⟨l1, l2⟩, ⟨l3, -⟩, -⟩ : (Δ ≤ 1 / (2 * (A0 * L) + 1) ∧ Δ ≤ r / (4 * A0 * |vel| + 1)) ∧ (Δ ≤ η / 2 ∧ Δ ≤ 1 / 4) ∧
      (Δ ≤ η / 2 / (|C| + 1) ∧ Δ ≤ r / 2 / (|C| + 1)) := by
    simpa only [le_min_iff] using hle
  obtain ⟨-, ⟨-, l6⟩, l4, l5⟩ : (err ≤ 1 / (2 * (A0 * L) + 1) ∧ err ≤ r / (4 * A0 * |vel| + 1)) ∧ (err ≤ η / 2 ∧ err ≤ 1 / 4) ∧
      (err ≤ η / 2 / (|C| + 1) ∧ err ≤ r / 2 / (|C| + 1)) := by
    simpa only [le_min_iff] using hle'
  have hvel : vel ≤ |vel| := le_abs_self vel
  have l2' : 4 * A0 * vel * Δ ≤ r := by
    rw [le_div_iff₀ (by positivity)] at l2
    have : A0 * vel * Δ ≤ A0 * |vel| * Δ :=
      mul_le_mul_of_nonneg_right (mul_le_mul_of_nonneg_left hvel hA0) hΔ0
    nlinarith
  have hCe : ∀ y, err ≤ y / (|C| + 1) → C * err ≤ y := by
    intro y hy
    rw [le_div_iff₀ (by positivity)] at hy
    have : C * err ≤ |C| * err := mul_le_mul_of_nonneg_right (le_abs_self C) herr0
    nlinarith
  obtain ⟨-, ⟨hx0, hlen, hlenT, hgrid⟩, -⟩ := hr.steps
  have hglen : R.tGrid.length = N * o.nfeAfter.sum + 1 := by rw [hgrid]; simp
  obtain ⟨hh, X, K, w, St⟩ := A.steps rfl (fun hi => (hcol hi).1) fun hf => hform h rfl rfl rfl hf
  rw [← hΔ] at St
  have hx0' : R.xSim.getD 0 [] = x0 := by rw [List.getD_eq_getElem?_getD, hx0]; rfl
  have hsq : √(finalTol o) ≤ err := by
    have h1 : 0 ≤ Δ ^ o.nS := pow_nonneg hΔ0 _
    have h2 := norm_nonneg (toVec um.nX x0 - φA 0)
    rw [herr, ← htab]
    linarith
  have hsq0 := Real.sqrt_nonneg (finalTol o)
  set e := ‖toVec um.nX x0 - φA 0‖ + Δ ^ o.nS + (1 + |W|) * √(finalTol o) + tab with he
  have he0 : 0 ≤ e := by positivity
  have hele : e ≤ (1 + |W|) * err := by
    have h1 : 0 ≤ Δ ^ o.nS := pow_nonneg hΔ0 _
    have h2 := norm_nonneg (toVec um.nX x0 - φA 0)
    rw [he, herr, ← htab]
    have := mul_nonneg (abs_nonneg W) (add_nonneg (add_nonneg h2 h1) htab0)
    nlinarith
  have hEC : B * e ≤ C * err := by
    rw [hC, mul_assoc]
    exact (mul_le_mul_of_nonneg_right (le_abs_self B) he0).trans (mul_le_mul_of_nonneg_left hele (abs_nonneg B))
  have htr := Cr.small.2
  obtain ⟨N1, N2, m1, m2, n2, n3, n4, n5, n6⟩ := St.crosses hn ho htab0 hA hB A.lipschitz A.lipschitz' hL0 hΔ0 l1 Cr
    l2' l3 (g := (α - μ * vel) / 2) (by linarith) (by linarith) gA gB hsq0 (by linarith) hsq0
    (ρ := (1 + |W|) * √(finalTol o)) (by nlinarith [abs_nonneg W]) (by nlinarith [le_abs_self W])
    (E := B * e) (by rw [he, hx0']) (hEC.trans (hCe _ l4)) (hEC.trans (hCe _ l5))
  have n1 : N1 ≤ N * o.nfeAfter.sum := m1.trans m2
  have getT : ∀ {k t}, R.tGrid[k]? = some t → R.tGrid.getD k 0 = t ∧ k ≤ N * o.nfeAfter.sum := by
    intro k t ht
    refine ⟨by rw [List.getD_eq_getElem?_getD, ht]; rfl, ?_⟩
    have := (List.getElem?_eq_some_iff.1 ht).1
    omega
  have getX : ∀ {k x}, R.xSim[k]? = some x → R.xSim.getD k [] = x ∧ k ≤ N * o.nfeAfter.sum := by
    intro k t ht
    refine ⟨by rw [List.getD_eq_getElem?_getD, ht]; rfl, ?_⟩
    have := (List.getElem?_eq_some_iff.1 ht).1
    omega
  refine ⟨?_, N1, N2, m1, by omega, ?_, ?_, ?_⟩
  · intro k t x ht hx htT j
    obtain ⟨t1, t2⟩ := getT ht
    obtain ⟨x1, -⟩ := getX hx
    have := n6 k t2 (by rw [t1]; exact htT)
    rw [t1, x1] at this
    have hj := norm_le_pi_norm (toVec um.nX x - if t ≤ ts then φA t else φB t) j
    rw [Real.norm_eq_abs, Pi.sub_apply] at hj
    exact (hj.trans this).trans hEC
  · intro k t x x' ht hx hx'
    obtain ⟨t1, -⟩ := getT ht
    obtain ⟨x1, -⟩ := getX hx
    obtain ⟨x2, x3⟩ := getX hx'
    refine ⟨fun hk => ?_, fun hk htT => ?_⟩
    · have := St.first k (by omega) 0 hn (by have := n2 k hk 0 hn; linarith)
      rwa [x1, x2] at this
    · have := St.second k (by omega) 0 hn (by
        have := n3 k hk (by omega) (by rw [t1]; exact htT) 0 hn; linarith)
      rwa [x1, x2] at this
  · intro k t ht h1 h2 hN
    obtain ⟨t1, -⟩ := getT ht
    have := n4 k h1 h2 (by omega)
    rw [t1] at this
    exact this.trans hEC
  · intro k t ht hk
    obtain ⟨t1, -⟩ := getT ht
    have := n5 k hk
    rw [t1] at this
    linarith

end
end Nosnoc
