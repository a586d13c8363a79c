import Verif.Props.Switched
import Verif.Props.ExactSim
/-
C116: simulations converge over the whole simulated time.
-/
namespace Nosnoc

/-- A simulation (`NosnocSimLooper`, N steps from `x0`, with `p_values` `pv`) of a system without algebraic and
global variables, all of whose steps are reported as SUCCESS, and what `get_results` returns. -/
structure SimRun (colloc : IrkScheme → Nat → List ℝ) (o : Opts) (um : UserModel) (uo : Option UserOcp)
    (po : PreOpts) (m : PreModel) (oc : PreOcp) (P : Problem) (orc : Oracle) (S : Solver) (x0 : List ℝ) (N : Nat)
    (pv : Option Arr) (R : SimResults) : Prop where
  setup : SetupEx colloc o um uo po m oc P
  reach : Reachable colloc o um uo orc S
  lists : o.nfeAfter.length = o.nStages
  /-- points the NLP solver accepts satisfy their constraints -/
  exact : orc.Exact P
  run : ∃ wi L L' stop b, Looper.create S x0 N pv wi = .ok L ∧ L.run orc stop = (L', .ok b) ∧
    L'.getResults = .ok R
  success : ∀ i < N, R.status[i]? = some .success
  sot : o.sot ≠ .local
  nz : um.nZ = 0
  nv : um.nV = 0

section
variable {colloc : IrkScheme → Nat → List ℝ} {o : Opts} {um : UserModel} {uo : Option UserOcp}
  {po : PreOpts} {m : PreModel} {oc : PreOcp} {P : Problem} {orc : Oracle} {S : Solver} {x0 : List ℝ} {N : Nat}
  {pv : Option Arr} {R : SimResults}

/-- The steps of a simulation as calls of `solve`, and where their results are found. -/
theorem SimRun.steps (hr : SimRun colloc o um uo po m oc P orc S x0 N pv R) :
    (um.nU = 0 ∧ o.nStages = 1 ∧ 0 < o.nfeAfter.sum) ∧
    (R.xSim[0]? = some x0 ∧ R.xSim.length = 1 + N * o.nfeAfter.sum ∧
      R.timeSteps.length = N * o.nfeAfter.sum ∧
      R.tGrid = (List.range (N * o.nfeAfter.sum + 1)).map fun n => (R.timeSteps.take n).sum) ∧
    ∃ (before : Nat → Solver) (result : Nat → SolveResult), ∀ i < N,
      Reachable colloc o um uo orc (before i) ∧ ((before i).solve orc).2 = .ok (result i) ∧
      (result i).status = .success ∧ (before i).m.pVal.headD [] = simParams um S pv i ∧
      ∀ env, ResultsSpec po m.dims (before i).m.x0 env (result i).res →
        (before i).m.x0 = (List.range m.dims.nX).map (fun j => env (.x0 j)) →
        ∀ e < o.nfeAfter.sum, HasFE po 0 e ∧
          R.xSim[i * o.nfeAfter.sum + e]? = some (startVal po m.dims 0 e env) ∧
          R.xSim[i * o.nfeAfter.sum + e + 1]? = some (xEndVal po m.dims 0 e env) ∧
          R.timeSteps[i * o.nfeAfter.sum + e]? = some (hVal po 0 e env) := by
  obtain ⟨h, hS, hL, hon, ⟨wi, L, L', stop, b, hc, hrun, hR⟩, hst, hsot, hz, hv⟩ := hr
  have h' := h.toSetup
  obtain ⟨result, calls, sim, h1, h2, -⟩ := run_sim h' hL hS hc hrun hR
  obtain ⟨⟨hU, hN1, hun⟩, hpv⟩ := (C64_create_iff h' hS x0 N pv wi).1.1 ⟨L, hc⟩
  have e1 : po.nStages = 1 := h'.e_nStages.trans hN1
  have hlist : po.nfeList = o.nfeAfter := by rw [h'.opts]
  have hnf : nfe po 0 = o.nfeAfter.sum := by
    unfold nfe
    rw [hlist]
    rw [hN1] at hL
    obtain ⟨a, ha⟩ := List.length_eq_one_iff.1 hL
    rw [ha]; simp
  have hel : ∀ e < o.nfeAfter.sum, (elements po)[e]? = some (0, e) := by
    intro e he
    have := elements_get (po := po) (by rw [hlist, hL, h'.e_nStages]) (k := 0) (e := e)
      ⟨by omega, by omega⟩
    simpa using this
  have len : ∀ j < N, (result j).res.xList.length = o.nfeAfter.sum ∧
      (result j).res.timeSteps.length = o.nfeAfter.sum := by
    intro j hj
    obtain ⟨-, -, b3, b4, -⟩ := h1 j hj
    obtain ⟨r1, -, r3⟩ := step_results h' hL b3 b4
    exact ⟨r1, r3⟩
  refine ⟨⟨hU, hN1, elements_pos h' hL⟩, ⟨by rw [sim.states]; rfl, sim.number, ?_, sim.grid⟩,
    beforeStep orc L, result, fun i hi => ?_⟩
  · rw [sim.steps, List.length_flatMap, List.map_congr_left (g := fun _ => o.nfeAfter.sum)
      fun i hi => (len i (List.mem_range.1 hi)).2]
    simp
  obtain ⟨a1, -, a3, a4, -⟩ := h1 i hi
  have hok := (sim.solved i hi).1
  have hst' : (result i).status = .success := by
    have := hst i hi
    rw [sim.status, List.getElem?_map, List.getElem?_range hi] at this
    exact Option.some.inj this
  refine ⟨a1, hok, hst', ?_, fun env f3 hx0 e he => ?_⟩
  · obtain ⟨hpn, hpf⟩ := sim_pVal h' hS hc (fun j hj => (h1 j hj).2.2.2.2)
      (fun j hj => (sim.solved j hj).1) h2 (fun j hj => (h1 j hj).1)
    unfold simParams
    rcases hpv with rfl | ⟨f, rfl⟩
    · rw [hpn rfl i hi]
      exact (List.take_append_drop _ _).symm
    · rw [hpf f rfl i hi]
      have hl := (hS.inv h').pLen
      cases hpl : S.m.pVal with
      | nil => rw [hpl] at hl; simp at hl; omega
      | cons a l => rfl
  · have hend : ∀ e < o.nfeAfter.sum,
        R.xSim[i * o.nfeAfter.sum + e + 1]? = some (xEndVal po m.dims 0 e env) := by
      intro e he
      rw [sim.states, List.getElem?_cons_succ,
        flatMap_get (fun i => (result i).res.xList) (fun j hj => (len j hj).1) hi he]
      beta_reduce
      rw [f3.xList, List.getElem?_map, hel e he]
      rfl
    refine ⟨⟨by omega, by omega⟩, ?_, hend e he, ?_⟩
    · cases e with
      | zero =>
        rw [startVal_first (by simp [prevFe])]
        obtain ⟨x, hx, hx', -⟩ := sim.start i hi
        rw [Nat.add_zero, hx, ← hx', hx0]
      | succ e =>
        rw [startVal_prev (k' := 0) (e' := e) (by simp [prevFe])]
        exact hend e (by omega)
    · rw [sim.steps, flatMap_get (fun i => (result i).res.timeSteps) (fun j hj => (len j hj).2) hi he]
      beta_reduce
      rw [f3.steps, List.getElem?_map, hel e he]
      rfl

/-- The states of a simulation up to position `N0`, when the stages of every element before follow a vector
field `f n` up to `η`. -/
theorem sim_error {n : Nat} {a : Nat → Nat → ℝ} {b c : Nat → ℝ} {δ A L D H η : ℝ} (hη : 0 ≤ η)
    (hn : 0 < n) (ho : StageOrder n a b c δ) (hδ0 : 0 ≤ δ) (hA0 : 0 ≤ A)
    (hA : ∀ j < n, ∑ r ∈ Finset.range n, |a j r| ≤ A)
    (hB : ∑ r ∈ Finset.range n, |b r| ≤ A) (hL0 : 0 ≤ L) (hH : H ≤ 1 / (2 * (A * L) + 1))
    (hr : SimRun colloc o um uo po m oc P orc S x0 N pv R) {E : Nat → Env} {nE : Nat} (hnE : nE = o.nfeAfter.sum)
    (hform : ∀ i < N, ∀ e < nE,
        (∀ j < n, ∀ r < um.nX, (xVal po m.dims 0 e j (E i)).getD r 0 = (startVal po m.dims 0 e (E i)).getD r 0
          + hVal po 0 e (E i) * ∑ q ∈ Finset.range n,
            a j q * (sotVal po 0 (E i) * um.stageRhs po m.dims 0 e q r (E i))) ∧
        ∀ r < um.nX, (xEndVal po m.dims 0 e (E i)).getD r 0 = (startVal po m.dims 0 e (E i)).getD r 0
          + hVal po 0 e (E i) * ∑ q ∈ Finset.range n,
            b q * (sotVal po 0 (E i) * um.stageRhs po m.dims 0 e q r (E i)))
    (hpos : ∀ i < N, ∀ e < nE,
      R.xSim[i * nE + e]? = some (startVal po m.dims 0 e (E i)) ∧
      R.xSim[i * nE + e + 1]? = some (xEndVal po m.dims 0 e (E i)) ∧
      R.timeSteps[i * nE + e]? = some (hVal po 0 e (E i)))
    (hstep : ∀ h ∈ R.timeSteps, 0 ≤ h ∧ h ≤ H)
    {f : Nat → (Fin um.nX → ℝ) → Fin um.nX → ℝ} {φ : ℝ → Fin um.nX → ℝ} {N0 : Nat}
    (hf : ∀ k < N0, k < N * nE → (∀ x y, ‖f k x - f k y‖ ≤ L * ‖x - y‖) ∧
      (∀ t t', R.tGrid[k]? = some t → R.tGrid[k + 1]? = some t' → SmoothSolution n D (f k) φ t t') ∧
      ∀ j < n, ∀ r : Fin um.nX,
        |sotVal po 0 (E (k / nE)) * um.stageRhs po m.dims 0 (k % nE) j r (E (k / nE))
          - f k (toVec um.nX (xVal po m.dims 0 (k % nE) j (E (k / nE)))) r| ≤ η) :
    ∀ (k : Nat) (t : ℝ) (x : List ℝ), k ≤ N0 → R.tGrid[k]? = some t → R.xSim[k]? = some x →
      0 ≤ t ∧ ‖toVec um.nX x - φ t‖ ≤ Real.exp (2 * A * L * t)
        * (‖toVec um.nX x0 - φ 0‖ + t * (|D| * ((1 + A) * H ^ n + n * δ) + A * η)) := by
  obtain ⟨⟨-, -, hnE0⟩, ⟨hx0, hlen, hlenT, hgrid⟩, -⟩ := hr.steps
  rw [← hnE] at hnE0 hlen hlenT hgrid
  have hAL0 : 0 ≤ A * L := mul_nonneg hA0 hL0
  have hH1 : ∀ h, 0 ≤ h → h ≤ H → h ≤ 1 ∧ h * (A * L) ≤ 1 / 2 := by
    intro h h0 hle
    have h2 : h ≤ 1 / (2 * (A * L) + 1) := hle.trans hH
    rw [le_div_iff₀ (by positivity)] at h2
    constructor
    · nlinarith [mul_nonneg h0 hAL0]
    · nlinarith
  set τ := |D| * ((1 + A) * H ^ n + n * δ) + A * η with hτ
  intro k
  induction k with
  | zero =>
    intro t x _ ht hx
    rw [hx0] at hx
    rw [hgrid] at ht
    simp at hx ht
    rw [← hx, ← ht]
    simp
  | succ k ih =>
    intro t x hN0 ht hx
    have hk : k < N * nE := by
      have := (List.getElem?_eq_some_iff.1 hx).1
      omega
    obtain ⟨k1, k2, k3⟩ : k / nE < N ∧ k % nE < nE ∧ k / nE * nE + k % nE = k :=
      ⟨Nat.div_lt_of_lt_mul (by rw [Nat.mul_comm]; exact hk), Nat.mod_lt _ hnE0, by
        rw [Nat.mul_comm]; exact Nat.div_add_mod k nE⟩
    obtain ⟨x1, x2, x3⟩ := hpos _ k1 _ k2
    rw [k3] at x1 x2 x3
    set hv := hVal po 0 (k % nE) (E (k / nE)) with hhv
    set t0 := (R.timeSteps.take k).sum with ht0
    have hg0 : R.tGrid[k]? = some t0 := by
      rw [hgrid, List.getElem?_map, List.getElem?_range (by omega)]
      rfl
    have hg' : t = t0 + hv := by
      have ht' := ht
      rw [hgrid, List.getElem?_map, List.getElem?_range (by omega)] at ht'
      have ht' := Option.some.inj ht'
      rw [← ht']
      beta_reduce
      rw [List.take_add_one, x3]
      simp [ht0]
    obtain ⟨b1, b2⟩ := hstep hv (List.mem_of_getElem? x3)
    obtain ⟨b3, b4⟩ := hH1 hv b1 b2
    obtain ⟨i1, i2⟩ := ih t0 _ (by omega) hg0 x1
    rw [x2] at hx
    obtain rfl := Option.some.inj hx
    obtain ⟨hLip, hsm, hK⟩ := hf k (by omega) hk
    have hsm := hsm t0 t hg0 ht
    rw [hg'] at hsm
    obtain ⟨fm1, fm2⟩ := hform _ k1 _ k2
    have est := element_error hη hn ho hA hB fm1 fm2 hK hLip hL0 hsm b1 b3 b4
    refine ⟨by rw [hg']; linarith, ?_⟩
    rw [hg']
    have hD : D ≤ |D| := le_abs_self D
    have hpow : hv ^ n ≤ H ^ n := pow_le_pow_left₀ b1 b2 _
    have hτ1 : D * ((1 + A) * hv ^ n + n * δ) + A * η ≤ τ := by
      refine add_le_add (mul_le_mul hD ?_ (by positivity) (abs_nonneg _)) le_rfl
      nlinarith
    have hH0 : 0 ≤ H := b1.trans b2
    have hτ0 : 0 ≤ τ := by positivity
    refine est.trans ?_
    have hK : 0 ≤ 2 * A * L := by nlinarith
    have acc := (exp_accumulate (K := 2 * A * L) (e0 := ‖toVec um.nX x0 - φ 0‖) (t := t0) hK b1 hτ0).resolve_right
      (not_lt.2 i1)
    refine le_trans (mul_le_mul_of_nonneg_left (add_le_add i2 (mul_le_mul_of_nonneg_left hτ1 b1))
      (Real.exp_pos _).le) acc

/-- The step lengths of a simulation are nonnegative and small when there are at least `q` elements per step. -/
theorem SimRun.small (hr : SimRun colloc o um uo po m oc P orc S x0 N pv R)
    (hg : o.useFesd = true → 0 ≤ o.gammaH ∧ o.gammaH ≤ 1) (hT : 0 ≤ o.terminalTime) :
    ∀ s ∈ R.timeSteps, 0 ≤ s ∧
      s ≤ (if o.useFesd then 1 + o.gammaH else 1) * (o.terminalTime / o.nfeAfter.sum) := by
  obtain ⟨⟨-, hN1, hnE0⟩, ⟨-, -, hlenT, -⟩, before, result, hsteps⟩ := hr.steps
  intro s hs
  obtain ⟨k, hk, hks⟩ := List.getElem_of_mem hs
  set nE := o.nfeAfter.sum with hnE
  obtain ⟨k1, k2, k3⟩ : k / nE < N ∧ k % nE < nE ∧ k / nE * nE + k % nE = k :=
    ⟨Nat.div_lt_of_lt_mul (by rw [Nat.mul_comm]; omega), Nat.mod_lt _ hnE0, by
      rw [Nat.mul_comm]; exact Nat.div_add_mod k nE⟩
  obtain ⟨a1, a2, a3, -, a5⟩ := hsteps _ k1
  have h' := hr.setup.toSetup
  obtain ⟨hrd, -⟩ := ready_of_ok h' (a1.inv h') a2
  obtain ⟨env, sigma, tau, f1, -, hR, f4, -⟩ := C87_success_is_feasible hr.setup a1 hr.lists hr.exact a2 a3
  obtain ⟨b1, -, -, b4⟩ := a5 env hR (x0_of_params h' hrd.x0 f4) _ k2
  have hq : ∀ k < o.nStages, nE ≤ o.nfeAfter.getD k 0 := by
    intro k hk
    obtain rfl : k = 0 := by omega
    have hl := hr.lists
    rw [hN1] at hl
    obtain ⟨a, ha⟩ := List.length_eq_one_iff.1 hl
    rw [hnE, ha]; simp
  have := steps_small hr.setup f1 hR hg hT hnE0 hq (hVal po 0 (k % nE) env) (by
    rw [hR.steps]
    exact List.mem_map.2 ⟨(0, k % nE), by rw [elements_eq_allFE, mem_allFE]; exact b1, rfl⟩)
  rw [k3, List.getElem?_eq_getElem hk, hks] at b4
  rw [← Option.some.inj b4, hN1, Nat.cast_one, one_mul] at this
  exact this

/-- C116: convergence of simulations of smooth systems.  Fix the scheme, the number of stages `n`, the
representation, a Lipschitz constant `L`, a bound `D` on derivatives and a time `T`.  There are a step length
`H0` and a constant `C` such that for every simulation with these data, with any number of steps `N`, any number
of finite elements and any length of the steps: if all steps are reported as SUCCESS and the longest possible
finite element `Δ` (the length of a step over the number of finite elements, times `1 + gamma_h` with FESD) is at
most `H0`, then up to time `T` the states in `X_sim` differ from the solution `φ` of the differential equation,
which has the parameters of row `i` of `p_values` during step `i`, by at most `C * Δ ^ n` (plus `C` times the
initial difference and the rounding of the Butcher tables, which is zero for INTEGRAL). -/
theorem C116_smooth {sc : IrkScheme} {n : Nat} {rep : IrkRep} (hn : 0 < n)
    (hcol : rep = .integral → CollocOk (colloc sc n) n ∧ ∀ t ∈ colloc sc n, 0 ≤ t ∧ t ≤ 1)
    {L : ℝ} (hL0 : 0 ≤ L) (D T : ℝ) :
    ∃ H0 > 0, ∃ C : ℝ, ∀ {o : Opts} {um : UserModel} {uo : Option UserOcp} {po : PreOpts} {m : PreModel}
      {oc : PreOcp} {P : Problem} {orc : Oracle} {S : Solver} {x0 : List ℝ} {N : Nat} {pv : Option Arr}
      {R : SimResults} {g : Nat → (x z u p v : List ℝ) → ℝ} {φ : ℝ → Fin um.nX → ℝ},
      o.scheme = sc → o.nS = n → o.irkRep = rep → SimRun colloc o um uo po m oc P orc S x0 N pv R →
      o.mpcc ≠ .boolean → (o.pss = .stewart → um.F.isSome = true) →
      (o.pss = .step → ∀ s < um.nSys, (um.Smat s).IsSign ∧ (um.Smat s).Partition) → um.SmoothRhs g →
      (∀ u p v x y, ‖um.field g u p v x - um.field g u p v y‖ ≤ L * ‖x - y‖) →
      (o.useFesd = true → 0 ≤ o.gammaH ∧ o.gammaH ≤ 1) → 0 ≤ o.terminalTime →
      (∀ k t t', R.tGrid[k]? = some t → R.tGrid[k + 1]? = some t' →
        SmoothSolution n D (um.field g [] (simParams um S pv (k / o.nfeAfter.sum)) []) φ t t') →
      ∀ Δ, Δ = (if o.useFesd then 1 + o.gammaH else 1) * (o.terminalTime / o.nfeAfter.sum) → Δ ≤ H0 →
      ∀ (k : Nat) (t : ℝ) (x : List ℝ), t ≤ T → R.tGrid[k]? = some t → R.xSim[k]? = some x →
        ∀ i : Fin um.nX, |x.getD i 0 - φ t i| ≤ C * (‖toVec um.nX x0 - φ 0‖ + Δ ^ n
          + if rep = .integral then 0 else 1 / 10 ^ 11) := by
  by_cases hgen : rep ≠ .integral → ∃ t, generateButcher n sc = .ok t
  swap
  · refine ⟨1, one_pos, 0, ?_⟩
    intro o um uo po m oc P orc S x0 N pv R g φ e1 e2 e3 hr
    subst e1 e2 e3
    exact absurd (fun hrep => (hr.setup.toSetup.built.opts.diff hrep).imp fun t ht => ht.1) hgen
  obtain ⟨a, b, c, δ, ho, hδ, hform⟩ := rk_form hn hcol hgen
  obtain ⟨A, hA0, hA, hB⟩ := coeff_bound n a b
  have hδ0 : 0 ≤ δ := by rw [hδ]; split <;> norm_num
  have hAL0 : 0 ≤ A * L := mul_nonneg hA0 hL0
  refine ⟨1 / (2 * (A * L) + 1), by positivity,
    Real.exp (2 * A * L * T) * (1 + T * (|D| * (1 + A + n) + A)), ?_⟩
  intro o um uo po m oc P orc S x0 N pv R g φ e1 e2 e3 hr hb hF hsg hg hLip hgam hT href Δ hΔ hle k t x htT ht hx i
  subst e1 e2 e3
  have h := hr.setup
  have h' := h.toSetup
  obtain ⟨⟨hU, hN1, hnE0⟩, ⟨-, -, hlenT, -⟩, before, result, hsteps⟩ := hr.steps
  have hsmall := hr.small hgam hT
  rw [← hΔ] at hsmall
  have hΔ0 : 0 ≤ Δ := by
    rw [hΔ]
    refine mul_nonneg ?_ (by positivity)
    split
    · have := (hgam ‹_›).1
      linarith
    · norm_num
  have hpt : ∀ i, ∃ env : Env, i < N → P.form.Feasible env ∧ pVal m.dims 0 env = simParams um S pv i ∧
      ∀ e < o.nfeAfter.sum, HasFE po 0 e ∧
        R.xSim[i * o.nfeAfter.sum + e]? = some (startVal po m.dims 0 e env) ∧
        R.xSim[i * o.nfeAfter.sum + e + 1]? = some (xEndVal po m.dims 0 e env) ∧
        R.timeSteps[i * o.nfeAfter.sum + e]? = some (hVal po 0 e env) := by
    intro i
    by_cases hi : i < N
    swap
    · exact ⟨fun _ => 0, fun hh => absurd hh hi⟩
    obtain ⟨a1, a2, a3, a4, a5⟩ := hsteps i hi
    have hinv := a1.inv h'
    obtain ⟨hrd, -⟩ := ready_of_ok h' hinv a2
    obtain ⟨env, sigma, tau, f1, -, hR, f4, -⟩ := C87_success_is_feasible h a1 hr.lists hr.exact a2 a3
    exact ⟨env, fun _ => ⟨(h.iff hb).2 f1, (pVal_of_params h' hinv f4).trans a4,
      a5 env hR (x0_of_params h' hrd.x0 f4)⟩⟩
  choose E hE using hpt
  have key := sim_error (η := 0) (N0 := k) le_rfl hn ho hδ0 hA0 hA hB hL0 hle hr (E := E) rfl
    (fun i hi e he => hform h rfl rfl rfl (hE i hi).1 0 e ((hE i hi).2.2 e he).1)
    (fun i hi e he => ((hE i hi).2.2 e he).2) hsmall (φ := φ) (D := D)
    (f := fun k => um.field g [] (simParams um S pv (k / o.nfeAfter.sum)) [])
    (fun k _ hk => ⟨hLip _ _ _, fun t t' ht ht' => href k t t' ht ht', fun j hj r => ?_⟩) k t x le_rfl ht hx
  · have hi' := norm_le_pi_norm (toVec um.nX x - φ t) i
    rw [Real.norm_eq_abs, Pi.sub_apply] at hi'
    refine ((hi'.trans key.2).trans (bound_constant hA0 hL0 hδ0 le_rfl hΔ0 (norm_nonneg _) key.1 htT)).trans ?_
    rw [← hδ, add_zero]
  · obtain ⟨k1, k2⟩ : k / o.nfeAfter.sum < N ∧ k % o.nfeAfter.sum < o.nfeAfter.sum :=
      ⟨Nat.div_lt_of_lt_mul (by rw [Nat.mul_comm]; omega), Nat.mod_lt _ hnE0⟩
    obtain ⟨c1, c2, c3⟩ := hE _ k1
    have hso : sotVal po 0 (E (k / o.nfeAfter.sum)) = 1 := by
      unfold sotVal
      rw [if_neg (by rw [h'.e_sot]; exact hr.sot)]
      rfl
    have hu0 : uVal m.dims 0 (E (k / o.nfeAfter.sum)) = [] := by
      unfold uVal; rw [h'.dims.2.1, hU]; rfl
    have hv0 : vVal m.dims (E (k / o.nfeAfter.sum)) = [] := by
      unfold vVal; rw [h'.dims.2.2.2.1, hr.nv]; rfl
    rw [hso, one_mul, stageRhs_unswitched h c1 hF hsg (hg r r.2) (c3 _ k2).1 hj, c2,
      zVal_nil (by rw [h'.dims.2.2.1, hr.nz]), hu0, hv0]
    unfold UserModel.field
    rw [toVec_ofFn (by rw [length_xVal, h'.dims.1]), sub_self, abs_zero]

/-- C116: convergence of simulations of switched systems with FESD.  As `C116_smooth`, for trajectories that pass
through regions one after the other: up to element `N0`, each element of the simulation begins (or ends, with
`right_boundary_point_explicit`) in regions `reg k s` with distance at least `δ` to the others, and `φ` follows
these regions.  The additional error is `C * κ * ε / δ * M`, with `ε = 0` when the steps are polished, and the
larger of `comp_tol / √slope` and `sigma_N` for a Scholtes mode with the LINEAR update and the automatic
budget. -/
theorem C116_switched {sc : IrkScheme} {n : Nat} {rep : IrkRep} (hn : 0 < n)
    (hcol : rep = .integral → CollocOk (colloc sc n) n ∧ ∀ t ∈ colloc sc n, 0 ≤ t ∧ t ≤ 1)
    {L : ℝ} (hL0 : 0 ≤ L) (D T : ℝ) :
    ∃ H0 > 0, ∃ C : ℝ, ∀ {o : Opts} {um : UserModel} {uo : Option UserOcp} {po : PreOpts} {m : PreModel}
      {oc : PreOcp} {P : Problem} {orc : Oracle} {S : Solver} {x0 : List ℝ} {N : Nat} {pv : Option Arr}
      {R : SimResults} {M : ℝ},
      o.scheme = sc → o.nS = n → o.irkRep = rep → SimRun colloc o um uo po m oc P orc S x0 N pv R →
      o.useFesd = true → (o.mpcc = .scholtesIneq ∨ o.mpcc = .scholtesEq ∨
        ((o.mpcc = .fischerBurmeister ∨ o.mpcc = .fischerBurmeisterIpAug) ∧ o.crossComp = .complementAll)) →
      (o.pss = .stewart ∨ um.nSys ≤ 1) → um.F.isSome = true → SignsOk o um → (∃ q, IsPair po m.dims q) →
      0 ≤ M → um.JumpBound M →
      (∀ reg : Nat → Nat, (∀ s < um.nSys, reg s < (um.Fmat s).nCols) →
        ∀ u p v x y, ‖um.regionField reg u p v x - um.regionField reg u p v y‖ ≤ L * ‖x - y‖) →
      0 ≤ o.gammaH → o.gammaH ≤ 1 → 0 ≤ o.terminalTime →
      ∀ ε, (o.polish = true ∧ ε = 0 ∨ ((o.mpcc = .scholtesIneq ∨ o.mpcc = .scholtesEq) ∧
        o.maxIterHomotopy = 0 ∧ o.rule = .linear ∧ 0 < o.slope ∧ o.slope < 1 ∧ 0 < o.compTol ∧
        o.compTol ≤ o.sigma0 ∧ ε = max (o.compTol / √o.slope) o.sigmaN)) →
      ∀ (reg : Nat → Nat → Nat) (φ : ℝ → Fin um.nX → ℝ) (N0 : Nat) (δ κ : ℝ), 0 < δ →
      (∀ k < N0, ∀ x x', R.xSim[k]? = some x → R.xSim[k + 1]? = some x' → ∀ s < um.nSys,
        reg k s < (um.Fmat s).nCols ∧
          (um.DeepIn s (reg k s) δ x [] (simParams um S pv (k / o.nfeAfter.sum)) ∨
            po.rbe = true ∧ um.DeepIn s (reg k s) δ x' [] (simParams um S pv (k / o.nfeAfter.sum)))) →
      (∀ k < N0, ∀ t t', R.tGrid[k]? = some t → R.tGrid[k + 1]? = some t' →
        SmoothSolution n D (um.regionField (reg k) [] (simParams um S pv (k / o.nfeAfter.sum)) []) φ t t') →
      0 ≤ κ → (∀ k, ∑ s ∈ Finset.range um.nSys, selConst o um s (reg k s) ≤ κ) →
      ∀ Δ, Δ = (1 + o.gammaH) * (o.terminalTime / o.nfeAfter.sum) → Δ ≤ H0 →
      ∀ (k : Nat) (t : ℝ) (x : List ℝ), k ≤ N0 → t ≤ T → R.tGrid[k]? = some t → R.xSim[k]? = some x →
        ∀ i : Fin um.nX, |x.getD i 0 - φ t i| ≤ C * (‖toVec um.nX x0 - φ 0‖ + Δ ^ n + κ * (ε / δ) * M
          + if rep = .integral then 0 else 1 / 10 ^ 11) := by
  by_cases hgen : rep ≠ .integral → ∃ t, generateButcher n sc = .ok t
  swap
  · refine ⟨1, one_pos, 0, ?_⟩
    intro o um uo po m oc P orc S x0 N pv R M e1 e2 e3 hr
    subst e1 e2 e3
    exact absurd (fun hrep => (hr.setup.toSetup.built.opts.diff hrep).imp fun t ht => ht.1) hgen
  obtain ⟨a, b, c, tab, ho, htab, hform⟩ := rk_form hn hcol hgen
  obtain ⟨A, hA0, hA, hB⟩ := coeff_bound n a b
  have htab0 : 0 ≤ tab := by rw [htab]; split <;> norm_num
  have hAL0 : 0 ≤ A * L := mul_nonneg hA0 hL0
  refine ⟨1 / (2 * (A * L) + 1), by positivity,
    Real.exp (2 * A * L * T) * (1 + T * (|D| * (1 + A + n) + A)), ?_⟩
  intro o um uo po m oc P orc S x0 N pv R M e1 e2 e3 hr hu hmode hpss hF hsg ⟨q, hq⟩ hM0 hM hLip g0 g1 hT ε hε
    reg φ N0 δ κ hδ hpass href hκ0 hκ Δ hΔ hle k t x hkN htT ht hx i
  subst e1 e2 e3
  have h := hr.setup
  have h' := h.toSetup
  have hm : ExactMode o := by
    rcases hmode with hm | hm | ⟨hm, hcc⟩
    · exact .inl (.inr (.inl hm))
    · exact .inl (.inl hm)
    · exact .inr ⟨hm, fun _ => hcc⟩
  obtain ⟨⟨hU, hN1, hnE0⟩, ⟨-, -, hlenT, -⟩, before, result, hsteps⟩ := hr.steps
  have hsmall := hr.small (fun _ => ⟨g0, g1⟩) hT
  rw [if_pos hu, ← hΔ] at hsmall
  have hΔ0 : 0 ≤ Δ := by rw [hΔ]; positivity
  have hε0 : 0 ≤ ε := by
    rcases hε with ⟨-, rfl⟩ | ⟨-, -, -, s0, -, hct, -, rfl⟩
    · exact le_rfl
    · exact le_max_of_le_left (by positivity)
  have hpt : ∀ i, ∃ env : Env, i < N → RelaxedPoint o po m P env ∧ um.InitialMultipliers po m.dims env ∧
      P.compRes env ≤ ε ∧ pVal m.dims 0 env = simParams um S pv i ∧
      ∀ e < o.nfeAfter.sum, HasFE po 0 e ∧
        R.xSim[i * o.nfeAfter.sum + e]? = some (startVal po m.dims 0 e env) ∧
        R.xSim[i * o.nfeAfter.sum + e + 1]? = some (xEndVal po m.dims 0 e env) ∧
        R.timeSteps[i * o.nfeAfter.sum + e]? = some (hVal po 0 e env) := by
    intro i
    by_cases hi : i < N
    swap
    · exact ⟨fun _ => 0, fun hh => absurd hh hi⟩
    obtain ⟨a1, a2, a3, a4, a5⟩ := hsteps i hi
    have hinv := a1.inv h'
    obtain ⟨env, sigma, tau, Dp, hI, hR, hp, hx0, hpol, hnpol⟩ :=
      success_relaxed h a1 hr.lists hr.exact a2 a3 hm hpss hr.nz
    refine ⟨env, fun _ => ⟨Dp, hI, ?_, (pVal_of_params h' hinv fun t ht _ => hp t ht).trans a4,
      a5 env hR (x0_of_params h' hx0 fun t ht _ => hp t ht)⟩⟩
    have hsig : env .sigma = sigma := hp _ (sigma_mem h')
    have hres := C97_residual Dp h hq
    have hrt0 : sigma = 0 → relaxTol o env = 0 := by
      intro hs0
      unfold relaxTol
      rw [hsig, hs0]
      rcases hmode with hm | hm | ⟨hm | hm, -⟩ <;> rw [hm] <;> norm_num
    have hrt1 : o.mpcc = .scholtesIneq ∨ o.mpcc = .scholtesEq → relaxTol o env = sigma := by
      unfold relaxTol
      rw [hsig]
      rintro (hm | hm) <;> rw [hm]
    rcases hε with ⟨hp1, rfl⟩ | ⟨hsm, hmax, hrule, s0, s1, hct, hcs, rfl⟩
    · exact hres.trans (hrt0 (hpol hp1)).le
    · cases hpo : o.polish with
      | true => exact (hres.trans (hrt0 (hpol hpo)).le).trans hε0
      | false =>
        obtain ⟨i, -, -, -, i4, i5⟩ := hnpol hpo
        exact tol_of_budget h hmax hrule s0 s1 hct hcs (hres.trans (by rw [hrt1 hsm, i4])) i5
  choose E hE using hpt
  have hη : 0 ≤ κ * (ε / δ) * M := by positivity
  have key := sim_error (η := κ * (ε / δ) * M) (N0 := N0) hη hn ho htab0 hA0 hA hB hL0 hle hr (E := E) rfl
    (fun i hi e he => hform h rfl rfl rfl (hE i hi).1.feas 0 e ((hE i hi).2.2.2.2 e he).1)
    (fun i hi e he => ((hE i hi).2.2.2.2 e he).2) hsmall (φ := φ) (D := D)
    (f := fun k => um.regionField (reg k) [] (simParams um S pv (k / o.nfeAfter.sum)) [])
    (fun k hk0 hk => ?_) k t x hkN ht hx
  · have hi' := norm_le_pi_norm (toVec um.nX x - φ t) i
    rw [Real.norm_eq_abs, Pi.sub_apply] at hi'
    refine (hi'.trans key.2).trans ?_
    rw [← htab]
    exact bound_constant hA0 hL0 htab0 hη hΔ0 (norm_nonneg _) key.1 htT
  · obtain ⟨k1, k2, k3⟩ : k / o.nfeAfter.sum < N ∧ k % o.nfeAfter.sum < o.nfeAfter.sum ∧
        k / o.nfeAfter.sum * o.nfeAfter.sum + k % o.nfeAfter.sum = k :=
      ⟨Nat.div_lt_of_lt_mul (by rw [Nat.mul_comm]; omega), Nat.mod_lt _ hnE0, by
        rw [Nat.mul_comm]; exact Nat.div_add_mod k _⟩
    obtain ⟨c1, c2, c3, c4, c5⟩ := hE _ k1
    obtain ⟨d1, d2, d3, -⟩ := c5 _ k2
    rw [k3] at d2 d3
    have hps := hpass k hk0 _ _ d2 d3
    refine ⟨hLip _ (fun s hs => (hps s hs).1) _ _ _, fun t t' ht ht' => href k hk0 t t' ht ht', fun j hj r => ?_⟩
    have hso : sotVal po 0 (E (k / o.nfeAfter.sum)) = 1 := by
      unfold sotVal
      rw [if_neg (by rw [h'.e_sot]; exact hr.sot)]
      rfl
    have hu0 : uVal m.dims 0 (E (k / o.nfeAfter.sum)) = [] := by
      unfold uVal; rw [h'.dims.2.1, hU]; rfl
    have hv0 : vVal m.dims (E (k / o.nfeAfter.sum)) = [] := by
      unfold vVal; rw [h'.dims.2.2.2.1, hr.nv]; rfl
    have hsame : um.SameSwitching po m.dims (E (k / o.nfeAfter.sum)) := by
      intro k' hk' s hs n x
      obtain rfl : k' = 0 := by have := h'.e_nStages; omega
      rfl
    beta_reduce at hps ⊢
    rw [← c4] at hps ⊢
    rw [hso, one_mul]
    have := deep_slope c1 h hu hF hsg hr.nz c2 hsame c3 hε0 hδ d1 hps hM hM0 (hκ k) hj r
    rwa [hu0, hv0] at this

end

/-- A simulation that meets the hypotheses of `C116_smooth`: `ṫ = 1`, `ẇ = t` from the origin, with any number of
steps and finite elements. -/
example (N nf : Nat) (hnf : 0 < nf) : ∃ po m oc P S R D,
    SimRun demoColloc (slideOpts 1 nf) clockModel none po m oc P (exactOracle P) S [0, 0] N none R ∧
    clockModel.SmoothRhs clockG ∧
    (∀ k t t', R.tGrid[k]? = some t → R.tGrid[k + 1]? = some t' →
      SmoothSolution 2 D (clockModel.field clockG []
        (simParams clockModel S none (k / (slideOpts 1 nf).nfeAfter.sum)) []) clockSol t t') ∧
    clockSol 0 = toVec 2 [0, 0] := by
  obtain ⟨po, m, oc, P, h0, hr⟩ := clock_setup hnf
  have hfe : ∀ y z σ τ : ℝ, 0 ≤ σ → P.form.Feasible (clockEnv nf y z σ τ) := fun y z σ τ hσ =>
    clock_feasible h0 hr hnf hσ
  have h : SetupEx demoColloc (slideOpts 1 nf) clockModel none po m oc _ :=
    ⟨h0.toSetup.toNone, rfl, by simp [UserOcp.trivial]⟩
  have h' := h.toSetup
  obtain ⟨hcr, hS, hrd⟩ := h'.create (exactOracle _) (by simp [slideOpts, Opts.default])
  have hL : (slideOpts 1 nf).nfeAfter.length = (slideOpts 1 nf).nStages := by
    simp [slideOpts, Opts.default, Opts.nfeAfter]
  obtain ⟨L, hc⟩ := (C64_create_iff h' hS [0, 0] N none none).1.2 ⟨⟨rfl, rfl, rfl⟩, .inl rfl⟩
  obtain ⟨L', R, hrun, hR⟩ := C62_run_returns h' hL hS hrd Nat.two_pos rfl
    (fun _ => by simp [slideOpts, Opts.default]) (.inl ⟨.inl rfl, rfl⟩)
    (fun _ s hs s' hs' => by rw [clock_sys hs, clock_sys hs']) hc false
  obtain ⟨result, calls, sim, q1, -⟩ := run_sim h' hL hS hc hrun hR
  have hrun' : SimRun demoColloc (slideOpts 1 nf) clockModel none po m oc _ (exactOracle _) _ [0, 0] N none R :=
    ⟨h, hS, hL, exactOracle_exact _, ⟨none, L, L', false, true, hc, hrun, hR⟩, fun i hi => by
      rw [sim.status, List.getElem?_map, List.getElem?_range hi, Option.map_some,
        clock_success h hfe (q1 i hi).1 (sim.solved i hi).1],
      by simp [slideOpts, Opts.default], rfl, rfl⟩
  have hst := hrun'.small (fun _ => by norm_num [slideOpts, Opts.default]) (by norm_num [slideOpts, Opts.default])
  have hgrid : ∀ (k : Nat) (t : ℝ), R.tGrid[k]? = some t → 0 ≤ t ∧ t ≤ R.timeSteps.sum := by
    intro k t ht
    rw [sim.grid, List.getElem?_map] at ht
    obtain ⟨i, -, rfl⟩ := Option.map_eq_some_iff.1 ht
    refine ⟨List.sum_nonneg fun s hs => (hst s (List.mem_of_mem_take hs)).1, ?_⟩
    have := List.sum_take_add_sum_drop R.timeSteps i
    have h2 : 0 ≤ (R.timeSteps.drop i).sum :=
      List.sum_nonneg fun s hs => (hst s (List.mem_of_mem_drop hs)).1
    linarith
  refine ⟨po, m, oc, _, _, R, 1 + R.timeSteps.sum, hrun', ?_, fun k t t' ht ht' =>
    clock_solution (hgrid _ _ ht).1 (hgrid _ _ ht').2 _ _ _, ?_⟩
  · intro row hrow
    refine ⟨fun _ x _ _ _ _ => if row = 0 then 1 else x.getD 0 0, ?_, ?_⟩
    · intro s hs i _ x z u p v
      obtain rfl := clock_sys hs
      rfl
    · intro x z u p v
      show ∑ _s ∈ Finset.range 1, (if row = 0 then 1 else x.getD 0 0) = _
      simp [clockG]
  · funext i
    fin_cases i <;> simp [clockSol, toVec]

/-- A simulation that meets the hypotheses of `C116_switched`: `ẋ = -sign x` from `2 N + 4`, with any number `N` of
steps and any number `nf ≥ 2` of finite elements.  All elements lie in the first region with distance at least
4, and the solution is `2 N + 4 - t`. -/
example (N nf : Nat) (hn : 2 ≤ nf) : ∃ po m oc P S R φ,
    SimRun demoColloc (slideOpts 1 nf) slideModel none po m oc P (exactOracle P) S [2 * (N : ℝ) + 4] N none R ∧
    (∃ q, IsPair po m.dims q) ∧ SignsOk (slideOpts 1 nf) slideModel ∧ slideModel.JumpBound 2 ∧
    (∀ k < N * nf, ∀ x x', R.xSim[k]? = some x → R.xSim[k + 1]? = some x' → ∀ s < slideModel.nSys,
      0 < (slideModel.Fmat s).nCols ∧
        (slideModel.DeepIn s 0 4 x [] (simParams slideModel S none (k / (slideOpts 1 nf).nfeAfter.sum)) ∨
          po.rbe = true ∧
          slideModel.DeepIn s 0 4 x' [] (simParams slideModel S none (k / (slideOpts 1 nf).nfeAfter.sum)))) ∧
    (∀ k < N * nf, ∀ t t', R.tGrid[k]? = some t → R.tGrid[k + 1]? = some t' →
      SmoothSolution 2 1 (slideModel.regionField (fun _ => 0) []
        (simParams slideModel S none (k / (slideOpts 1 nf).nfeAfter.sum)) []) φ t t') ∧
    R.xSim.length = 1 + N * nf ∧ φ 0 = toVec 1 [2 * (N : ℝ) + 4] := by
  obtain ⟨po, m, oc, P, h0, hrb⟩ := slide_setup_pos .stewart Nat.one_pos (by omega : 0 < nf)
  replace h0 : SetupEx demoColloc (slideOpts 1 nf) slideModel (some UserOcp.trivial) po m oc P := h0
  have h : SetupEx demoColloc (slideOpts 1 nf) slideModel none po m oc _ :=
    ⟨h0.toSetup.toNone, rfl, by simp [UserOcp.trivial]⟩
  have h' := h.toSetup
  obtain ⟨hcr, hS, hrd⟩ := h'.create (exactOracle _) (by simp [slideOpts, Opts.default])
  have hL : (slideOpts 1 nf).nfeAfter.length = (slideOpts 1 nf).nStages := by
    simp [slideOpts, Opts.default, Opts.nfeAfter]
  have hsum : (slideOpts 1 nf).nfeAfter.sum = nf := by
    simp [slideOpts, Opts.default, Opts.nfeAfter]
  have hq : IsPair po m.dims (.region 0 0) := by
    refine ⟨h'.e_pss, ?_, ?_⟩
    · rw [h'.dims.2.2.2.2.2.2.1]; exact Nat.one_pos
    · rw [h'.dims.2.2.2.2.2.2.2.1 h'.e_pss 0 Nat.one_pos]; exact Nat.two_pos
  obtain ⟨L, hc⟩ := (C64_create_iff h' hS [2 * (N : ℝ) + 4] N none none).1.2 ⟨⟨rfl, rfl, rfl⟩, .inl rfl⟩
  obtain ⟨L', R, hrun, hR⟩ := C62_run_returns h' hL hS hrd Nat.one_pos rfl
    (fun _ => by simp [slideOpts, Opts.default]) (.inl ⟨.inl rfl, rfl⟩)
    (fun _ s hs s' hs' => by rw [slide_sys hs, slide_sys hs']) hc false
  obtain ⟨result, calls, sim, q1, -⟩ := run_sim h' hL hS hc hrun hR
  have hsu : ∀ i < N, (result i).status = .success := by
    intro i hi
    refine C100_one_switch (u := fun _ _ => 0) (v := fun _ => 0) h (q1 i hi).1 (exactOracle_complete _)
      (sim.solved i hi).1 rfl (fun _ => by norm_num [slideOpts, Opts.default])
      (by norm_num [slideOpts, Opts.default]) (by norm_num [slideOpts, Opts.default]) rfl rfl hrb (.inl rfl) rfl
      (slide_oneSwitch Nat.one_pos hn h0) (slide_plain 1 nf) (fun _ => slide_colloc 1 nf) (slide_weights 1 nf)
      ?_ ?_ ?_
    · intro k hk x; rfl
    · intro k _ i hi; simp [slideModel] at hi
    · intro i _; exact ⟨bot_le, le_top⟩
  have hrun' : SimRun demoColloc (slideOpts 1 nf) slideModel none po m oc _ (exactOracle _) _ [2 * (N : ℝ) + 4] N
      none R :=
    ⟨h, hS, hL, exactOracle_exact _, ⟨none, L, L', false, true, hc, hrun, hR⟩, fun i hi => by
      rw [sim.status, List.getElem?_map, List.getElem?_range hi, Option.map_some, hsu i hi],
      by simp [slideOpts, Opts.default], rfl, rfl⟩
  have hst := hrun'.small (fun _ => by norm_num [slideOpts, Opts.default]) (by norm_num [slideOpts, Opts.default])
  obtain ⟨-, ⟨x1, x2, -, -⟩, before, result', hsteps⟩ := hrun'.steps
  rw [hsum] at hst x2 hsteps
  have hst' : ∀ h ∈ R.timeSteps, 0 ≤ h ∧ h ≤ 2 / nf := by
    intro s hs
    refine ⟨(hst s hs).1, (hst s hs).2.trans (le_of_eq ?_)⟩
    norm_num [slideOpts, Opts.default]
    ring
  have hpos : (0 : ℝ) < nf := by exact_mod_cast (by omega : 0 < nf)
  have low : ∀ k ≤ N * nf, ∀ x, R.xSim[k]? = some x → 2 * (N : ℝ) + 4 - k * (2 / nf) ≤ x.getD 0 0 := by
    intro k
    induction k with
    | zero =>
      intro _ x hx
      rw [x1] at hx
      obtain rfl := Option.some.inj hx
      simp
    | succ k ih =>
      intro hk x hx
      obtain ⟨k1, k2, k3⟩ : k / nf < N ∧ k % nf < nf ∧ k / nf * nf + k % nf = k :=
        ⟨Nat.div_lt_of_lt_mul (by rw [Nat.mul_comm]; omega), Nat.mod_lt _ (by omega), by
          rw [Nat.mul_comm]; exact Nat.div_add_mod k nf⟩
      obtain ⟨a1, a2, a3, -, a5⟩ := hsteps _ k1
      obtain ⟨env, sigma, tau, Dp, -, hRs, hp, hx0, -⟩ := success_relaxed h a1 hL (exactOracle_exact _) a2 a3
        (.inl (.inr (.inl rfl))) (.inl rfl) rfl
      obtain ⟨b1, b2, b3, b4⟩ := a5 env hRs (x0_of_params h' hx0 fun t ht _ => hp t ht) _ k2
      rw [k3] at b2 b3 b4
      rw [b3] at hx
      obtain rfl := Option.some.inj hx
      have hm := hst' _ (List.mem_of_getElem? b4)
      have h1 := slide_drop h Dp b1 hm.1
      have := ih (by omega) _ b2
      push_cast
      linarith [hm.2]
  refine ⟨po, m, oc, _, _, R, fun t _ => 2 * (N : ℝ) + 4 - t, hrun', ⟨_, hq⟩, slide_signs 1 nf, slide_jump, ?_, ?_,
    x2, ?_⟩
  · intro k hk x x' hx hx' s hs
    obtain rfl := slide_sys hs
    refine ⟨show 0 < 2 by norm_num, .inl fun n _ _ => ?_⟩
    show (4 : ℝ) ≤ 1 * x.getD 0 0
    have h1 := low k hk.le x hx
    have h2 : (k : ℝ) * (2 / nf) ≤ 2 * N := by
      rw [mul_div_assoc', div_le_iff₀ hpos]
      have : (k : ℝ) ≤ N * nf := by exact_mod_cast hk.le
      linarith
    linarith
  · intro k hk t t' ht ht'
    rw [slide_field]
    refine ⟨fun _ _ => -1, contDiff_const, fun q hq t _ => ?_, fun t _ => ⟨rfl, ?_⟩⟩
    · rw [iteratedDeriv_const]
      split
      · rw [pi_norm_le_iff_of_nonneg one_pos.le]; intro i; simp
      · simp
    · refine HasDerivAt.hasDerivWithinAt (hasDerivAt_pi.2 fun i => ?_)
      simpa using (hasDerivAt_id t).const_sub (2 * (N : ℝ) + 4)
  · funext i
    fin_cases i
    show 2 * (N : ℝ) + 4 - 0 = ([2 * (N : ℝ) + 4] : List ℝ).getD 0 0
    simp

end Nosnoc
