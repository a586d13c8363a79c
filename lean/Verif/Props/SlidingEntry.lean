import Verif.Proofs.SlidingEntry
import Verif.Props.Crossing
import Verif.Props.TablesRegular
/-
C139: simulations converge through the entry into a sliding mode.
-/
namespace Nosnoc
open Polynomial

section
variable {colloc : IrkScheme → Nat → List ℝ}

/-- Runge-Kutta form with a regular matrix, for all representations. -/
theorem rk_form_regular {sc : IrkScheme} {n : Nat} {rep : IrkRep} (hn : 0 < n)
    (hcol : rep = .integral → CollocOk (colloc sc n) n ∧ ∀ t ∈ colloc sc n, 0 ≤ t ∧ t ≤ 1)
    (hgen : rep ≠ .integral → ∃ t, generateButcher n sc = .ok t) :
    ∃ (a : Nat → Nat → ℝ) (b c : Nat → ℝ) (δ : ℝ), StageOrder n a b c δ ∧
      δ = (if rep = .integral then 0 else 1 / 10 ^ 11) ∧
      (∀ v : Nat → ℝ, (∀ j < n, ∑ r ∈ Finset.range n, a j r * v r = 0) → ∀ r < n, v r = 0) ∧
      ∀ {o : Opts} {um : UserModel} {uo : Option UserOcp} {po : PreOpts} {m : PreModel} {oc : PreOcp}
        {P : Problem} {env : Env}, SetupEx colloc o um uo po m oc P → o.scheme = sc → o.nS = n →
        o.irkRep = rep → P.form.Feasible env → ∀ k e, HasFE po k e →
        (∀ j < n, ∀ i < um.nX, (xVal po m.dims k e j env).getD i 0 = (startVal po m.dims k e env).getD i 0
          + hVal po k e env * ∑ r ∈ Finset.range n,
            a j r * (sotVal po k env * um.stageRhs po m.dims k e r i env)) ∧
        ∀ i < um.nX, (xEndVal po m.dims k e env).getD i 0 = (startVal po m.dims k e env).getD i 0
          + hVal po k e env * ∑ r ∈ Finset.range n,
            b r * (sotVal po k env * um.stageRhs po m.dims k e r i env) := by
  obtain ⟨a, b, c, δ, h1, h2, h3, h4⟩ := rk_form_cases (colloc := colloc) hn hcol hgen
  refine ⟨a, b, c, δ, h1, h2, ?_, h4⟩
  intro v hv
  by_cases hr : rep = .integral
  · have hc := (hcol hr).1
    have := collocA_regular hc.nodup (v := v)
    rw [hc.length] at this
    refine this fun j hj => ?_
    rw [← hv j hj]
    exact Finset.sum_congr rfl fun r _ => by rw [h3.1 hr]
  · obtain ⟨t, ht⟩ := hgen hr
    refine C20_regular ht (v := fun _ => 0) fun j hj => ?_
    simp only [mul_zero, Finset.sum_const_zero]
    rw [← hv j hj]
    exact Finset.sum_congr rfl fun r _ => by rw [h3.2 hr t ht]

/-- C139: simulations of trajectories that reach a switching surface and slide along it converge.  Fix the scheme,
the number of stages `n`, the representation, a Lipschitz constant `L` of the two vector fields and
the sliding one, and the constants of the trajectory (see `SlidingEntry`; `D`: derivatives, `T`: time, `η`: how far
the two parts are continued, `α`: the speed with which both vector fields point towards the surface, `Lψ`: norm of
the switching function, `r`: the neighbourhood, `vel`: velocity).  There are `H0 > 0` and `C` such that for every
system with one switching function, which is affine, and every simulation with FESD and polishing that starts on the
side of the first region, all steps of which are reported as SUCCESS, with any number of steps and finite elements,
whose longest possible finite element `Δ` is at most `H0`: with `err` the sum of the initial difference, `Δ ^ n` and
(when the Butcher tables are used) the rounding of the tables, if `err ≤ H0`, then

* up to time `T` the states in `X_sim` differ from the trajectory by at most `C * err`;
* there is a position `N1` such that all elements before it (of positive length) begin and end on the side of the
  first region, and from it on, unless it is the end of the simulation, all states up to time `T` lie exactly on the
  switching surface;
* the time of position `N1` differs from the time `ts` at which the trajectory reaches the surface by at most
  `C * err` unless it is the end of the simulation, and no time before exceeds `ts` by more than this.

Nothing is assumed about the computed states. -/
theorem C139_sliding {sc : IrkScheme} {n : Nat} {rep : IrkRep} (hn : 0 < n)
    (hcol : rep = .integral → CollocOk (colloc sc n) n ∧ ∀ t ∈ colloc sc n, 0 ≤ t ∧ t ≤ 1)
    {L : ℝ} (hL0 : 0 ≤ L) (D T : ℝ) {η r : ℝ} (hη : 0 < η) (hr0 : 0 < r) (α Lψ vel : ℝ) :
    ∃ H0 > 0, ∃ C : ℝ, ∀ {o : Opts} {um : UserModel} {uo : Option UserOcp} {po : PreOpts} {m : PreModel}
      {oc : PreOcp} {P : Problem} {orc : Oracle} {S : Solver} {x0 : List ℝ} {N : Nat} {pv : Option Arr}
      {R : SimResults} {p : List ℝ} {bw : Nat → ℝ} {i i' : Nat} {φA φS : ℝ → Fin um.nX → ℝ}
      {fS : (Fin um.nX → ℝ) → Fin um.nX → ℝ} {G : (Fin um.nX → ℝ) →ₗ[ℝ] ℝ} {ts : ℝ},
      o.scheme = sc → o.nS = n → o.irkRep = rep →
      CrossRun colloc o um uo po m oc P orc S x0 N pv R p bw i i' L →
      SlidingEntry n D L (um.regionField (fun _ => i) [] p []) (um.regionField (fun _ => i') [] p []) fS
        (um.surface i' p) φA φS G ts η T α Lψ r vel →
      um.surface i' p (toVec um.nX x0) ≤ 0 →
      ∀ Δ, Δ = (1 + o.gammaH) * (o.terminalTime / o.nfeAfter.sum) → Δ ≤ H0 →
      ∀ err, err = ‖toVec um.nX x0 - φA 0‖ + Δ ^ n + (if rep = .integral then 0 else 1 / 10 ^ 11) → err ≤ H0 →
      (∀ (k : Nat) (t : ℝ) (x : List ℝ), R.tGrid[k]? = some t → R.xSim[k]? = some x → t ≤ T →
        ∀ j : Fin um.nX, |x.getD j 0 - (if t ≤ ts then φA t else φS t) j| ≤ C * err) ∧
      ∃ N1 < R.tGrid.length,
        (∀ (k : Nat) (t t' : ℝ) (x x' : List ℝ), R.tGrid[k]? = some t →
          R.tGrid[k + 1]? = some t' → t < t' → R.xSim[k]? = some x → R.xSim[k + 1]? = some x' → k < N1 →
          um.surface i' p (toVec um.nX x) ≤ 0 ∧ um.surface i' p (toVec um.nX x') ≤ 0) ∧
        (N1 + 1 < R.tGrid.length → ∀ (k : Nat) (t : ℝ) (x : List ℝ), N1 ≤ k → R.tGrid[k]? = some t →
          R.xSim[k]? = some x → t ≤ T → um.surface i' p (toVec um.nX x) = 0) ∧
        (∀ t : ℝ, R.tGrid[N1]? = some t → N1 + 1 < R.tGrid.length → |t - ts| ≤ C * err) ∧
        ∀ (k : Nat) (t : ℝ), R.tGrid[k]? = some t → k ≤ N1 → t ≤ ts + C * err := by
  by_cases hgen : rep ≠ .integral → ∃ t, generateButcher n sc = .ok t
  swap
  · refine ⟨1, one_pos, 0, ?_⟩
    intro o um uo po m oc P orc S x0 N pv R p bw i i' φA φS fS G ts e1 e2 e3 A
    subst e1 e2 e3
    exact absurd (fun hrep => (A.sim.setup.toSetup.built.opts.diff hrep).imp fun t ht => ht.1) hgen
  obtain ⟨a, b, c, tab, ho, htab, hreg, hform⟩ := rk_form_regular hn hcol hgen
  obtain ⟨A0, hA0, hA, hB⟩ := coeff_bound n a b
  have htab0 : 0 ≤ tab := by rw [htab]; split <;> norm_num
  have hAL0 : 0 ≤ A0 * L := mul_nonneg hA0 hL0
  set C := crossConst n A0 L D T α Lψ with hC
  have q1 : 0 < 1 / (2 * (A0 * L) + 1) := by positivity
  have q2 : 0 < r / (4 * A0 * |vel| + 1) := by positivity
  have q3 : 0 < η / 2 / (|C| + 1) := by positivity
  have q4 : 0 < r / 2 / (|C| + 1) := by positivity
  refine ⟨min (min (1 / (2 * (A0 * L) + 1)) (r / (4 * A0 * |vel| + 1)))
    (min (η / 2) (min (η / 2 / (|C| + 1)) (r / 2 / (|C| + 1)))), by
      refine lt_min (lt_min q1 q2) (lt_min (by linarith) (lt_min q3 q4)), C, ?_⟩
  intro o um uo po m oc P orc S x0 N pv R p bw i i' φA φS fS G ts e1 e2 e3 A Cr hneg Δ hΔ hle err herr hle'
  subst e1 e2 e3
  have hr := A.sim
  have h := hr.setup
  have hΔ0 : 0 ≤ Δ := by
    have := A.gamma.1
    have := A.time
    rw [hΔ]; positivity
  have herr0 : 0 ≤ err := by
    rw [herr, ← htab]
    positivity
  obtain ⟨⟨l1, l2⟩, l3, -⟩ : (Δ ≤ 1 / (2 * (A0 * L) + 1) ∧ Δ ≤ r / (4 * A0 * |vel| + 1)) ∧ Δ ≤ η / 2 ∧
      (Δ ≤ η / 2 / (|C| + 1) ∧ Δ ≤ r / 2 / (|C| + 1)) := by
    simpa only [le_min_iff] using hle
  obtain ⟨-, -, l4, l5⟩ : (err ≤ 1 / (2 * (A0 * L) + 1) ∧ err ≤ r / (4 * A0 * |vel| + 1)) ∧ err ≤ η / 2 ∧
      (err ≤ η / 2 / (|C| + 1) ∧ err ≤ r / 2 / (|C| + 1)) := by
    simpa only [le_min_iff] using hle'
  have hvel : vel ≤ |vel| := le_abs_self vel
  have l2' : 4 * A0 * vel * Δ ≤ r := by
    rw [le_div_iff₀ (by positivity)] at l2
    have : A0 * vel * Δ ≤ A0 * |vel| * Δ :=
      mul_le_mul_of_nonneg_right (mul_le_mul_of_nonneg_left hvel hA0) hΔ0
    nlinarith
  have hCe : ∀ y, err ≤ y / (|C| + 1) → C * err ≤ y := by
    intro y hy
    rw [le_div_iff₀ (by positivity)] at hy
    have : C * err ≤ |C| * err := mul_le_mul_of_nonneg_right (le_abs_self C) herr0
    nlinarith
  obtain ⟨-, ⟨hx0, hlen, hlenT, hgrid⟩, -⟩ := hr.steps
  have hglen : R.tGrid.length = N * o.nfeAfter.sum + 1 := by rw [hgrid]; simp
  obtain ⟨hh, X, K, w, St, hmid⟩ := A.steps rfl (fun hrep => (hcol hrep).1) fun hf => hform h rfl rfl rfl hf
  rw [← hΔ] at St
  have hx0' : R.xSim.getD 0 [] = x0 := by rw [List.getD_eq_getElem?_getD, hx0]; rfl
  obtain ⟨N1, n1, n2, n3, n4, n5, n6⟩ := St.slides hn ho htab0 hA hB A.lipschitz A.lipschitz' hL0 hΔ0 l1 hreg hmid Cr
    l2' l3 (by beta_reduce; rw [hx0']; exact hneg) (E := C * err) (by rw [herr, hx0', htab]) (hCe _ l4) (hCe _ l5)
  have getT : ∀ {k t}, R.tGrid[k]? = some t → R.tGrid.getD k 0 = t ∧ k ≤ N * o.nfeAfter.sum := by
    intro k t ht
    refine ⟨by rw [List.getD_eq_getElem?_getD, ht]; rfl, ?_⟩
    have := (List.getElem?_eq_some_iff.1 ht).1
    omega
  have getX : ∀ {k x}, R.xSim[k]? = some x → R.xSim.getD k [] = x ∧ k ≤ N * o.nfeAfter.sum := by
    intro k t ht
    refine ⟨by rw [List.getD_eq_getElem?_getD, ht]; rfl, ?_⟩
    have := (List.getElem?_eq_some_iff.1 ht).1
    omega
  refine ⟨?_, N1, by omega, ?_, ?_, ?_, ?_⟩
  · intro k t x ht hx htT j
    obtain ⟨t1, t2⟩ := getT ht
    obtain ⟨x1, -⟩ := getX hx
    have := n6 k t2 (by rw [t1]; exact htT)
    rw [t1, x1] at this
    have hj := norm_le_pi_norm (toVec um.nX x - if t ≤ ts then φA t else φS t) j
    rw [Real.norm_eq_abs, Pi.sub_apply] at hj
    exact hj.trans this
  · intro k t t' x x' ht ht' htt hx hx' hkN
    obtain ⟨t1, -⟩ := getT ht
    obtain ⟨t2, -⟩ := getT ht'
    obtain ⟨x1, -⟩ := getX hx
    obtain ⟨x2, x3⟩ := getX hx'
    have hnz : hh k ≠ 0 := by
      intro h0
      have := St.next k (by omega)
      rw [t1, t2, h0] at this
      linarith
    have := St.first k (by omega) 0 hn (by rw [(n2 k hkN).resolve_left hnz 0 hn]; exact one_ne_zero)
    rwa [x1, x2] at this
  · intro hN k t x hk ht hx htT
    obtain ⟨t1, t2⟩ := getT ht
    obtain ⟨x1, -⟩ := getX hx
    have := n3 (by omega) k hk t2 (by rw [t1]; exact htT)
    rwa [x1] at this
  · intro t ht hN
    obtain ⟨t1, -⟩ := getT ht
    have := n4 (by omega)
    rwa [t1] at this
  · intro k t ht hk
    obtain ⟨t1, -⟩ := getT ht
    have := n5 k hk
    rwa [t1] at this

end
end Nosnoc
