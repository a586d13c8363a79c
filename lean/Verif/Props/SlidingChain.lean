import Verif.Props.SlidingEntry
import Verif.Props.CrossingChain
import Verif.Proofs.SlidingChain
/-
C141: simulations of trajectories that cross a switching surface several times and then slide along it converge.
-/
namespace Nosnoc

section
variable {colloc : IrkScheme → Nat → List ℝ}

/-- C141: simulations of trajectories that cross a switching surface any number of times and then slide along it
converge.  Fix the scheme, the number of stages `n`, the representation, a Lipschitz constant `L` of the two vector
fields and the sliding one, the number `m > 0` of crossings, the constants of the crossings (as in C138) and of the
entry into the sliding mode (as in C139, with time counted from `s m`; `ts m` is the time at which sliding begins and
part `m + 1` of the trajectory is the sliding one, described until `Te`).  There are `H0 > 0` and `C` such that for
every system with one switching function and every simulation with FESD and polishing, all steps of which are reported
as SUCCESS, with any number of steps and finite elements, whose longest possible finite element `Δ` is at most `H0`:
with `err` the sum of the initial difference, `Δ ^ n` and the rounding of the Butcher tables, if `err ≤ H0`, then

* up to time `Te` the states in `X_sim` differ from the trajectory by at most `C * err`;
* there are positions `N1 1 ≤ ... ≤ N1 (m + 1)` such that all elements (of positive length) from position `N1 q` to
  position `N1 (q + 1)` begin and end in (the closure of) the region the trajectory is in between the switches
  `q - 1` and `q`, and from position `N1 (m + 1)` on, unless it is the end of the simulation, all states up to time
  `Te` lie exactly on the switching surface;
* the time of position `N1 (q + 1)` differs from the true time `ts q` of switch `q` by at most `C * err` unless it is
  the end of the simulation, and no time before exceeds `ts q` by more than this.

Nothing is assumed about the computed states. -/
theorem C141_crossings_sliding {sc : IrkScheme} {n : Nat} {rep : IrkRep} (hn : 0 < n)
    (hcol : rep = .integral → CollocOk (colloc sc n) n ∧ ∀ t ∈ colloc sc n, 0 ≤ t ∧ t ≤ 1)
    {L : ℝ} (hL0 : 0 ≤ L) {m : Nat} (hm : 0 < m) (D T : ℝ) {η r : ℝ} (hη : 0 < η) (hr0 : 0 < r) (α Lψ vel : ℝ) :
    ∃ H0 > 0, ∃ C : ℝ, ∀ {o : Opts} {um : UserModel} {uo : Option UserOcp} {po : PreOpts} {pm : PreModel}
      {oc : PreOcp} {P : Problem} {orc : Oracle} {S : Solver} {x0 : List ℝ} {N : Nat} {pv : Option Arr}
      {R : SimResults} {p : List ℝ} {bw : Nat → ℝ} {i i' : Nat} {φ : Nat → ℝ → Fin um.nX → ℝ} {s ts : Nat → ℝ} {μ : ℝ}
      {fS : (Fin um.nX → ℝ) → Fin um.nX → ℝ} {G : (Fin um.nX → ℝ) →ₗ[ℝ] ℝ} {Te : ℝ},
      o.scheme = sc → o.nS = n → o.irkRep = rep →
      CrossRun colloc o um uo po pm oc P orc S x0 N pv R p bw i i' L →
      CrossingChain n D (fun q => um.regionField (fun _ => alternate i i' q) [] p [])
        (fun q => um.surface (alternate i i' (q + 1)) p) m φ s ts η T α Lψ r vel μ →
      s m + η ≤ ts m →
      SlidingEntry n D L (um.regionField (fun _ => alternate i i' m) [] p [])
        (um.regionField (fun _ => alternate i i' (m + 1)) [] p []) fS (um.surface (alternate i i' (m + 1)) p)
        (fun t => φ m (s m + t)) (fun t => φ (m + 1) (s m + t)) G (ts m - s m) η (Te - s m) α Lψ r vel →
      Te - s m ≤ T →
      ∀ Δ, Δ = (1 + o.gammaH) * (o.terminalTime / o.nfeAfter.sum) → Δ ≤ H0 →
      ∀ err, err = ‖toVec um.nX x0 - φ 0 0‖ + Δ ^ n + (if rep = .integral then 0 else 1 / 10 ^ 11) → err ≤ H0 →
      (∀ (k : Nat) (t : ℝ) (x : List ℝ), R.tGrid[k]? = some t → R.xSim[k]? = some x → t ≤ Te →
        ∀ q ≤ m + 1, (∀ q' < q, ts q' < t) → (q < m + 1 → t ≤ ts q) →
        ∀ j : Fin um.nX, |x.getD j 0 - φ q t j| ≤ C * err) ∧
      ∃ N1 : Nat → Nat, N1 0 = 0 ∧ (∀ q ≤ m, N1 q ≤ N1 (q + 1) ∧ N1 (q + 1) < R.tGrid.length) ∧
        (∀ (k : Nat) (t t' : ℝ) (x x' : List ℝ), R.tGrid[k]? = some t →
          R.tGrid[k + 1]? = some t' → t < t' → R.xSim[k]? = some x → R.xSim[k + 1]? = some x' →
          ∀ q ≤ m, N1 q ≤ k → k < N1 (q + 1) →
          0 ≤ um.surface (alternate i i' q) p (toVec um.nX x) ∧
          0 ≤ um.surface (alternate i i' q) p (toVec um.nX x')) ∧
        (N1 (m + 1) + 1 < R.tGrid.length → ∀ (k : Nat) (t : ℝ) (x : List ℝ), N1 (m + 1) ≤ k →
          R.tGrid[k]? = some t → R.xSim[k]? = some x → t ≤ Te → um.surface i' p (toVec um.nX x) = 0) ∧
        (∀ q ≤ m, ∀ t : ℝ, R.tGrid[N1 (q + 1)]? = some t → N1 (q + 1) + 1 < R.tGrid.length →
          |t - ts q| ≤ C * err) ∧
        ∀ q ≤ m, ∀ (k : Nat) (t : ℝ), R.tGrid[k]? = some t → k ≤ N1 (q + 1) → t ≤ ts q + C * err := by
  by_cases hgen : rep ≠ .integral → ∃ t, generateButcher n sc = .ok t
  swap
  · refine ⟨1, one_pos, 0, ?_⟩
    intro o um uo po pm oc P orc S x0 N pv R p bw i i' φ s ts μ fS G Te e1 e2 e3 A
    subst e1 e2 e3
    exact absurd (fun hrep => (A.sim.setup.toSetup.built.opts.diff hrep).imp fun t ht => ht.1) hgen
  obtain ⟨a, b, c, tab, ho, htab, hreg, hform⟩ := rk_form_regular hn hcol hgen
  obtain ⟨A0, hA0, hA, hB⟩ := coeff_bound n a b
  have htab0 : 0 ≤ tab := by rw [htab]; split <;> norm_num
  have hAL0 : 0 ≤ A0 * L := mul_nonneg hA0 hL0
  set C := (crossConst n A0 L D T α Lψ + 1) ^ (m + 1) with hC
  have q1 : 0 < 1 / (2 * (A0 * L) + 1) := by positivity
  have q2 : 0 < r / (4 * A0 * |vel| + 1) := by positivity
  have q3 : 0 < η / 2 / (|C| + 1) := by positivity
  have q4 : 0 < r / 2 / (|C| + 1) := by positivity
  refine ⟨min (min (1 / (2 * (A0 * L) + 1)) (r / (4 * A0 * |vel| + 1)))
    (min (η / 2) (min (η / 2 / (|C| + 1)) (r / 2 / (|C| + 1)))), by
      refine lt_min (lt_min q1 q2) (lt_min (by linarith) (lt_min q3 q4)), C, ?_⟩
  intro o um uo po pm oc P orc S x0 N pv R p bw i i' φ s ts μ fS G Te e1 e2 e3 A Cr hlat Z hTe Δ hΔ hle err herr hle'
  subst e1 e2 e3
  have hr := A.sim
  have h := hr.setup
  have hΔ0 : 0 ≤ Δ := by
    have := A.gamma.1
    have := A.time
    rw [hΔ]; positivity
  have herr0 : 0 ≤ err := by
    rw [herr]
    refine add_nonneg (by positivity) ?_
    split <;> norm_num
  obtain ⟨⟨l1, l2⟩, l3, -⟩ : (Δ ≤ 1 / (2 * (A0 * L) + 1) ∧ Δ ≤ r / (4 * A0 * |vel| + 1)) ∧ Δ ≤ η / 2 ∧
      (Δ ≤ η / 2 / (|C| + 1) ∧ Δ ≤ r / 2 / (|C| + 1)) := by
    simpa only [le_min_iff] using hle
  obtain ⟨-, -, l4, l5⟩ : (err ≤ 1 / (2 * (A0 * L) + 1) ∧ err ≤ r / (4 * A0 * |vel| + 1)) ∧ err ≤ η / 2 ∧
      (err ≤ η / 2 / (|C| + 1) ∧ err ≤ r / 2 / (|C| + 1)) := by
    simpa only [le_min_iff] using hle'
  have hvel : vel ≤ |vel| := le_abs_self vel
  have l2' : 4 * A0 * vel * Δ ≤ r := by
    rw [le_div_iff₀ (by positivity)] at l2
    have : A0 * vel * Δ ≤ A0 * |vel| * Δ :=
      mul_le_mul_of_nonneg_right (mul_le_mul_of_nonneg_left hvel hA0) hΔ0
    nlinarith
  have hCe : ∀ y, err ≤ y / (|C| + 1) → C * err ≤ y := by
    intro y hy
    rw [le_div_iff₀ (by positivity)] at hy
    have : C * err ≤ |C| * err := mul_le_mul_of_nonneg_right (le_abs_self C) herr0
    nlinarith
  obtain ⟨-, ⟨hx0, hlen, hlenT, hgrid⟩, -⟩ := hr.steps
  have hglen : R.tGrid.length = N * o.nfeAfter.sum + 1 := by rw [hgrid]; simp
  obtain ⟨hh, X, K, w, St, hmid⟩ := A.steps rfl (fun hi => (hcol hi).1) fun hf => hform h rfl rfl rfl hf
  rw [← hΔ] at St
  have hx0' : R.xSim.getD 0 [] = x0 := by rw [List.getD_eq_getElem?_getD, hx0]; rfl
  have hopp : ∀ x, um.surface i p x = -um.surface i' p x := by
    intro x
    unfold UserModel.surface
    rw [A.opposite]
    ring
  have Sts : ∀ q, SwitchSteps o.nS a b bw (um.regionField (fun _ => alternate i i' q) [] p [])
      (um.regionField (fun _ => alternate i i' (q + 1)) [] p []) (um.surface (alternate i i' (q + 1)) p) Δ
      (N * o.nfeAfter.sum) (fun k => toVec um.nX (R.xSim.getD k [])) (fun k => R.tGrid.getD k 0) hh X K
      (fun k j => if q % 2 = 0 then w k j else 1 - w k j) := by
    intro q
    rcases alternate_cases i i' q with ⟨h1, h2, h3⟩ | ⟨h1, h2, h3⟩
    · rw [h2, h3]
      simp only [h1, if_true]
      exact St
    · rw [h2, h3]
      simp only [h1, Nat.one_ne_zero, if_false]
      exact St.swap hopp
  have hLq : ∀ q x y, ‖um.regionField (fun _ => alternate i i' q) [] p [] x
      - um.regionField (fun _ => alternate i i' q) [] p [] y‖ ≤ L * ‖x - y‖ := by
    intro q
    rcases alternate_cases i i' q with ⟨-, h2, -⟩ | ⟨-, h2, -⟩
    · rw [h2]; exact A.lipschitz
    · rw [h2]; exact A.lipschitz'
  have hmid' : ∀ k < N * o.nfeAfter.sum, ∀ j < o.nS, ∀ j' < o.nS,
      ((if m % 2 = 0 then w k j else 1 - w k j) ≠ 0 → um.surface (alternate i i' (m + 1)) p (X k j') ≤ 0) ∧
      ((if m % 2 = 0 then w k j else 1 - w k j) ≠ 1 → 0 ≤ um.surface (alternate i i' (m + 1)) p (X k j')) := by
    intro k hk j hj j' hj'
    obtain ⟨g1, g2⟩ := hmid k hk j hj j' hj'
    rcases alternate_cases i i' m with ⟨h1, h2, h3⟩ | ⟨h1, h2, h3⟩
    · rw [h3, if_pos h1]
      exact ⟨g1, g2⟩
    · rw [h3, if_neg (by omega), hopp]
      refine ⟨fun h4 => ?_, fun h4 => ?_⟩
      · have := g2 fun h5 => h4 (by rw [h5]; ring)
        linarith
      · have := g1 fun h5 => h4 (by rw [h5]; ring)
        linarith
  obtain ⟨N1, n0, n1, n2, n2', n3, n4, n5⟩ := SwitchSteps.chainSlides Sts (fun q k j => by
      rcases Nat.mod_two_eq_zero_or_one q with h1 | h1
      · rw [if_neg (by omega), if_pos h1]
      · rw [if_pos (by omega), if_neg (by omega)]; ring) hn ho htab0 hA hB hLq hL0 hΔ0 l1 hreg hm hmid' Cr hlat Z hTe l2' l3
    (E := C * err) (by rw [herr, ← htab, hx0']) (hCe _ l4) (hCe _ l5)
  have getT : ∀ {k t}, R.tGrid[k]? = some t → R.tGrid.getD k 0 = t ∧ k ≤ N * o.nfeAfter.sum := by
    intro k t ht
    refine ⟨by rw [List.getD_eq_getElem?_getD, ht]; rfl, ?_⟩
    have := (List.getElem?_eq_some_iff.1 ht).1
    omega
  have getX : ∀ {k x}, R.xSim[k]? = some x → R.xSim.getD k [] = x ∧ k ≤ N * o.nfeAfter.sum := by
    intro k t ht
    refine ⟨by rw [List.getD_eq_getElem?_getD, ht]; rfl, ?_⟩
    have := (List.getElem?_eq_some_iff.1 ht).1
    omega
  refine ⟨?_, N1, n0, fun q hq => ⟨(n1 q hq).1, by have := (n1 q hq).2; omega⟩, ?_, ?_, ?_, ?_⟩
  · intro k t x ht hx htT q hq h1 h2 j
    obtain ⟨t1, t2⟩ := getT ht
    obtain ⟨x1, -⟩ := getX hx
    have := n5 k t2 (by rw [t1]; linarith) q hq (by rw [t1]; exact h1) (by rw [t1]; exact h2)
    rw [t1, x1] at this
    have hj := norm_le_pi_norm (toVec um.nX x - φ q t) j
    rw [Real.norm_eq_abs, Pi.sub_apply] at hj
    exact hj.trans this
  · intro k t t' x x' ht ht' htt hx hx' q hq h1 h2
    obtain ⟨t1, -⟩ := getT ht
    obtain ⟨t2, -⟩ := getT ht'
    obtain ⟨x1, -⟩ := getX hx
    obtain ⟨x2, x3⟩ := getX hx'
    have hnz : hh k ≠ 0 := by
      intro h0
      have := St.next k (by omega)
      rw [t1, t2, h0] at this
      linarith
    have h3 := (n2 q hq k h1 h2).resolve_left hnz 0 hn
    have h4 := (Sts q).first k (by omega) 0 hn (by rw [h3]; exact one_ne_zero)
    rw [x1, x2] at h4
    rcases alternate_cases i i' q with ⟨-, h5, h6⟩ | ⟨-, h5, h6⟩
    · rw [h6] at h4
      rw [h5, hopp, hopp]
      exact ⟨by linarith, by linarith⟩
    · rw [h6, hopp, hopp] at h4
      rw [h5]
      exact ⟨by linarith, by linarith⟩
  · intro hN k t x hk ht hx htT
    obtain ⟨t1, t2⟩ := getT ht
    obtain ⟨x1, -⟩ := getX hx
    have h4 := n2' (by omega) k hk t2 (by rw [t1]; exact htT)
    rw [x1] at h4
    rcases alternate_cases i i' m with ⟨-, h5, h6⟩ | ⟨-, h5, h6⟩
    · rwa [h6] at h4
    · rw [h6, hopp] at h4
      linarith
  · intro q hq t ht hN
    obtain ⟨t1, -⟩ := getT ht
    have := n3 q hq (by omega)
    rwa [t1] at this
  · intro q hq k t ht hk
    obtain ⟨t1, -⟩ := getT ht
    have := n4 q hq k hk
    rwa [t1] at this

end
end Nosnoc
