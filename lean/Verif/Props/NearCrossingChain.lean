import Verif.Props.NearCrossing
import Verif.Props.CrossingChain
import Verif.Proofs.NearCrossingChain
/-
C138: simulations of trajectories that cross a switching surface several times, without polishing.
-/
namespace Nosnoc

section
variable {V : Type*} [NormedAddCommGroup V] [NormedSpace ℝ V]

/-- The two vector fields can be interchanged. -/
theorem NearSteps.swap {n : Nat} {a : Nat → Nat → ℝ} {b bw : Nat → ℝ} {fA fB : V → V} {ψ ψ' : V → ℝ} {H ω κ : ℝ}
    {M : Nat} {x : Nat → V} {t h : Nat → ℝ} {X K : Nat → Nat → V} {w : Nat → Nat → ℝ}
    (S : NearSteps n a b bw fA fB ψ H ω κ M x t h X K w) (hψ : ∀ y, ψ' y = -ψ y) :
    NearSteps n a b bw fB fA ψ' H ω κ M x t h X K (fun k j => 1 - w k j) where
  zero := S.zero
  next := S.next
  step := S.step
  stage := S.stage
  final := S.final
  final' := S.final'
  nonneg := S.nonneg
  half := S.half
  slope := fun k hk j hj => by
    rw [S.slope k hk j hj, show 1 - (1 - w k j) = w k j by ring]
    abel
  weight := fun k hk j hj => by
    obtain ⟨h1, h2⟩ := S.weight k hk j hj
    exact ⟨by linarith, by linarith⟩
  first := fun k hk j hj hw => by
    obtain ⟨h1, h2⟩ := S.second k hk j hj hw
    rw [hψ, hψ]
    exact ⟨by linarith, by linarith⟩
  second := fun k hk j hj hw => by
    obtain ⟨h1, h2⟩ := S.first k hk j hj (by linarith)
    rw [hψ, hψ]
    exact ⟨by linarith, by linarith⟩

end

section
variable {colloc : IrkScheme → Nat → List ℝ}

set_option maxHeartbeats 1000000 in
/-- C138 without polishing (the shipped setting): as `C138_crossings`, with `√tol` (`tol`: the largest complementarity
residual a successful solve can end with) added to `err`, the regions met up to `√tol`, and for each crossing `q` a
range of positions `N1 q`, ..., `N2 (q + 1)` whose times all differ from `ts q` by at most `C * err`; `W` bounds the
difference of the two vector fields along the trajectory. -/
theorem C138_crossings_unpolished {sc : IrkScheme} {n : Nat} {rep : IrkRep} (hn : 0 < n)
    (hcol : rep = .integral → CollocOk (colloc sc n) n ∧ ∀ t ∈ colloc sc n, 0 ≤ t ∧ t ≤ 1)
    {L : ℝ} (hL0 : 0 ≤ L) {m : Nat} (hm : 0 < m) (D T : ℝ) {η r : ℝ} (hη : 0 < η) (hr0 : 0 < r) (α Lψ vel μ W : ℝ) :
    ∃ H0 > 0, ∃ C : ℝ, ∀ {o : Opts} {um : UserModel} {uo : Option UserOcp} {po : PreOpts} {pm : PreModel}
      {oc : PreOcp} {P : Problem} {orc : Oracle} {S : Solver} {x0 : List ℝ} {N : Nat} {pv : Option Arr}
      {R : SimResults} {p : List ℝ} {bw : Nat → ℝ} {i i' : Nat} {φ : Nat → ℝ → Fin um.nX → ℝ} {s ts : Nat → ℝ},
      o.scheme = sc → o.nS = n → o.irkRep = rep →
      NearCrossRun colloc o um uo po pm oc P orc S x0 N pv R p bw i i' L →
      CrossingChain n D (fun q => um.regionField (fun _ => alternate i i' q) [] p [])
        (fun q => um.surface (alternate i i' (q + 1)) p) m φ s ts η T α Lψ r vel μ →
      (∀ q < m, ∀ u, s q ≤ u → u ≤ ts q + η → ‖um.regionField (fun _ => i) [] p [] (φ q u)
        - um.regionField (fun _ => i') [] p [] (φ q u)‖ ≤ W) →
      (∀ q < m, ∀ u, ts q - η ≤ u → u ≤ s (q + 1) + η → ‖um.regionField (fun _ => i) [] p [] (φ (q + 1) u)
        - um.regionField (fun _ => i') [] p [] (φ (q + 1) u)‖ ≤ W) →
      ∀ Δ, Δ = (1 + o.gammaH) * (o.terminalTime / o.nfeAfter.sum) → Δ ≤ H0 →
      ∀ err, err = ‖toVec um.nX x0 - φ 0 0‖ + Δ ^ n + √(finalTol o) + (if rep = .integral then 0 else 1 / 10 ^ 11) →
      err ≤ H0 →
      (∀ (k : Nat) (t : ℝ) (x : List ℝ), R.tGrid[k]? = some t → R.xSim[k]? = some x → t ≤ s m →
        ∀ q ≤ m, (∀ q' < q, ts q' < t) → (q < m → t ≤ ts q) →
        ∀ j : Fin um.nX, |x.getD j 0 - φ q t j| ≤ C * err) ∧
      ∃ N1 N2 : Nat → Nat, N2 0 = 0 ∧
        (∀ q < m, N2 q ≤ N1 q ∧ N1 q ≤ N2 (q + 1) ∧ N2 (q + 1) < R.tGrid.length) ∧
        (∀ (k : Nat) (t : ℝ) (x x' : List ℝ), R.tGrid[k]? = some t →
          R.xSim[k]? = some x → R.xSim[k + 1]? = some x' → t ≤ s m →
          ∀ q ≤ m, N2 q ≤ k → (q < m → k < N1 q) →
          -√(finalTol o) ≤ um.surface (alternate i i' q) p (toVec um.nX x) ∧
          -√(finalTol o) ≤ um.surface (alternate i i' q) p (toVec um.nX x')) ∧
        (∀ q < m, ∀ (k : Nat) (t : ℝ), R.tGrid[k]? = some t → N1 q ≤ k → k ≤ N2 (q + 1) →
          N1 q + 1 < R.tGrid.length → |t - ts q| ≤ C * err) ∧
        ∀ q < m, ∀ (k : Nat) (t : ℝ), R.tGrid[k]? = some t → k ≤ N1 q → t ≤ ts q + C * err := by
  by_cases hgen : rep ≠ .integral → ∃ t, generateButcher n sc = .ok t
  swap
  · refine ⟨1, one_pos, 0, ?_⟩
    intro o um uo po pm oc P orc S x0 N pv R p bw i i' φ s ts e1 e2 e3 A
    subst e1 e2 e3
    exact absurd (fun hrep => (A.sim.setup.toSetup.built.opts.diff hrep).imp fun t ht => ht.1) hgen
  obtain ⟨a, b, c, tab, ho, htab, hform⟩ := rk_form hn hcol hgen
  obtain ⟨A0, hA0, hA, hB⟩ := coeff_bound n a b
  have htab0 : 0 ≤ tab := by rw [htab]; split <;> norm_num
  have hAL0 : 0 ≤ A0 * L := mul_nonneg hA0 hL0
  set B := (nearConst n A0 L D T α Lψ vel ((α - μ * vel) / 2) + 1) ^ m with hB0
  set C := |B| * (1 + |W|) with hC
  have q1 : 0 < 1 / (2 * (A0 * L) + 1) := by positivity
  have q2 : 0 < r / (4 * A0 * |vel| + 1) := by positivity
  have q3 : 0 < η / 2 / (|C| + 1) := by positivity
  have q4 : 0 < r / 2 / (|C| + 1) := by positivity
  refine ⟨min (min (1 / (2 * (A0 * L) + 1)) (r / (4 * A0 * |vel| + 1)))
    (min (min (η / 2) (1 / 4)) (min (η / 2 / (|C| + 1)) (r / 2 / (|C| + 1)))), by
      refine lt_min (lt_min q1 q2) (lt_min (lt_min (by linarith) (by norm_num)) (lt_min q3 q4)), C, ?_⟩
  intro o um uo po pm oc P orc S x0 N pv R p bw i i' φ s ts e1 e2 e3 A Cr gA gB Δ hΔ hle err herr hle'
  subst e1 e2 e3
  have hr := A.sim
  have h := hr.setup
  have hΔ0 : 0 ≤ Δ := by
    have := A.gamma.1
    have := A.time
    rw [hΔ]; positivity
  have herr0 : 0 ≤ err := by
    rw [herr]
    refine add_nonneg (by positivity) ?_
    split <;> norm_num
  obtain ⟨⟨l1, l2⟩, ⟨l3, -⟩, -⟩ : (Δ ≤ 1 / (2 * (A0 * L) + 1) ∧ Δ ≤ r / (4 * A0 * |vel| + 1)) ∧ (Δ ≤ η / 2 ∧ Δ ≤ 1 / 4) ∧
      (Δ ≤ η / 2 / (|C| + 1) ∧ Δ ≤ r / 2 / (|C| + 1)) := by
    simpa only [le_min_iff] using hle
  obtain ⟨-, ⟨-, l6⟩, l4, l5⟩ : (err ≤ 1 / (2 * (A0 * L) + 1) ∧ err ≤ r / (4 * A0 * |vel| + 1)) ∧ (err ≤ η / 2 ∧ err ≤ 1 / 4) ∧
      (err ≤ η / 2 / (|C| + 1) ∧ err ≤ r / 2 / (|C| + 1)) := by
    simpa only [le_min_iff] using hle'
  have hvel : vel ≤ |vel| := le_abs_self vel
  have l2' : 4 * A0 * vel * Δ ≤ r := by
    rw [le_div_iff₀ (by positivity)] at l2
    have : A0 * vel * Δ ≤ A0 * |vel| * Δ :=
      mul_le_mul_of_nonneg_right (mul_le_mul_of_nonneg_left hvel hA0) hΔ0
    nlinarith
  have hCe : ∀ y, err ≤ y / (|C| + 1) → C * err ≤ y := by
    intro y hy
    rw [le_div_iff₀ (by positivity)] at hy
    have : C * err ≤ |C| * err := mul_le_mul_of_nonneg_right (le_abs_self C) herr0
    nlinarith
  obtain ⟨-, ⟨hx0, hlen, hlenT, hgrid⟩, -⟩ := hr.steps
  have hglen : R.tGrid.length = N * o.nfeAfter.sum + 1 := by rw [hgrid]; simp
  obtain ⟨hh, X, K, w, St⟩ := A.steps rfl (fun hi => (hcol hi).1) fun hf => hform h rfl rfl rfl hf
  rw [← hΔ] at St
  have hx0' : R.xSim.getD 0 [] = x0 := by rw [List.getD_eq_getElem?_getD, hx0]; rfl
  have hsq : √(finalTol o) ≤ err := by
    have h1 : 0 ≤ Δ ^ o.nS := pow_nonneg hΔ0 _
    have h2 := norm_nonneg (toVec um.nX x0 - φ 0 0)
    rw [herr, ← htab]
    linarith
  have hsq0 := Real.sqrt_nonneg (finalTol o)
  set e := ‖toVec um.nX x0 - φ 0 0‖ + Δ ^ o.nS + (1 + |W|) * √(finalTol o) + tab with he
  have he0 : 0 ≤ e := by positivity
  have hele : e ≤ (1 + |W|) * err := by
    have h1 : 0 ≤ Δ ^ o.nS := pow_nonneg hΔ0 _
    have h2 := norm_nonneg (toVec um.nX x0 - φ 0 0)
    rw [he, herr, ← htab]
    have := mul_nonneg (abs_nonneg W) (add_nonneg (add_nonneg h2 h1) htab0)
    nlinarith
  have hEC : B * e ≤ C * err := by
    rw [hC, mul_assoc]
    exact (mul_le_mul_of_nonneg_right (le_abs_self B) he0).trans (mul_le_mul_of_nonneg_left hele (abs_nonneg B))
  obtain ⟨G0, Cr0⟩ := Cr.crossing 0 hm
  have htr := Cr0.small.2
  have gap : ∀ (q : Nat) (y : Fin um.nX → ℝ), ‖um.regionField (fun _ => i) [] p [] y
        - um.regionField (fun _ => i') [] p [] y‖ ≤ W →
      ‖um.regionField (fun _ => alternate i i' q) [] p [] y
        - um.regionField (fun _ => alternate i i' (q + 1)) [] p [] y‖ ≤ W := by
    intro q y hy
    rcases alternate_cases i i' q with ⟨-, h2, h3⟩ | ⟨-, h2, h3⟩
    · rw [h2, h3]; exact hy
    · rw [h2, h3, norm_sub_rev]; exact hy
  have hopp : ∀ x, um.surface i p x = -um.surface i' p x := by
    intro x
    unfold UserModel.surface
    rw [A.opposite]
    ring
  have Sts : ∀ q, NearSteps o.nS a b bw (um.regionField (fun _ => alternate i i' q) [] p [])
      (um.regionField (fun _ => alternate i i' (q + 1)) [] p []) (um.surface (alternate i i' (q + 1)) p) Δ
      (√(finalTol o)) (√(finalTol o))
      (N * o.nfeAfter.sum) (fun k => toVec um.nX (R.xSim.getD k [])) (fun k => R.tGrid.getD k 0) hh X K
      (fun k j => if q % 2 = 0 then w k j else 1 - w k j) := by
    intro q
    rcases alternate_cases i i' q with ⟨h1, h2, h3⟩ | ⟨h1, h2, h3⟩
    · rw [h2, h3]
      simp only [h1, if_true]
      exact St
    · rw [h2, h3]
      simp only [h1, Nat.one_ne_zero, if_false]
      exact St.swap hopp
  have hLq : ∀ q x y, ‖um.regionField (fun _ => alternate i i' q) [] p [] x
      - um.regionField (fun _ => alternate i i' q) [] p [] y‖ ≤ L * ‖x - y‖ := by
    intro q
    rcases alternate_cases i i' q with ⟨-, h2, -⟩ | ⟨-, h2, -⟩
    · rw [h2]; exact A.lipschitz
    · rw [h2]; exact A.lipschitz'
  obtain ⟨N1, N2, n0, n1, n2, n3, n4, n5⟩ := NearSteps.chain Sts (fun q k j => by
      rcases Nat.mod_two_eq_zero_or_one q with h1 | h1
      · rw [if_neg (by omega), if_pos h1]
      · rw [if_pos (by omega), if_neg (by omega)]; ring) hn ho htab0 hA hB hLq hL0 hΔ0 l1 hm Cr l2' l3
    (g := (α - μ * vel) / 2) (by linarith) (by linarith) (fun q hq u h1 h2 => gap q _ (gA q hq u h1 h2))
    (fun q hq u h1 h2 => gap q _ (gB q hq u h1 h2)) hsq0 (by linarith) hsq0
    (ρ := (1 + |W|) * √(finalTol o)) (by nlinarith [abs_nonneg W]) (by nlinarith [le_abs_self W])
    (E := B * e) (by rw [he, hx0']) (hEC.trans (hCe _ l4)) (hEC.trans (hCe _ l5))
  have getT : ∀ {k t}, R.tGrid[k]? = some t → R.tGrid.getD k 0 = t ∧ k ≤ N * o.nfeAfter.sum := by
    intro k t ht
    refine ⟨by rw [List.getD_eq_getElem?_getD, ht]; rfl, ?_⟩
    have := (List.getElem?_eq_some_iff.1 ht).1
    omega
  have getX : ∀ {k x}, R.xSim[k]? = some x → R.xSim.getD k [] = x ∧ k ≤ N * o.nfeAfter.sum := by
    intro k t ht
    refine ⟨by rw [List.getD_eq_getElem?_getD, ht]; rfl, ?_⟩
    have := (List.getElem?_eq_some_iff.1 ht).1
    omega
  refine ⟨?_, N1, N2, n0, fun q hq => ⟨(n1 q hq).1, (n1 q hq).2.1, by have := (n1 q hq).2.2; omega⟩, ?_, ?_, ?_⟩
  · intro k t x ht hx htT q hq h1 h2 j
    obtain ⟨t1, t2⟩ := getT ht
    obtain ⟨x1, -⟩ := getX hx
    have := n5 k t2 (by rw [t1]; linarith) q hq (by rw [t1]; exact h1) (by rw [t1]; exact h2)
    rw [t1, x1] at this
    have hj := norm_le_pi_norm (toVec um.nX x - φ q t) j
    rw [Real.norm_eq_abs, Pi.sub_apply] at hj
    exact (hj.trans this).trans hEC
  · intro k t x x' ht hx hx' htT q hq h1 h2
    obtain ⟨t1, -⟩ := getT ht
    obtain ⟨x1, -⟩ := getX hx
    obtain ⟨x2, x3⟩ := getX hx'
    have h3 := n2 q hq k h1 (by omega) h2 (by rw [t1]; linarith) 0 hn
    have h4 := (Sts q).first k (by omega) 0 hn (by linarith)
    rw [x1, x2] at h4
    rcases alternate_cases i i' q with ⟨-, h5, h6⟩ | ⟨-, h5, h6⟩
    · rw [h6] at h4
      rw [h5, hopp, hopp]
      exact ⟨by linarith, by linarith⟩
    · rw [h6, hopp, hopp] at h4
      rw [h5]
      exact ⟨by linarith, by linarith⟩
  · intro q hq k t ht h1 h2 hN
    obtain ⟨t1, -⟩ := getT ht
    have := n3 q hq k h1 h2 (by omega)
    rw [t1] at this
    exact this.trans hEC
  · intro q hq k t ht hk
    obtain ⟨t1, -⟩ := getT ht
    have := n4 q hq k hk
    rw [t1] at this
    linarith

end
end Nosnoc
