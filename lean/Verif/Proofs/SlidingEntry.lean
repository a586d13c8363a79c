import Verif.Proofs.CrossingError
import Verif.Spec.SlidingEntry
/-
The error of switching Runge-Kutta steps along a trajectory that reaches a plane surface and slides along it.
-/
namespace Nosnoc
open Finset

section
open Polynomial

/-- The Runge-Kutta matrix of a collocation scheme whose points are not 0 is regular. -/
theorem collocA_regular {points : List ℝ} (hc : (0 :: points).Nodup) {v : Nat → ℝ}
    (hv : ∀ j < points.length, ∑ r ∈ range points.length, collocA points j r * v r = 0) :
    ∀ r < points.length, v r = 0 := by
  intro r0 hr0
  have hnd := (List.nodup_cons.1 hc).2
  set Q : ℝ[X] := ∑ r ∈ range points.length, C (v r) * collocBasis points r with hQ
  have hval : ∀ r < points.length, Q.eval (points.getD r 0) = v r := by
    intro r hr
    rw [hQ, eval_finsetSum, Finset.sum_eq_single r]
    · rw [eval_mul, eval_C]
      unfold collocBasis
      rw [Lagrange.eval_basis_self (v := fun i => points.getD i 0) (points_injOn hnd) (mem_range.2 hr), mul_one]
    · intro q hq hne
      rw [eval_mul]
      unfold collocBasis
      rw [Lagrange.eval_basis_of_ne (v := fun i => points.getD i 0) hne (mem_range.2 hr), mul_zero]
    · intro hne
      exact absurd (mem_range.2 hr) hne
  obtain ⟨P, p1, p2, p3⟩ := exists_antiderivative Q
  have hdeg : Q.natDegree ≤ points.length - 1 := by
    refine natDegree_sum_le_of_forall_le _ _ fun r hr => (natDegree_C_mul_le _ _).trans ?_
    unfold collocBasis
    rw [Lagrange.natDegree_basis (points_injOn hnd) hr, card_range]
  have hP : P.natDegree ≤ points.length := by omega
  have hz : ∀ j < points.length, P.eval (points.getD j 0) = 0 := by
    intro j hj
    rw [poly_step hnd hP (d := v) (fun r hr => by rw [p1]; exact hval r hr), p2, zero_add]
    exact (Finset.sum_congr rfl fun r _ => mul_comm _ _).trans (hv j hj)
  have hP0 : P = 0 := by
    refine eq_zero_of_natDegree_lt_card_of_eval_eq_zero' P (List.toFinset (0 :: points)) ?_ ?_
    · intro y hy
      rcases List.mem_cons.1 (List.mem_toFinset.1 hy) with rfl | hy
      · exact p2
      · obtain ⟨j, hj, rfl⟩ := List.mem_iff_getElem.1 hy
        have := hz j hj
        rwa [List.getD_eq_getElem?_getD, List.getElem?_eq_getElem hj, Option.getD_some] at this
    · rw [List.toFinset_card_of_nodup hc, List.length_cons]
      omega
  rw [← hval r0 hr0, ← p1, hP0]
  simp

end

section
variable {V : Type*} [NormedAddCommGroup V] [NormedSpace ℝ V]
variable {n : Nat} {a : Nat → Nat → ℝ} {b bw c : Nat → ℝ} {fA fB fS : V → V} {ψ : V → ℝ} {H : ℝ} {M : Nat}
  {x : Nat → V} {t h : Nat → ℝ} {X K : Nat → Nat → V} {w : Nat → Nat → ℝ} {A L D δ : ℝ}

/-- A step that starts on the surface stays there, and is a step for the sliding vector field. -/
theorem SwitchSteps.slideStep (S : SwitchSteps n a b bw fA fB ψ H M x t h X K w) (hn : 0 < n)
    (hA : ∀ j < n, ∑ r ∈ range n, |a j r| ≤ A) (hB : ∑ r ∈ range n, |b r| ≤ A)
    (hLA : ∀ x y, ‖fA x - fA y‖ ≤ L * ‖x - y‖) (hLB : ∀ x y, ‖fB x - fB y‖ ≤ L * ‖x - y‖) (hL0 : 0 ≤ L)
    (hH : H ≤ 1 / (2 * (A * L) + 1))
    (hreg : ∀ v : Nat → ℝ, (∀ j < n, ∑ r ∈ range n, a j r * v r = 0) → ∀ r < n, v r = 0)
    (hmid : ∀ k < M, ∀ j < n, ∀ j' < n, (w k j ≠ 0 → ψ (X k j') ≤ 0) ∧ (w k j ≠ 1 → 0 ≤ ψ (X k j')))
    {φA φS : ℝ → V} {G : V →ₗ[ℝ] ℝ} {ts η T α Lψ r vel : ℝ}
    (C : SlidingEntry n D L fA fB fS ψ φA φS G ts η T α Lψ r vel) (hr : 4 * A * vel * H ≤ r) {k : Nat} (hk : k < M)
    (b1 : 0 < h k) (hψ : ψ (x k) = 0) (ht0 : ts - η ≤ t k) (ht1 : t k ≤ T) (hx : ‖x k - φS (t k)‖ ≤ r / 2) :
    (∀ j < n, K k j = fS (X k j)) ∧ ψ (x (k + 1)) = 0 := by
  have hA0 : 0 ≤ A := (Finset.sum_nonneg fun _ _ => abs_nonneg _).trans hB
  have hAL0 : 0 ≤ A * L := mul_nonneg hA0 hL0
  have b2 := (S.step _ hk).2
  have r0 := C.radius
  have hα := C.alpha
  have hx' : ‖x k - φS (t k)‖ ≤ r := by linarith
  obtain ⟨-, -, vA, vB⟩ := C.inward _ _ ht0 ht1 hx'
  have v0 : 0 ≤ vel := (norm_nonneg _).trans vA
  have h2 : h k ≤ 1 / (2 * (A * L) + 1) := b2.trans hH
  rw [le_div_iff₀ (by positivity)] at h2
  have b4 : h k * (A * L) ≤ 1 / 2 := by nlinarith
  -- convex combinations
  have conv : ∀ j < n, ∀ B, ‖fA (X k j)‖ ≤ B → ‖fB (X k j)‖ ≤ B → ‖K k j‖ ≤ B := by
    intro j hj B hA hB
    obtain ⟨w0, w1⟩ := S.weight k hk j hj
    rw [S.slope k hk j hj]
    refine (norm_add_le _ _).trans ?_
    rw [norm_smul, norm_smul, Real.norm_eq_abs, Real.norm_eq_abs, abs_of_nonneg w0, abs_of_nonneg (by linarith)]
    nlinarith
  obtain ⟨m, hm, hmax⟩ := Finset.exists_max_image (range n) (fun j => ‖K k j‖) ⟨0, mem_range.2 hn⟩
  set κ := ‖K k m‖ with hκ
  have hκ0 : 0 ≤ κ := norm_nonneg _
  have near : ∀ j < n, ‖X k j - x k‖ ≤ h k * (A * κ) := by
    intro j hj
    have e : X k j - x k = h k • ∑ r ∈ range n, a j r • K k r := by rw [S.stage k hk j hj]; abel
    rw [e, norm_smul, Real.norm_eq_abs, abs_of_nonneg b1.le]
    refine mul_le_mul_of_nonneg_left ((norm_sum_le _ _).trans ?_) b1.le
    refine (Finset.sum_le_sum (g := fun r => |a j r| * κ) fun r hr => ?_).trans ?_
    · rw [norm_smul, Real.norm_eq_abs]
      exact mul_le_mul_of_nonneg_left (hmax r hr) (abs_nonneg _)
    · rw [← Finset.sum_mul]
      exact mul_le_mul_of_nonneg_right (hA j hj) hκ0
  have hm' := mem_range.1 hm
  have hκ2 : κ ≤ 2 * vel := by
    have bd : ∀ f : V → V, (∀ x y, ‖f x - f y‖ ≤ L * ‖x - y‖) → ‖f (x k)‖ ≤ vel →
        ‖f (X k m)‖ ≤ vel + L * (h k * (A * κ)) := by
      intro f hf hv
      have h1 : f (X k m) = f (x k) + (f (X k m) - f (x k)) := by abel
      rw [h1]
      refine (norm_add_le _ _).trans (add_le_add hv ((hf _ _).trans ?_))
      exact mul_le_mul_of_nonneg_left (near m hm') hL0
    have := conv m hm' _ (bd fA hLA vA) (bd fB hLB vB)
    nlinarith
  have hd : h k * (A * κ) ≤ r / 2 := by
    have h1 : A * κ ≤ A * (2 * vel) := mul_le_mul_of_nonneg_left hκ2 hA0
    have h3 : h k * (A * κ) ≤ H * (A * (2 * vel)) := mul_le_mul b2 h1 (by positivity) (b1.le.trans b2)
    nlinarith
  have ball : ∀ j < n, ‖X k j - φS (t k)‖ ≤ r := by
    intro j hj
    have : X k j - φS (t k) = (X k j - x k) + (x k - φS (t k)) := by abel
    rw [this]
    refine (norm_add_le _ _).trans ?_
    linarith [near j hj]
  have hsum : G (x (k + 1) - x k) = h k * ∑ q ∈ range n, bw q * G (K k q) := by
    have e : x (k + 1) - x k = h k • ∑ r ∈ range n, bw r • K k r := by rw [S.final' k hk]; abel
    rw [e, map_smul, smul_eq_mul, map_sum]
    simp only [map_smul, smul_eq_mul]
  have hpl := C.plane (x k) (x (k + 1))
  rw [hψ, sub_zero, hsum] at hpl
  have hbw : 0 < (∑ q ∈ range n, bw q) * α := mul_pos S.pos hα
  -- both regions have a positive weight
  have one : ∃ j < n, w k j ≠ 1 := by
    by_contra hc
    push Not at hc
    have h1 := (S.first k hk 0 hn (by rw [hc 0 hn]; exact one_ne_zero)).2
    have h3 : (∑ q ∈ range n, bw q) * α ≤ ∑ q ∈ range n, bw q * G (K k q) := by
      rw [Finset.sum_mul]
      refine Finset.sum_le_sum fun q hq => mul_le_mul_of_nonneg_left ?_ (S.nonneg q (mem_range.1 hq))
      rw [S.slope k hk q (mem_range.1 hq), hc q (mem_range.1 hq)]
      simpa using (C.inward _ _ ht0 ht1 (ball q (mem_range.1 hq))).1
    have := mul_pos b1 (hbw.trans_le h3)
    linarith
  have two : ∃ j < n, w k j ≠ 0 := by
    by_contra hc
    push Not at hc
    have h1 := (S.second k hk 0 hn (by rw [hc 0 hn]; exact zero_ne_one)).2
    have h3 : ∑ q ∈ range n, bw q * G (K k q) ≤ -((∑ q ∈ range n, bw q) * α) := by
      rw [Finset.sum_mul, ← Finset.sum_neg_distrib]
      refine Finset.sum_le_sum fun q hq => ?_
      rw [S.slope k hk q (mem_range.1 hq), hc q (mem_range.1 hq)]
      have := mul_le_mul_of_nonneg_left (C.inward _ _ ht0 ht1 (ball q (mem_range.1 hq))).2.1 (S.nonneg q (mem_range.1 hq))
      simpa using this
    have := mul_pos b1 (lt_of_lt_of_le hbw (show _ ≤ -∑ q ∈ range n, bw q * G (K k q) by linarith))
    linarith
  obtain ⟨j1, hj1, hw1⟩ := one
  obtain ⟨j2, hj2, hw2⟩ := two
  refine ⟨?_, le_antisymm (S.first k hk j2 hj2 hw2).2 (S.second k hk j1 hj1 hw1).2⟩
  have hG : ∀ q < n, G (K k q) = 0 := by
    refine hreg _ fun j hj => ?_
    have h1 : ψ (X k j) = 0 := le_antisymm ((hmid k hk j2 hj2 j hj).1 hw2) ((hmid k hk j1 hj1 j hj).2 hw1)
    have h3 := C.plane (x k) (X k j)
    have e : X k j - x k = h k • ∑ r ∈ range n, a j r • K k r := by rw [S.stage k hk j hj]; abel
    rw [h1, hψ, e, sub_zero, map_smul, smul_eq_mul, map_sum] at h3
    simp only [map_smul, smul_eq_mul] at h3
    exact (mul_eq_zero.1 h3.symm).resolve_left b1.ne'
  intro j hj
  obtain ⟨g1, g2, -, -⟩ := C.inward _ _ ht0 ht1 (ball j hj)
  have hGj := hG j hj
  have hsl := S.slope k hk j hj
  rw [hsl, map_add, map_smul, map_smul, smul_eq_mul, smul_eq_mul] at hGj
  rw [hsl, C.sliding _ _ ht0 ht1 (ball j hj)]
  unfold slideField
  have hne : G (fA (X k j)) - G (fB (X k j)) ≠ 0 := by linarith
  have e1 : w k j = (G (fA (X k j)) - G (fB (X k j)))⁻¹ * -G (fB (X k j)) := by
    rw [eq_inv_mul_iff_mul_eq₀ hne]
    linarith
  have e2 : 1 - w k j = (G (fA (X k j)) - G (fB (X k j)))⁻¹ * G (fA (X k j)) := by
    rw [eq_inv_mul_iff_mul_eq₀ hne]
    linarith
  rw [smul_sub, smul_smul, smul_smul, ← e2, e1]
  rw [mul_neg, neg_smul]
  abel

set_option maxHeartbeats 1000000 in
/-- The error along an entry into a sliding mode. -/
theorem SwitchSteps.slides (S : SwitchSteps n a b bw fA fB ψ H M x t h X K w) (hn : 0 < n)
    (ho : StageOrder n a b c δ) (hδ0 : 0 ≤ δ)
    (hA : ∀ j < n, ∑ r ∈ range n, |a j r| ≤ A) (hB : ∑ r ∈ range n, |b r| ≤ A)
    (hLA : ∀ x y, ‖fA x - fA y‖ ≤ L * ‖x - y‖) (hLB : ∀ x y, ‖fB x - fB y‖ ≤ L * ‖x - y‖) (hL0 : 0 ≤ L)
    (hH0 : 0 ≤ H) (hH : H ≤ 1 / (2 * (A * L) + 1))
    (hreg : ∀ v : Nat → ℝ, (∀ j < n, ∑ r ∈ range n, a j r * v r = 0) → ∀ r < n, v r = 0)
    (hmid : ∀ k < M, ∀ j < n, ∀ j' < n, (w k j ≠ 0 → ψ (X k j') ≤ 0) ∧ (w k j ≠ 1 → 0 ≤ ψ (X k j')))
    {φA φS : ℝ → V} {G : V →ₗ[ℝ] ℝ} {ts η T α Lψ r vel : ℝ}
    (C : SlidingEntry n D L fA fB fS ψ φA φS G ts η T α Lψ r vel) (hr : 4 * A * vel * H ≤ r) (hη : H ≤ η / 2)
    (hx0 : ψ (x 0) ≤ 0) {E : ℝ} (hE : E = crossConst n A L D T α Lψ * (‖x 0 - φA 0‖ + H ^ n + δ))
    (hE1 : E ≤ η / 2) (hE2 : E ≤ r / 2) :
    ∃ N1 ≤ M, (∀ k < N1, h k = 0 ∨ ∀ j < n, w k j = 1) ∧
      (N1 < M → ∀ k, N1 ≤ k → k ≤ M → t k ≤ T → ψ (x k) = 0) ∧
      (N1 < M → |t N1 - ts| ≤ E) ∧ (∀ k ≤ N1, t k ≤ ts + E) ∧
      ∀ k ≤ M, t k ≤ T → ‖x k - if t k ≤ ts then φA (t k) else φS (t k)‖ ≤ E := by
  classical
  have hA0 : 0 ≤ A := (Finset.sum_nonneg fun _ _ => abs_nonneg _).trans hB
  have hη0 := C.eta
  have hα := C.alpha
  have hr0 := C.radius
  have hLψ := C.lipNonneg
  have hts := C.start
  have hTh := C.horizon
  have hT : 0 ≤ T := by linarith
  have lipψ : ∀ y z, |ψ y - ψ z| ≤ Lψ * ‖y - z‖ := fun y z => by rw [C.plane]; exact C.normal _
  set e := ‖x 0 - φA 0‖ + H ^ n + δ with he
  have he0 : 0 ≤ e := by positivity
  have hen : H ^ n + δ ≤ e := by rw [he]; linarith [norm_nonneg (x 0 - φA 0)]
  set B := smoothConst n A L D T with hBdef
  have hB1 : 1 ≤ B := smoothConst_ge hA0 hL0 hT
  set c2 := Lψ * B / α with hc2
  have hc20 : 0 ≤ c2 := by positivity
  set c3 := B * (B + 2 * |D| * c2 + 1) with hc3
  have hD0 : 0 ≤ |D| := abs_nonneg D
  have hBc3 : B + 2 * |D| * c2 + 1 ≤ c3 := by rw [hc3]; nlinarith [mul_nonneg hD0 hc20]
  set c4 := Lψ * c3 / α with hc4
  have hc24 : c2 ≤ c4 := by
    rw [hc2, hc4]
    refine div_le_div_of_nonneg_right (mul_le_mul_of_nonneg_left ?_ hLψ) hα.le
    nlinarith [mul_nonneg hD0 hc20]
  have hEe : E = (2 * c3 + (1 + 2 * |D|) * c4) * e := hE
  have hDc2 : 0 ≤ |D| * c2 := mul_nonneg hD0 hc20
  have hDc24 : |D| * c2 ≤ |D| * c4 := mul_le_mul_of_nonneg_left hc24 hD0
  have hc3e : 0 ≤ c3 * e := by
    refine mul_nonneg ?_ he0
    nlinarith
  have hc2e : 0 ≤ c2 * e := mul_nonneg hc20 he0
  have hc24e : c2 * e ≤ c4 * e := mul_le_mul_of_nonneg_right hc24 he0
  have hD2e : 0 ≤ |D| * c2 * e := mul_nonneg hDc2 he0
  have hD24e : |D| * c2 * e ≤ |D| * c4 * e := mul_le_mul_of_nonneg_right hDc24 he0
  have hBe : B * e + 2 * (|D| * c2 * e) + e ≤ c3 * e := by
    have := mul_le_mul_of_nonneg_right hBc3 he0
    nlinarith
  have hBe0 : 0 ≤ B * e := by positivity
  have hEe' : E = 2 * (c3 * e) + c4 * e + 2 * (|D| * c4 * e) := by rw [hEe]; ring
  have hc2α : c2 * e * α = Lψ * (B * e) := by rw [hc2]; field_simp
  have hc4α : c4 * e * α = Lψ * (c3 * e) := by rw [hc4]; field_simp
  have bound : ∀ {t0 e0 : ℝ}, 0 ≤ e0 → 0 ≤ t0 → t0 ≤ T →
      Real.exp (2 * A * L * t0) * (e0 + t0 * (|D| * ((1 + A) * H ^ n + n * δ))) ≤ B * (e0 + H ^ n + δ) := by
    intro t0 e0 h1 h2 h3
    have := bound_constant (n := n) (D := D) (η := 0) hA0 hL0 hδ0 le_rfl hH0 h1 h2 h3
    rwa [mul_zero, add_zero, add_zero] at this
  clear_value c4 c3 c2 B e
  -- the speed of the two solutions
  have spA : ∀ s ∈ Set.Icc (0 : ℝ) (ts + η), ‖φA s - φA ts‖ ≤ |D| * |s - ts| := fun s hs =>
    (C.before.speed ⟨hts, by linarith⟩ hs).trans (mul_le_mul_of_nonneg_right (le_abs_self D) (abs_nonneg _))
  have spB : ∀ s ∈ Set.Icc (ts - η) T, ‖φS s - φS ts‖ ≤ |D| * |s - ts| := fun s hs =>
    (C.after.speed ⟨by linarith, by linarith⟩ hs).trans (mul_le_mul_of_nonneg_right (le_abs_self D) (abs_nonneg _))
  -- the error over a segment
  have seg : ∀ {f : V → V} {φ : ℝ → V} {s0 s1 : ℝ} {k0 i : Nat}, (∀ x y, ‖f x - f y‖ ≤ L * ‖x - y‖) →
      SmoothSolution n D f φ s0 s1 → s0 ≤ t k0 → 0 ≤ t k0 + η → k0 + i ≤ M → t (k0 + i) ≤ s1 →
      t (k0 + i) - t k0 ≤ T →
      (∀ k, k0 ≤ k → k < k0 + i → h k = 0 ∨ ∀ j < n, K k j = f (X k j)) →
      ‖x (k0 + i) - φ (t (k0 + i))‖ ≤ B * (‖x k0 - φ (t k0)‖ + H ^ n + δ) := by
    intro f φ s0 s1 k0 i hL hs h0 _ hM h1 hlen hf
    obtain ⟨u1, u2⟩ := S.segment hn ho hδ0 hA hB hL hL0 hH hs h0 i hM h1 hf
    exact u2.trans (bound (norm_nonneg _) (sub_nonneg.2 u1) hlen)
  have tmono : ∀ k, ∀ i, k + i ≤ M → t k ≤ t (k + i) := by
    intro k i
    induction i with
    | zero => intro _; simp
    | succ i ih =>
      intro hM
      have h1 := ih (by omega)
      have h2 := S.next (k + i) (by omega)
      have h3 := (S.step (k + i) (by omega)).1
      rw [← Nat.add_assoc, h2]
      linarith
  have tnn : ∀ k ≤ M, 0 ≤ t k := by
    intro k hk
    have := tmono 0 k (by omega)
    rwa [S.zero, Nat.zero_add] at this
  -- the first phase
  have phaseA : ∀ k ≤ M, (∀ i < k, h i = 0 ∨ ∀ j < n, w i j = 1) →
      t k ≤ ts + c2 * e ∧ ‖x k - φA (t k)‖ ≤ B * e := by
    intro k
    induction k with
    | zero =>
      intro _ _
      rw [S.zero]
      refine ⟨by linarith, ?_⟩
      have : ‖x 0 - φA 0‖ ≤ e := by
        have : 0 ≤ H ^ n := pow_nonneg hH0 n
        rw [he]; linarith
      nlinarith
    | succ k ih =>
      intro hk hw
      obtain ⟨i1, -⟩ := ih (by omega) fun i hi => hw i (by omega)
      have hnx := S.next k (by omega)
      have hst := S.step k (by omega)
      have htk : t (k + 1) ≤ ts + η := by rw [hnx]; linarith
      have err := seg (f := fA) (k0 := 0) (i := k + 1) hLA C.before (by rw [S.zero]) (by rw [S.zero]; linarith)
        (by omega) (by rw [Nat.zero_add]; exact htk) (by rw [Nat.zero_add, S.zero]; linarith)
        fun i _ hi => (hw i (by omega)).imp id fun hw j hj => by
          rw [S.slope i (by omega) j hj, hw j hj]
          simp
      rw [Nat.zero_add, S.zero, ← he] at err
      refine ⟨?_, err⟩
      rcases hw k (by omega) with hz | hwk
      · rw [hnx, hz, add_zero]; exact i1
      by_contra hc
      rw [not_le] at hc
      have h0 := (S.first k (by omega) 0 hn (by rw [hwk 0 hn]; exact one_ne_zero)).2
      have h1 := lipψ (x (k + 1)) (φA (t (k + 1)))
      have h2 := C.above (t (k + 1)) (by linarith) htk
      have h3 := (abs_le.1 h1).1
      have h4 : Lψ * ‖x (k + 1) - φA (t (k + 1))‖ ≤ Lψ * (B * e) := mul_le_mul_of_nonneg_left err hLψ
      have h6 : c2 * e * α < (t (k + 1) - ts) * α := mul_lt_mul_of_pos_right (by linarith) hα
      linarith
  by_cases hall : ∀ k < M, h k = 0 ∨ ∀ j < n, w k j = 1
  · refine ⟨M, le_rfl, hall, fun h => absurd h (lt_irrefl _), fun h => absurd h (lt_irrefl _), ?_, ?_⟩
    · intro k hk
      have := (phaseA k hk fun i hi => hall i (by omega)).1
      linarith
    · intro k hk hkT
      obtain ⟨p1, p2⟩ := phaseA k hk fun i hi => hall i (by omega)
      split
      · linarith
      · rename_i hgt
        rw [not_le] at hgt
        have q1 := spA (t k) ⟨tnn k hk, by linarith⟩
        have q2 := spB (t k) ⟨by linarith, hkT⟩
        rw [abs_of_pos (show 0 < t k - ts by linarith)] at q1 q2
        have q3 : |D| * (t k - ts) ≤ |D| * (c2 * e) := mul_le_mul_of_nonneg_left (by linarith) hD0
        have : x k - φS (t k) = (x k - φA (t k)) + (φA (t k) - φA ts) - (φS (t k) - φS ts) := by
          rw [C.meet]; abel
        rw [this]
        refine (norm_sub_le _ _).trans ?_
        have := norm_add_le (x k - φA (t k)) (φA (t k) - φA ts)
        have q4 : |D| * (c2 * e) = |D| * c2 * e := by ring
        linarith
  -- the first element that is not in the first region
  have hex : ∃ k, k < M ∧ h k ≠ 0 ∧ ∃ j < n, w k j ≠ 1 := by
    by_contra hc
    refine hall fun k hk => or_iff_not_imp_left.2 fun hz j hj => ?_
    by_contra hne
    exact hc ⟨k, hk, hz, j, hj, hne⟩
  set N1 := Nat.find hex with hN1
  obtain ⟨hN1M, -, j1, hj1, hw1⟩ := Nat.find_spec hex
  rw [← hN1] at hN1M hw1
  have hfirst : ∀ k < N1, h k = 0 ∨ ∀ j < n, w k j = 1 := by
    refine fun k hk => or_iff_not_imp_left.2 fun hz j hj => ?_
    by_contra hne
    exact Nat.find_min hex hk ⟨by omega, hz, j, hj, hne⟩
  obtain ⟨pA1, pA2⟩ := phaseA N1 hN1M.le hfirst
  have ht1 := tnn N1 hN1M.le
  have hψ1 : 0 ≤ ψ (x N1) := (S.second N1 hN1M j1 hj1 hw1).1
  have hlow : ts - c2 * e ≤ t N1 := by
    by_contra hc
    rw [not_le] at hc
    have h1 := lipψ (x N1) (φA (t N1))
    have h2 := C.below (t N1) ht1 (by linarith)
    have h3 := (abs_le.1 h1).2
    have h4 : Lψ * ‖x N1 - φA (t N1)‖ ≤ Lψ * (B * e) := mul_le_mul_of_nonneg_left pA2 hLψ
    have h6 : c2 * e * α < (ts - t N1) * α := mul_lt_mul_of_pos_right (by linarith) hα
    linarith
  have hq4 : |D| * (c2 * e) = |D| * c2 * e := by ring
  have hq5 : |D| * (c4 * e) = |D| * c4 * e := by ring
  -- near the crossing time the two solutions are close
  have close : ∀ s, 0 ≤ s → s ≤ T → |s - ts| ≤ c2 * e → ‖φA s - φS s‖ ≤ 2 * (|D| * c2 * e) := by
    intro s hs0 hsT hs
    have hs' := abs_le.1 hs
    have q1 := spA s ⟨hs0, by linarith⟩
    have q2 := spB s ⟨by linarith, hsT⟩
    have q3 : |D| * |s - ts| ≤ |D| * (c2 * e) := mul_le_mul_of_nonneg_left hs hD0
    have : φA s - φS s = (φA s - φA ts) - (φS s - φS ts) := by rw [C.meet]; abel
    rw [this]
    refine (norm_sub_le _ _).trans ?_
    linarith
  have tT1 : t N1 ≤ T := by linarith
  have xB : ‖x N1 - φS (t N1)‖ ≤ B * e + 2 * (|D| * c2 * e) := by
    have h1 := close (t N1) ht1 tT1 (abs_le.2 ⟨by linarith, by linarith⟩)
    have : x N1 - φS (t N1) = (x N1 - φA (t N1)) + (φA (t N1) - φS (t N1)) := by abel
    rw [this]
    exact (norm_add_le _ _).trans (add_le_add pA2 h1)
  have hneg : ∀ k ≤ N1, ψ (x k) ≤ 0 := by
    intro k
    induction k with
    | zero => intro _; exact hx0
    | succ k ih =>
      intro hk
      rcases hfirst k (by omega) with hz | hw
      · rw [S.final k (by omega), hz, zero_smul, add_zero]
        exact ih (by omega)
      · exact (S.first k (by omega) 0 hn (by rw [hw 0 hn]; exact one_ne_zero)).2
  -- the second phase
  have phaseB : ∀ i, N1 + i ≤ M → t (N1 + i) ≤ T →
      (∀ k, N1 ≤ k → k < N1 + i → h k = 0 ∨ ∀ j < n, K k j = fS (X k j)) ∧
      ψ (x (N1 + i)) = 0 ∧ ‖x (N1 + i) - φS (t (N1 + i))‖ ≤ c3 * e := by
    intro i
    induction i with
    | zero =>
      intro _ _
      refine ⟨fun k h1 h2 => absurd h2 (by omega), le_antisymm (hneg N1 le_rfl) hψ1, ?_⟩
      rw [Nat.add_zero]
      linarith
    | succ i ih =>
      intro hM hiT
      have hnx := S.next (N1 + i) (by omega)
      have hst := S.step (N1 + i) (by omega)
      rw [← Nat.add_assoc] at hM hiT ⊢
      have hiT' : t (N1 + i) ≤ T := by rw [hnx] at hiT; linarith
      obtain ⟨i1, i2, i3⟩ := ih (by omega) hiT'
      have hmn := tmono N1 i (by omega)
      have hlast : (h (N1 + i) = 0 ∨ ∀ j < n, K (N1 + i) j = fS (X (N1 + i) j)) ∧ ψ (x (N1 + i + 1)) = 0 := by
        rcases hst.1.eq_or_lt with hz | hpos
        · refine ⟨.inl hz.symm, ?_⟩
          rw [S.final _ (by omega), ← hz, zero_smul, add_zero]
          exact i2
        · obtain ⟨u1, u2⟩ := S.slideStep hn hA hB hLA hLB hL0 hH hreg hmid C hr (k := N1 + i) (by omega) hpos i2
            (by linarith) hiT' (by linarith)
          exact ⟨.inr u1, u2⟩
      have hall' : ∀ k, N1 ≤ k → k < N1 + i + 1 → h k = 0 ∨ ∀ j < n, K k j = fS (X k j) := by
        intro k h1 h2
        rcases Nat.lt_succ_iff_lt_or_eq.1 h2 with h3 | rfl
        · exact i1 k h1 h3
        · exact hlast.1
      refine ⟨hall', hlast.2, ?_⟩
      have err := seg (f := fS) (k0 := N1) (i := i + 1) C.lipschitz C.after (by linarith) (by linarith) (by omega)
        (by rw [← Nat.add_assoc]; exact hiT) (by rw [← Nat.add_assoc]; linarith)
        fun k h1 h2 => hall' k h1 (by omega)
      rw [← Nat.add_assoc] at err
      refine err.trans ?_
      have h1 : ‖x N1 - φS (t N1)‖ + H ^ n + δ ≤ B * e + 2 * (|D| * c2 * e) + e := by linarith
      refine (mul_le_mul_of_nonneg_left h1 (by linarith)).trans (le_of_eq ?_)
      rw [hc3]; ring
  refine ⟨N1, hN1M.le, hfirst, ?_, fun _ => ?_, ?_, ?_⟩
  · intro _ k hk hkM hkT
    obtain ⟨i, rfl⟩ := Nat.exists_eq_add_of_le hk
    exact (phaseB i hkM hkT).2.1
  · rw [abs_le]
    constructor <;> linarith
  · intro k hk
    have := (phaseA k (by omega) fun i hi => hfirst i (by omega)).1
    linarith
  · intro k hkM hkT
    rcases le_or_gt k N1 with hk | hk
    · obtain ⟨p1, p2⟩ := phaseA k hkM fun i hi => hfirst i (by omega)
      split
      · linarith
      · rename_i hgt
        rw [not_le] at hgt
        have h1 := close (t k) (tnn k hkM) hkT (by rw [abs_of_pos (by linarith)]; linarith)
        have : x k - φS (t k) = (x k - φA (t k)) + (φA (t k) - φS (t k)) := by abel
        rw [this]
        refine (norm_add_le _ _).trans ?_
        linarith
    · obtain ⟨i, rfl⟩ := Nat.exists_eq_add_of_le hk.le
      obtain ⟨-, -, p3⟩ := phaseB i hkM hkT
      split
      · rename_i hle
        have := tmono N1 i hkM
        have h1 := close (t (N1 + i)) (tnn _ hkM) hkT (by rw [abs_le]; constructor <;> linarith)
        have : x (N1 + i) - φA (t (N1 + i)) = (x (N1 + i) - φS (t (N1 + i)))
            - (φA (t (N1 + i)) - φS (t (N1 + i))) := by abel
        rw [this]
        refine (norm_sub_le _ _).trans ?_
        linarith
      · linarith

end
end Nosnoc
