import Verif.Proofs.RkConv
import Verif.Spec.Crossing
import Mathlib.Analysis.Calculus.MeanValue
/-
Runge-Kutta steps with switching elements: trajectories that cross a surface.
-/
namespace Nosnoc
open Finset

section
variable {V : Type*} [NormedAddCommGroup V] [NormedSpace ℝ V]

theorem SmoothSolution.mono {n : Nat} {D : ℝ} {f : V → V} {φ : ℝ → V} {t0 t1 s0 s1 : ℝ}
    (h : SmoothSolution n D f φ t0 t1) (h0 : t0 ≤ s0) (h1 : s1 ≤ t1) : SmoothSolution n D f φ s0 s1 := by
  obtain ⟨G, g1, g2, g3⟩ := h
  have sub : Set.Icc s0 s1 ⊆ Set.Icc t0 t1 := Set.Icc_subset_Icc h0 h1
  exact ⟨G, g1, fun q hq t ht => g2 q hq t (sub ht), fun t ht => ⟨(g3 t (sub ht)).1,
    (g3 t (sub ht)).2.mono sub⟩⟩

/-- Solutions with bounded derivatives are Lipschitz continuous in time. -/
theorem SmoothSolution.speed {n : Nat} {D : ℝ} {f : V → V} {φ : ℝ → V} {t0 t1 : ℝ}
    (h : SmoothSolution n D f φ t0 t1) {s t : ℝ} (hs : s ∈ Set.Icc t0 t1) (ht : t ∈ Set.Icc t0 t1) :
    ‖φ t - φ s‖ ≤ D * |t - s| := by
  obtain ⟨G, g1, g2, g3⟩ := h
  have := (convex_Icc t0 t1).norm_image_sub_le_of_norm_hasDerivWithin_le (f := φ) (C := D)
    (fun x hx => (g3 x hx).2) (fun x hx => by
      have := g2 0 (Nat.zero_le _) x hx
      rw [iteratedDeriv_zero, (g3 x hx).1] at this
      exact this) hs ht
  rwa [Real.norm_eq_abs] at this

/-- A sequence of Runge-Kutta steps whose stages use convex combinations of two vector fields: the weight `w k j`
of the first one is zero unless `ψ ≤ 0` at both ends of the step, and one unless `ψ ≥ 0` at both ends. -/
structure SwitchSteps (n : Nat) (a : Nat → Nat → ℝ) (b bw : Nat → ℝ) (fA fB : V → V) (ψ : V → ℝ) (H : ℝ) (M : Nat)
    (x : Nat → V) (t h : Nat → ℝ) (X K : Nat → Nat → V) (w : Nat → Nat → ℝ) : Prop where
  zero : t 0 = 0
  next : ∀ k < M, t (k + 1) = t k + h k
  step : ∀ k < M, 0 ≤ h k ∧ h k ≤ H
  stage : ∀ k < M, ∀ j < n, X k j = x k + h k • ∑ r ∈ range n, a j r • K k r
  final : ∀ k < M, x (k + 1) = x k + h k • ∑ r ∈ range n, b r • K k r
  final' : ∀ k < M, x (k + 1) = x k + h k • ∑ r ∈ range n, bw r • K k r
  nonneg : ∀ r < n, 0 ≤ bw r
  pos : 0 < ∑ r ∈ range n, bw r
  slope : ∀ k < M, ∀ j < n, K k j = w k j • fA (X k j) + (1 - w k j) • fB (X k j)
  weight : ∀ k < M, ∀ j < n, 0 ≤ w k j ∧ w k j ≤ 1
  first : ∀ k < M, ∀ j < n, w k j ≠ 0 → ψ (x k) ≤ 0 ∧ ψ (x (k + 1)) ≤ 0
  second : ∀ k < M, ∀ j < n, w k j ≠ 1 → 0 ≤ ψ (x k) ∧ 0 ≤ ψ (x (k + 1))

variable {n : Nat} {a : Nat → Nat → ℝ} {b bw c : Nat → ℝ} {fA fB : V → V} {ψ : V → ℝ} {H : ℝ} {M : Nat}
  {x : Nat → V} {t h : Nat → ℝ} {X K : Nat → Nat → V} {w : Nat → Nat → ℝ} {A L D δ : ℝ}

/-- The error over a number of steps that use one vector field. -/
theorem SwitchSteps.segment (S : SwitchSteps n a b bw fA fB ψ H M x t h X K w) (hn : 0 < n)
    (ho : StageOrder n a b c δ) (hδ0 : 0 ≤ δ) (hA : ∀ j < n, ∑ r ∈ range n, |a j r| ≤ A)
    (hB : ∑ r ∈ range n, |b r| ≤ A) {f : V → V} (hL : ∀ x y, ‖f x - f y‖ ≤ L * ‖x - y‖) (hL0 : 0 ≤ L)
    (hH : H ≤ 1 / (2 * (A * L) + 1)) {φ : ℝ → V} {s0 s1 : ℝ} (hs : SmoothSolution n D f φ s0 s1) {k0 : Nat}
    (h0 : s0 ≤ t k0) (i : Nat) (hM : k0 + i ≤ M) (h1 : t (k0 + i) ≤ s1)
    (hf : ∀ k, k0 ≤ k → k < k0 + i → h k = 0 ∨ ∀ j < n, K k j = f (X k j)) :
    t k0 ≤ t (k0 + i) ∧ ‖x (k0 + i) - φ (t (k0 + i))‖ ≤ Real.exp (2 * A * L * (t (k0 + i) - t k0))
      * (‖x k0 - φ (t k0)‖ + (t (k0 + i) - t k0) * (|D| * ((1 + A) * H ^ n + n * δ))) := by
  have hA0 : 0 ≤ A := (Finset.sum_nonneg fun _ _ => abs_nonneg _).trans hB
  have hAL0 : 0 ≤ A * L := mul_nonneg hA0 hL0
  induction i with
  | zero => simp
  | succ i ih =>
    have hk : k0 + i < M := by omega
    obtain ⟨b1, b2⟩ := S.step _ hk
    have hnx := S.next _ hk
    obtain ⟨i1, i2⟩ := ih (by omega) (by rw [← Nat.add_assoc] at h1; rw [hnx] at h1; linarith)
      fun k h1 h2 => hf k h1 (by omega)
    rw [← Nat.add_assoc] at h1 ⊢
    set hv := h (k0 + i) with hhv
    set tk := t (k0 + i) with htk
    rcases hf (k0 + i) (by omega) (by omega) with hz | hf'
    · rw [hnx, S.final _ hk, ← hhv, hhv.trans hz, add_zero, zero_smul, add_zero]
      exact ⟨i1, i2⟩
    have h2 : hv ≤ 1 / (2 * (A * L) + 1) := b2.trans hH
    rw [le_div_iff₀ (by positivity)] at h2
    have b3 : hv ≤ 1 := by nlinarith [mul_nonneg b1 hAL0]
    have b4 : hv * (A * L) ≤ 1 / 2 := by nlinarith
    rw [hnx] at h1 ⊢
    have est := (rk_step (η := 0) hn b1 b3 (hs.mono (h0.trans i1) h1) ho hA hB hL hL0 b4
      (fun r hr => by rw [hf' r hr, sub_self, norm_zero]) (S.stage _ hk) (S.final _ hk)).2
    refine ⟨by linarith, est.trans ?_⟩
    have hpow : hv ^ n ≤ H ^ n := pow_le_pow_left₀ b1 b2 _
    have hH0 : 0 ≤ H := b1.trans b2
    set τ := |D| * ((1 + A) * H ^ n + n * δ) with hτ
    have hτ1 : D * ((1 + A) * hv ^ n + n * δ) + A * 0 ≤ τ := by
      rw [mul_zero, add_zero]
      refine mul_le_mul (le_abs_self D) ?_ (by positivity) (abs_nonneg _)
      nlinarith
    have hτ0 : 0 ≤ τ := by positivity
    have hK : 0 ≤ 2 * A * L := by nlinarith
    have e1 : 1 ≤ Real.exp (2 * A * L * (tk - t k0)) := Real.one_le_exp (mul_nonneg hK (by linarith))
    refine le_trans (mul_le_mul_of_nonneg_left (add_le_add i2 (mul_le_mul_of_nonneg_left hτ1 b1))
      (Real.exp_pos _).le) ?_
    rw [show 2 * A * L * (tk + hv - t k0) = 2 * A * L * hv + 2 * A * L * (tk - t k0) by ring, Real.exp_add]
    rw [mul_assoc (Real.exp (2 * A * L * hv))]
    refine mul_le_mul_of_nonneg_left ?_ (Real.exp_pos _).le
    have := mul_le_mul_of_nonneg_right e1 (mul_nonneg b1 hτ0)
    nlinarith

/-- A step that starts on the surface, near the crossing point, leaves it to the side `ψ > 0`. -/
theorem SwitchSteps.leaves (S : SwitchSteps n a b bw fA fB ψ H M x t h X K w) (hn : 0 < n)
    (hA : ∀ j < n, ∑ r ∈ range n, |a j r| ≤ A) (hB : ∑ r ∈ range n, |b r| ≤ A)
    (hLA : ∀ x y, ‖fA x - fA y‖ ≤ L * ‖x - y‖) (hLB : ∀ x y, ‖fB x - fB y‖ ≤ L * ‖x - y‖) (hL0 : 0 ≤ L)
    (hH : H ≤ 1 / (2 * (A * L) + 1)) {φA φB : ℝ → V} {G : V →ₗ[ℝ] ℝ} {ts η T α Lψ r vel μ : ℝ}
    (C : Crossing n D fA fB ψ φA φB G ts η T α Lψ r vel μ) (hr : 4 * A * vel * H ≤ r) {k : Nat} (hk : k < M)
    (b1 : 0 < h k) (hψ : ψ (x k) = 0) (hx : ‖x k - φA ts‖ ≤ r / 2) : 0 < ψ (x (k + 1)) := by
  have hA0 : 0 ≤ A := (Finset.sum_nonneg fun _ _ => abs_nonneg _).trans hB
  have hAL0 : 0 ≤ A * L := mul_nonneg hA0 hL0
  have b2 := (S.step _ hk).2
  have r0 := C.radius
  have hx' : ‖x k - φA ts‖ ≤ r := by linarith
  obtain ⟨-, vA⟩ := C.acrossA _ hx'
  obtain ⟨-, vB⟩ := C.acrossB _ hx'
  have v0 : 0 ≤ vel := (norm_nonneg _).trans vA
  have h2 : h k ≤ 1 / (2 * (A * L) + 1) := b2.trans hH
  rw [le_div_iff₀ (by positivity)] at h2
  have b4 : h k * (A * L) ≤ 1 / 2 := by nlinarith
  -- convex combinations
  have conv : ∀ j < n, ∀ B, ‖fA (X k j)‖ ≤ B → ‖fB (X k j)‖ ≤ B → ‖K k j‖ ≤ B := by
    intro j hj B hA hB
    obtain ⟨w0, w1⟩ := S.weight k hk j hj
    rw [S.slope k hk j hj]
    refine (norm_add_le _ _).trans ?_
    rw [norm_smul, norm_smul, Real.norm_eq_abs, Real.norm_eq_abs, abs_of_nonneg w0, abs_of_nonneg (by linarith)]
    nlinarith
  obtain ⟨m, hm, hmax⟩ := Finset.exists_max_image (range n) (fun j => ‖K k j‖) ⟨0, mem_range.2 hn⟩
  set κ := ‖K k m‖ with hκ
  have hκ0 : 0 ≤ κ := norm_nonneg _
  have disp : ∀ v : Nat → ℝ, ∑ r ∈ range n, |v r| ≤ A →
      ‖h k • ∑ r ∈ range n, v r • K k r‖ ≤ h k * (A * κ) := by
    intro v hv
    rw [norm_smul, Real.norm_eq_abs, abs_of_nonneg b1.le]
    refine mul_le_mul_of_nonneg_left ((norm_sum_le _ _).trans ?_) b1.le
    refine (Finset.sum_le_sum (g := fun r => |v r| * κ) fun r hr => ?_).trans ?_
    · rw [norm_smul, Real.norm_eq_abs]
      exact mul_le_mul_of_nonneg_left (hmax r hr) (abs_nonneg _)
    · rw [← Finset.sum_mul]
      exact mul_le_mul_of_nonneg_right hv hκ0
  have near : ∀ j < n, ‖X k j - x k‖ ≤ h k * (A * κ) := by
    intro j hj
    have e : X k j - x k = h k • ∑ r ∈ range n, a j r • K k r := by rw [S.stage k hk j hj]; abel
    rw [e]
    exact disp _ (hA j hj)
  have hm' := mem_range.1 hm
  have hκ2 : κ ≤ 2 * vel := by
    have bd : ∀ f : V → V, (∀ x y, ‖f x - f y‖ ≤ L * ‖x - y‖) → ‖f (x k)‖ ≤ vel →
        ‖f (X k m)‖ ≤ vel + L * (h k * (A * κ)) := by
      intro f hf hv
      have h1 : f (X k m) = f (x k) + (f (X k m) - f (x k)) := by abel
      rw [h1]
      refine (norm_add_le _ _).trans (add_le_add hv ((hf _ _).trans ?_))
      exact mul_le_mul_of_nonneg_left (near m hm') hL0
    have := conv m hm' _ (bd fA hLA vA) (bd fB hLB vB)
    nlinarith
  have hd : h k * (A * κ) ≤ r / 2 := by
    have h1 : A * κ ≤ A * (2 * vel) := mul_le_mul_of_nonneg_left hκ2 hA0
    have h3 : h k * (A * κ) ≤ H * (A * (2 * vel)) := mul_le_mul b2 h1 (by positivity) (b1.le.trans b2)
    nlinarith
  have ball : ∀ y, ‖y - x k‖ ≤ h k * (A * κ) → ‖y - φA ts‖ ≤ r := by
    intro y hy
    have : y - φA ts = (y - x k) + (x k - φA ts) := by abel
    rw [this]
    refine (norm_add_le _ _).trans ?_
    linarith
  have hxe : ‖x (k + 1) - x k‖ ≤ h k * (A * κ) := by
    have e : x (k + 1) - x k = h k • ∑ r ∈ range n, b r • K k r := by rw [S.final k hk]; abel
    rw [e]
    exact disp _ hB
  have st : ∀ j < n, ‖K k j‖ ≤ vel ∧ α ≤ G (K k j) := by
    intro j hj
    obtain ⟨a1, a2⟩ := C.acrossA _ (ball _ (near j hj))
    obtain ⟨c1, c2⟩ := C.acrossB _ (ball _ (near j hj))
    refine ⟨conv j hj _ a2 c2, ?_⟩
    obtain ⟨w0, w1⟩ := S.weight k hk j hj
    rw [S.slope k hk j hj, map_add, map_smul, map_smul, smul_eq_mul, smul_eq_mul]
    nlinarith
  have e : x (k + 1) - x k = h k • ∑ r ∈ range n, bw r • K k r := by rw [S.final' k hk]; abel
  have lin := C.linear _ _ hx' (ball _ hxe)
  rw [hψ, sub_zero] at lin
  have n1 : ‖x (k + 1) - x k‖ ≤ h k * ((∑ r ∈ range n, bw r) * vel) := by
    rw [e, norm_smul, Real.norm_eq_abs, abs_of_nonneg b1.le]
    refine mul_le_mul_of_nonneg_left ((norm_sum_le _ _).trans ?_) b1.le
    rw [Finset.sum_mul]
    refine Finset.sum_le_sum fun r hr => ?_
    rw [norm_smul, Real.norm_eq_abs, abs_of_nonneg (S.nonneg r (mem_range.1 hr))]
    exact mul_le_mul_of_nonneg_left (st r (mem_range.1 hr)).1 (S.nonneg r (mem_range.1 hr))
  have n2 : h k * ((∑ r ∈ range n, bw r) * α) ≤ G (x (k + 1) - x k) := by
    rw [e, map_smul, smul_eq_mul, map_sum, Finset.sum_mul]
    refine mul_le_mul_of_nonneg_left (Finset.sum_le_sum fun r hr => ?_) b1.le
    rw [map_smul, smul_eq_mul]
    exact mul_le_mul_of_nonneg_left (st r (mem_range.1 hr)).2 (S.nonneg r (mem_range.1 hr))
  obtain ⟨m0, m1⟩ := C.small
  have n3 := mul_le_mul_of_nonneg_left n1 m0
  have hp : 0 < h k * (∑ r ∈ range n, bw r) := mul_pos b1 S.pos
  have n4 := mul_lt_mul_of_pos_left m1 hp
  have := (abs_le.1 lin).1
  nlinarith

end
end Nosnoc
