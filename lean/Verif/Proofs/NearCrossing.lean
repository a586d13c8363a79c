import Verif.Proofs.CrossingError
/-
Runge-Kutta steps with switching elements, up to a tolerance: trajectories that cross a surface.
-/
namespace Nosnoc
open Finset

section
variable {V : Type*} [NormedAddCommGroup V] [NormedSpace ℝ V]

/-- A sequence of Runge-Kutta steps whose stages use convex combinations of two vector fields: the weight `w k j`
of the first one is at most `ω` unless `ψ ≤ κ` at both ends of the step, and at least `1 - ω` unless `ψ ≥ -κ` at
both ends. -/
structure NearSteps (n : Nat) (a : Nat → Nat → ℝ) (b bw : Nat → ℝ) (fA fB : V → V) (ψ : V → ℝ) (H ω κ : ℝ) (M : Nat)
    (x : Nat → V) (t h : Nat → ℝ) (X K : Nat → Nat → V) (w : Nat → Nat → ℝ) : Prop where
  zero : t 0 = 0
  next : ∀ k < M, t (k + 1) = t k + h k
  step : ∀ k < M, 0 ≤ h k ∧ h k ≤ H
  stage : ∀ k < M, ∀ j < n, X k j = x k + h k • ∑ r ∈ range n, a j r • K k r
  final : ∀ k < M, x (k + 1) = x k + h k • ∑ r ∈ range n, b r • K k r
  final' : ∀ k < M, x (k + 1) = x k + h k • ∑ r ∈ range n, bw r • K k r
  nonneg : ∀ r < n, 0 ≤ bw r
  half : 1 / 2 ≤ ∑ r ∈ range n, bw r
  slope : ∀ k < M, ∀ j < n, K k j = w k j • fA (X k j) + (1 - w k j) • fB (X k j)
  weight : ∀ k < M, ∀ j < n, 0 ≤ w k j ∧ w k j ≤ 1
  first : ∀ k < M, ∀ j < n, ω < w k j → ψ (x k) ≤ κ ∧ ψ (x (k + 1)) ≤ κ
  second : ∀ k < M, ∀ j < n, ω < 1 - w k j → -κ ≤ ψ (x k) ∧ -κ ≤ ψ (x (k + 1))

variable {n : Nat} {a : Nat → Nat → ℝ} {b bw c : Nat → ℝ} {fA fB : V → V} {ψ : V → ℝ} {H ω κ : ℝ} {M : Nat}
  {x : Nat → V} {t h : Nat → ℝ} {X K : Nat → Nat → V} {w : Nat → Nat → ℝ} {A L D δ : ℝ}

/-- Convex combinations of the two fields near one of them. -/
theorem convex_slope (hLA : ∀ x y, ‖fA x - fA y‖ ≤ L * ‖x - y‖) (hLB : ∀ x y, ‖fB x - fB y‖ ≤ L * ‖x - y‖)
    {v : ℝ} (h0 : 0 ≤ v) (h1 : v ≤ 1) (z y : V) :
    ‖v • fA z + (1 - v) • fB z - fA y‖ ≤ L * ‖z - y‖ + (1 - v) * ‖fA y - fB y‖ ∧
    ‖v • fA z + (1 - v) • fB z - fB y‖ ≤ L * ‖z - y‖ + v * ‖fA y - fB y‖ := by
  have h2 : 0 ≤ 1 - v := by linarith
  have n1 : ‖v • (fA z - fA y)‖ ≤ v * (L * ‖z - y‖) := by
    rw [norm_smul, Real.norm_eq_abs, abs_of_nonneg h0]
    exact mul_le_mul_of_nonneg_left (hLA _ _) h0
  have n2 : ‖(1 - v) • (fB z - fB y)‖ ≤ (1 - v) * (L * ‖z - y‖) := by
    rw [norm_smul, Real.norm_eq_abs, abs_of_nonneg h2]
    exact mul_le_mul_of_nonneg_left (hLB _ _) h2
  have n3 := norm_add_le (v • (fA z - fA y)) ((1 - v) • (fB z - fB y))
  constructor
  · have : v • fA z + (1 - v) • fB z - fA y
        = (v • (fA z - fA y) + (1 - v) • (fB z - fB y)) - (1 - v) • (fA y - fB y) := by module
    rw [this]
    refine (norm_sub_le _ _).trans ?_
    rw [norm_smul (1 - v) (fA y - fB y), Real.norm_eq_abs, abs_of_nonneg h2]
    nlinarith
  · have : v • fA z + (1 - v) • fB z - fB y
        = (v • (fA z - fA y) + (1 - v) • (fB z - fB y)) + v • (fA y - fB y) := by module
    rw [this]
    refine (norm_add_le _ _).trans ?_
    rw [norm_smul v (fA y - fB y), Real.norm_eq_abs, abs_of_nonneg h0]
    nlinarith

/-- The error over a number of steps that nearly use one vector field. -/
theorem NearSteps.segment (S : NearSteps n a b bw fA fB ψ H ω κ M x t h X K w) (hn : 0 < n)
    (ho : StageOrder n a b c δ) (hδ0 : 0 ≤ δ) (hA : ∀ j < n, ∑ r ∈ range n, |a j r| ≤ A)
    (hB : ∑ r ∈ range n, |b r| ≤ A) {f : V → V} (hL0 : 0 ≤ L)
    (hH : H ≤ 1 / (2 * (A * L) + 1)) {φ : ℝ → V} {s0 s1 η : ℝ} (hη : 0 ≤ η) (hs : SmoothSolution n D f φ s0 s1)
    {k0 : Nat} (h0 : s0 ≤ t k0) (i : Nat) (hM : k0 + i ≤ M) (h1 : t (k0 + i) ≤ s1)
    (hf : ∀ k, k0 ≤ k → k < k0 + i → ∀ j < n, ∀ s, s0 ≤ s → s ≤ s1 →
      ‖K k j - f (φ s)‖ ≤ L * ‖X k j - φ s‖ + η) :
    t k0 ≤ t (k0 + i) ∧ ‖x (k0 + i) - φ (t (k0 + i))‖ ≤ Real.exp (2 * A * L * (t (k0 + i) - t k0))
      * (‖x k0 - φ (t k0)‖ + (t (k0 + i) - t k0) * (|D| * ((1 + A) * H ^ n + n * δ) + A * η)) := by
  have hA0 : 0 ≤ A := (Finset.sum_nonneg fun _ _ => abs_nonneg _).trans hB
  have hAL0 : 0 ≤ A * L := mul_nonneg hA0 hL0
  induction i with
  | zero => simp
  | succ i ih =>
    have hk : k0 + i < M := by omega
    obtain ⟨b1, b2⟩ := S.step _ hk
    have hnx := S.next _ hk
    obtain ⟨i1, i2⟩ := ih (by omega) (by rw [← Nat.add_assoc] at h1; rw [hnx] at h1; linarith)
      fun k h1 h2 => hf k h1 (by omega)
    rw [← Nat.add_assoc] at h1 ⊢
    set hv := h (k0 + i) with hhv
    set tk := t (k0 + i) with htk
    have hf' := hf (k0 + i) (by omega) (by omega)
    have h2 : hv ≤ 1 / (2 * (A * L) + 1) := b2.trans hH
    rw [le_div_iff₀ (by positivity)] at h2
    have b3 : hv ≤ 1 := by nlinarith [mul_nonneg b1 hAL0]
    have b4 : hv * (A * L) ≤ 1 / 2 := by nlinarith
    rw [hnx] at h1 ⊢
    have est := (rk_step_near (η := η) hn b1 b3 (hs.mono (h0.trans i1) h1) ho hA hB hL0 b4 hη
      (fun r hr => by
        obtain ⟨c0, c1⟩ := ho.inside r hr
        refine hf' r hr _ ?_ ?_
        · have := mul_nonneg c0 b1
          linarith
        · have : c r * hv ≤ 1 * hv := mul_le_mul_of_nonneg_right c1 b1
          linarith) (S.stage _ hk) (S.final _ hk)).2
    refine ⟨by linarith, est.trans ?_⟩
    have hpow : hv ^ n ≤ H ^ n := pow_le_pow_left₀ b1 b2 _
    have hH0 : 0 ≤ H := b1.trans b2
    set τ := |D| * ((1 + A) * H ^ n + n * δ) + A * η with hτ
    have hτ1 : D * ((1 + A) * hv ^ n + n * δ) + A * η ≤ τ := by
      refine add_le_add_left (mul_le_mul (le_abs_self D) ?_ (by positivity) (abs_nonneg _)) _
      nlinarith
    have hτ0 : 0 ≤ τ := by positivity
    have hK : 0 ≤ 2 * A * L := by nlinarith
    have e1 : 1 ≤ Real.exp (2 * A * L * (tk - t k0)) := Real.one_le_exp (mul_nonneg hK (by linarith))
    refine le_trans (mul_le_mul_of_nonneg_left (add_le_add i2 (mul_le_mul_of_nonneg_left hτ1 b1))
      (Real.exp_pos _).le) ?_
    rw [show 2 * A * L * (tk + hv - t k0) = 2 * A * L * hv + 2 * A * L * (tk - t k0) by ring, Real.exp_add]
    rw [mul_assoc (Real.exp (2 * A * L * hv))]
    refine mul_le_mul_of_nonneg_left ?_ (Real.exp_pos _).le
    have := mul_le_mul_of_nonneg_right e1 (mul_nonneg b1 hτ0)
    nlinarith

/-- A step that starts near the crossing point moves across the surface, whatever the weights of its stages are. -/
theorem NearSteps.rise (S : NearSteps n a b bw fA fB ψ H ω κ M x t h X K w) (hn : 0 < n)
    (hA : ∀ j < n, ∑ r ∈ range n, |a j r| ≤ A) (hB : ∑ r ∈ range n, |b r| ≤ A)
    (hLA : ∀ x y, ‖fA x - fA y‖ ≤ L * ‖x - y‖) (hLB : ∀ x y, ‖fB x - fB y‖ ≤ L * ‖x - y‖) (hL0 : 0 ≤ L)
    (hH : H ≤ 1 / (2 * (A * L) + 1)) {φA φB : ℝ → V} {G : V →ₗ[ℝ] ℝ} {ts η T α Lψ r vel μ g : ℝ}
    (C : Crossing n D fA fB ψ φA φB G ts η T α Lψ r vel μ) (hr : 4 * A * vel * H ≤ r)
    (hg : 2 * g ≤ α - μ * vel) {k : Nat} (hk : k < M) (hx : ‖x k - φA ts‖ ≤ r / 2) :
    ψ (x k) + g * h k ≤ ψ (x (k + 1)) ∧ ‖x (k + 1) - x k‖ ≤ 2 * A * vel * h k := by
  have hA0 : 0 ≤ A := (Finset.sum_nonneg fun _ _ => abs_nonneg _).trans hB
  have hAL0 : 0 ≤ A * L := mul_nonneg hA0 hL0
  obtain ⟨b1, b2⟩ := S.step _ hk
  have r0 := C.radius
  have hx' : ‖x k - φA ts‖ ≤ r := by linarith
  obtain ⟨-, vA⟩ := C.acrossA _ hx'
  obtain ⟨-, vB⟩ := C.acrossB _ hx'
  have v0 : 0 ≤ vel := (norm_nonneg _).trans vA
  have h2 : h k ≤ 1 / (2 * (A * L) + 1) := b2.trans hH
  rw [le_div_iff₀ (by positivity)] at h2
  have b4 : h k * (A * L) ≤ 1 / 2 := by nlinarith
  -- convex combinations
  have conv : ∀ j < n, ∀ B, ‖fA (X k j)‖ ≤ B → ‖fB (X k j)‖ ≤ B → ‖K k j‖ ≤ B := by
    intro j hj B hA hB
    obtain ⟨w0, w1⟩ := S.weight k hk j hj
    rw [S.slope k hk j hj]
    refine (norm_add_le _ _).trans ?_
    rw [norm_smul, norm_smul, Real.norm_eq_abs, Real.norm_eq_abs, abs_of_nonneg w0, abs_of_nonneg (by linarith)]
    nlinarith
  obtain ⟨m, hm, hmax⟩ := Finset.exists_max_image (range n) (fun j => ‖K k j‖) ⟨0, mem_range.2 hn⟩
  set q := ‖K k m‖ with hκ
  have hκ0 : 0 ≤ q := norm_nonneg _
  have disp : ∀ v : Nat → ℝ, ∑ r ∈ range n, |v r| ≤ A →
      ‖h k • ∑ r ∈ range n, v r • K k r‖ ≤ h k * (A * q) := by
    intro v hv
    rw [norm_smul, Real.norm_eq_abs, abs_of_nonneg b1]
    refine mul_le_mul_of_nonneg_left ((norm_sum_le _ _).trans ?_) b1
    refine (Finset.sum_le_sum (g := fun r => |v r| * q) fun r hr => ?_).trans ?_
    · rw [norm_smul, Real.norm_eq_abs]
      exact mul_le_mul_of_nonneg_left (hmax r hr) (abs_nonneg _)
    · rw [← Finset.sum_mul]
      exact mul_le_mul_of_nonneg_right hv hκ0
  have near : ∀ j < n, ‖X k j - x k‖ ≤ h k * (A * q) := by
    intro j hj
    have e : X k j - x k = h k • ∑ r ∈ range n, a j r • K k r := by rw [S.stage k hk j hj]; abel
    rw [e]
    exact disp _ (hA j hj)
  have hm' := mem_range.1 hm
  have hκ2 : q ≤ 2 * vel := by
    have bd : ∀ f : V → V, (∀ x y, ‖f x - f y‖ ≤ L * ‖x - y‖) → ‖f (x k)‖ ≤ vel →
        ‖f (X k m)‖ ≤ vel + L * (h k * (A * q)) := by
      intro f hf hv
      have h1 : f (X k m) = f (x k) + (f (X k m) - f (x k)) := by abel
      rw [h1]
      refine (norm_add_le _ _).trans (add_le_add hv ((hf _ _).trans ?_))
      exact mul_le_mul_of_nonneg_left (near m hm') hL0
    have := conv m hm' _ (bd fA hLA vA) (bd fB hLB vB)
    nlinarith
  have hAq : A * q ≤ A * (2 * vel) := mul_le_mul_of_nonneg_left hκ2 hA0
  have hd : h k * (A * q) ≤ r / 2 := by
    have h3 : h k * (A * q) ≤ H * (A * (2 * vel)) := mul_le_mul b2 hAq (by positivity) (b1.trans b2)
    nlinarith
  have ball : ∀ y, ‖y - x k‖ ≤ h k * (A * q) → ‖y - φA ts‖ ≤ r := by
    intro y hy
    have : y - φA ts = (y - x k) + (x k - φA ts) := by abel
    rw [this]
    refine (norm_add_le _ _).trans ?_
    linarith
  have hxe : ‖x (k + 1) - x k‖ ≤ h k * (A * q) := by
    have e : x (k + 1) - x k = h k • ∑ r ∈ range n, b r • K k r := by rw [S.final k hk]; abel
    rw [e]
    exact disp _ hB
  have st : ∀ j < n, ‖K k j‖ ≤ vel ∧ α ≤ G (K k j) := by
    intro j hj
    obtain ⟨a1, a2⟩ := C.acrossA _ (ball _ (near j hj))
    obtain ⟨c1, c2⟩ := C.acrossB _ (ball _ (near j hj))
    refine ⟨conv j hj _ a2 c2, ?_⟩
    obtain ⟨w0, w1⟩ := S.weight k hk j hj
    rw [S.slope k hk j hj, map_add, map_smul, map_smul, smul_eq_mul, smul_eq_mul]
    nlinarith
  have e : x (k + 1) - x k = h k • ∑ r ∈ range n, bw r • K k r := by rw [S.final' k hk]; abel
  have lin := C.linear _ _ hx' (ball _ hxe)
  have n1 : ‖x (k + 1) - x k‖ ≤ h k * ((∑ r ∈ range n, bw r) * vel) := by
    rw [e, norm_smul, Real.norm_eq_abs, abs_of_nonneg b1]
    refine mul_le_mul_of_nonneg_left ((norm_sum_le _ _).trans ?_) b1
    rw [Finset.sum_mul]
    refine Finset.sum_le_sum fun r hr => ?_
    rw [norm_smul, Real.norm_eq_abs, abs_of_nonneg (S.nonneg r (mem_range.1 hr))]
    exact mul_le_mul_of_nonneg_left (st r (mem_range.1 hr)).1 (S.nonneg r (mem_range.1 hr))
  have n2 : h k * ((∑ r ∈ range n, bw r) * α) ≤ G (x (k + 1) - x k) := by
    rw [e, map_smul, smul_eq_mul, map_sum, Finset.sum_mul]
    refine mul_le_mul_of_nonneg_left (Finset.sum_le_sum fun r hr => ?_) b1
    rw [map_smul, smul_eq_mul]
    exact mul_le_mul_of_nonneg_left (st r (mem_range.1 hr)).2 (S.nonneg r (mem_range.1 hr))
  obtain ⟨m0, m1⟩ := C.small
  have n3 := mul_le_mul_of_nonneg_left n1 m0
  have hhalf := S.half
  set sb := ∑ r ∈ range n, bw r
  refine ⟨?_, hxe.trans ?_⟩
  · have := (abs_le.1 lin).1
    have n5 : h k * (1 / 2 * (α - μ * vel)) ≤ h k * (sb * (α - μ * vel)) :=
      mul_le_mul_of_nonneg_left (mul_le_mul_of_nonneg_right hhalf (by linarith)) b1
    have n6 : h k * (2 * g) ≤ h k * (α - μ * vel) := mul_le_mul_of_nonneg_left hg b1
    nlinarith
  · have := mul_le_mul_of_nonneg_left hAq b1
    linarith

end
end Nosnoc
