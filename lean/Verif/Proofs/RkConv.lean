import Verif.Spec.Converge
import Mathlib.Analysis.Calculus.Taylor
import Mathlib.Analysis.Calculus.MeanValue
import Mathlib.Analysis.Calculus.Deriv.Pow
import Mathlib.Analysis.Calculus.Deriv.Add
import Mathlib.Analysis.Calculus.Deriv.Mul
import Mathlib.Analysis.SpecialFunctions.Exp
/-
Local error of a Runge-Kutta step with stage order `n`, for smooth solutions of Lipschitz equations.
-/
namespace Nosnoc
open Finset

section
variable {V : Type*} [NormedAddCommGroup V] [NormedSpace ℝ V]

/-- The coefficients integrate polynomials of degree less than `n` up to `δ`. -/
structure StageOrder (n : Nat) (a : Nat → Nat → ℝ) (b c : Nat → ℝ) (δ : ℝ) : Prop where
  inside : ∀ j < n, 0 ≤ c j ∧ c j ≤ 1
  stage : ∀ j < n, ∀ q < n, |∑ r ∈ range n, a j r * c r ^ q - c j ^ (q + 1) / ((q : ℝ) + 1)| ≤ δ
  quad : ∀ q < n, |∑ r ∈ range n, b r * c r ^ q - 1 / ((q : ℝ) + 1)| ≤ δ

theorem SmoothSolution.taylor {n : Nat} {D : ℝ} {f : V → V} {φ : ℝ → V} {t h : ℝ} (hn : 0 < n)
    (hh : 0 ≤ h) (hs : SmoothSolution n D f φ t (t + h)) : ∃ g : Nat → V, (∀ q < n, ‖g q‖ ≤ D) ∧
    (∀ x, 0 ≤ x → x ≤ h → ‖f (φ (t + x)) - ∑ q ∈ range n, (((q.factorial : ℝ))⁻¹ * x ^ q) • g q‖ ≤ D * h ^ n) ∧
    ∀ x, 0 ≤ x → x ≤ h → ‖φ (t + x) - φ t
      - ∑ q ∈ range n, (((q.factorial : ℝ))⁻¹ * (x ^ (q + 1) / ((q : ℝ) + 1))) • g q‖ ≤ D * h ^ n * x := by
  obtain ⟨G, hG, hD, hφ⟩ := hs
  have hD0 : 0 ≤ D := (norm_nonneg _).trans (hD 0 (Nat.zero_le _) t ⟨le_rfl, by linarith⟩)
  obtain ⟨N, rfl⟩ : ∃ N, n = N + 1 := ⟨n - 1, by omega⟩
  rcases hh.eq_or_lt with rfl | hpos
  · refine ⟨fun q => if q = 0 then G t else 0, fun q hq => ?_, fun x h1 h2 => ?_, fun x h1 h2 => ?_⟩
    · show ‖if q = 0 then G t else 0‖ ≤ D
      split
      · simpa using hD 0 (Nat.zero_le _) t ⟨le_rfl, by simp⟩
      · simpa using hD0
    · obtain rfl : x = 0 := le_antisymm h2 h1
      rw [Finset.sum_eq_single 0]
      · simp [(hφ t ⟨le_rfl, by simp⟩).1]
      · intro q _ hq; simp [hq]
      · intro hc; simp at hc
    · obtain rfl : x = 0 := le_antisymm h2 h1
      simp
  have hu : UniqueDiffOn ℝ (Set.Icc t (t + h)) := uniqueDiffOn_Icc (by linarith)
  have hd : ∀ q ≤ N + 1, ∀ y ∈ Set.Icc t (t + h),
      iteratedDerivWithin q G (Set.Icc t (t + h)) y = iteratedDeriv q G y := fun q hq y hy =>
    iteratedDerivWithin_eq_iteratedDeriv hu ((hG.of_le (by exact_mod_cast hq)).contDiffAt) hy
  have hm : t ∈ Set.Icc t (t + h) := ⟨le_rfl, by linarith⟩
  have rem : ∀ x, 0 ≤ x → x ≤ h → ‖f (φ (t + x)) - ∑ q ∈ range (N + 1),
      (((q.factorial : ℝ))⁻¹ * x ^ q) • iteratedDeriv q G t‖ ≤ D * h ^ (N + 1) := by
    intro x h1 h2
    have hx : t + x ∈ Set.Icc t (t + h) := ⟨by linarith, by linarith⟩
    have := taylor_mean_remainder_bound (f := G) (n := N) (C := D) (show t ≤ t + h by linarith)
      (by exact_mod_cast hG.contDiffOn) hx (fun y hy => by rw [hd _ le_rfl y hy]; exact hD _ le_rfl y hy)
    rw [taylor_within_apply, (hφ _ hx).1] at this
    have e : ∑ q ∈ range (N + 1), (((q.factorial : ℝ))⁻¹ * x ^ q) • iteratedDeriv q G t
        = ∑ k ∈ range (N + 1), (((k.factorial : ℝ))⁻¹ * (t + x - t) ^ k)
          • iteratedDerivWithin k G (Set.Icc t (t + h)) t := by
      refine Finset.sum_congr rfl fun q hq => ?_
      rw [hd q (by have := mem_range.1 hq; omega) t hm, add_sub_cancel_left]
    rw [e]
    refine this.trans ?_
    rw [add_sub_cancel_left]
    have hf : (1 : ℝ) ≤ (N.factorial : ℝ) := by exact_mod_cast Nat.factorial_pos N
    refine (div_le_self (mul_nonneg hD0 (pow_nonneg h1 _)) hf).trans ?_
    exact mul_le_mul_of_nonneg_left (pow_le_pow_left₀ h1 h2 _) hD0
  refine ⟨fun q => iteratedDeriv q G t, fun q hq => hD q (by omega) t hm, rem, fun x h1 h2 => ?_⟩
  have key := Convex.norm_image_sub_le_of_norm_hasDerivWithin_le (s := Set.Icc t (t + h))
    (f := fun y => φ y - ∑ q ∈ range (N + 1),
      (((q.factorial : ℝ))⁻¹ * ((y - t) ^ (q + 1) / ((q : ℝ) + 1))) • iteratedDeriv q G t)
    (f' := fun y => f (φ y) - ∑ q ∈ range (N + 1), (((q.factorial : ℝ))⁻¹ * (y - t) ^ q) • iteratedDeriv q G t)
    (C := D * h ^ (N + 1)) (x := t) (y := t + x) (fun y hy => ?_) (fun y hy => ?_) (convex_Icc _ _) hm
    ⟨by linarith, by linarith⟩
  · have e0 : ∑ q ∈ range (N + 1),
        (((q.factorial : ℝ))⁻¹ * ((t - t) ^ (q + 1) / ((q : ℝ) + 1))) • iteratedDeriv q G t = 0 :=
      Finset.sum_eq_zero fun q _ => by simp
    rw [e0, sub_zero] at key
    simp only [add_sub_cancel_left, Real.norm_eq_abs, abs_of_nonneg h1] at key
    rw [sub_right_comm] at key
    exact key
  · refine (hφ y hy).2.sub (HasDerivWithinAt.fun_sum fun q _ => HasDerivWithinAt.smul_const ?_ _)
    have h3 : HasDerivAt (fun y : ℝ => (y - t) ^ (q + 1)) (((q + 1 : Nat) : ℝ) * (y - t) ^ q) y := by
      simpa using ((hasDerivAt_id y).sub_const t).fun_pow (q + 1)
    have h4 := ((h3.div_const ((q : ℝ) + 1)).const_mul ((q.factorial : ℝ)⁻¹)).hasDerivWithinAt
      (s := Set.Icc t (t + h))
    refine h4.congr_deriv ?_
    push_cast
    field_simp
  · have := rem (y - t) (by linarith [hy.1]) (by linarith [hy.2])
    rwa [add_sub_cancel] at this

/-- The quadrature error. -/
theorem defect {n : Nat} {D : ℝ} {f : V → V} {φ : ℝ → V} {t h A δ s : ℝ} {w c : Nat → ℝ} (hn : 0 < n)
    (hh : 0 ≤ h) (h1 : h ≤ 1) (hs : SmoothSolution n D f φ t (t + h))
    (hc : ∀ j < n, 0 ≤ c j ∧ c j ≤ 1) (hs0 : 0 ≤ s) (hs1 : s ≤ 1) (hA : ∑ r ∈ range n, |w r| ≤ A)
    (hw : ∀ q < n, |∑ r ∈ range n, w r * c r ^ q - s ^ (q + 1) / ((q : ℝ) + 1)| ≤ δ) :
    ‖φ (t + s * h) - φ t - h • ∑ r ∈ range n, w r • f (φ (t + c r * h))‖
      ≤ h * (D * ((1 + A) * h ^ n + n * δ)) := by
  obtain ⟨g, g1, g2, g3⟩ := hs.taylor hn hh
  have hD0 : 0 ≤ D := (norm_nonneg _).trans (g1 0 hn)
  have hsh : 0 ≤ s * h ∧ s * h ≤ h := ⟨mul_nonneg hs0 hh, by nlinarith⟩
  have r1 := g3 (s * h) hsh.1 hsh.2
  have r2 : ‖∑ r ∈ range n, w r • (f (φ (t + c r * h))
      - ∑ q ∈ range n, (((q.factorial : ℝ))⁻¹ * (c r * h) ^ q) • g q)‖ ≤ A * (D * h ^ n) := by
    refine (norm_sum_le _ _).trans ?_
    refine le_trans (Finset.sum_le_sum (g := fun r => |w r| * (D * h ^ n)) fun r hr => ?_) ?_
    · have hr := hc r (mem_range.1 hr)
      rw [norm_smul, Real.norm_eq_abs]
      exact mul_le_mul_of_nonneg_left (g2 _ (mul_nonneg hr.1 hh) (by nlinarith)) (abs_nonneg _)
    · rw [← Finset.sum_mul]
      exact mul_le_mul_of_nonneg_right hA (mul_nonneg hD0 (pow_nonneg hh _))
  have e : φ (t + s * h) - φ t - h • ∑ r ∈ range n, w r • f (φ (t + c r * h))
      = (φ (t + s * h) - φ t - ∑ q ∈ range n,
          (((q.factorial : ℝ))⁻¹ * ((s * h) ^ (q + 1) / ((q : ℝ) + 1))) • g q)
        - h • (∑ r ∈ range n, w r • (f (φ (t + c r * h))
          - ∑ q ∈ range n, (((q.factorial : ℝ))⁻¹ * (c r * h) ^ q) • g q))
        - ∑ q ∈ range n, (h * (((q.factorial : ℝ))⁻¹ * h ^ q *
          (∑ r ∈ range n, w r * c r ^ q - s ^ (q + 1) / ((q : ℝ) + 1)))) • g q := by
    have e1 : ∑ q ∈ range n, (h * (((q.factorial : ℝ))⁻¹ * h ^ q *
          (∑ r ∈ range n, w r * c r ^ q - s ^ (q + 1) / ((q : ℝ) + 1)))) • g q
        = h • (∑ r ∈ range n, w r • ∑ q ∈ range n, (((q.factorial : ℝ))⁻¹ * (c r * h) ^ q) • g q)
          - ∑ q ∈ range n, (((q.factorial : ℝ))⁻¹ * ((s * h) ^ (q + 1) / ((q : ℝ) + 1))) • g q := by
      simp only [Finset.smul_sum, smul_smul]
      rw [Finset.sum_comm, ← Finset.sum_sub_distrib]
      refine Finset.sum_congr rfl fun q _ => ?_
      rw [← Finset.sum_smul, ← sub_smul]
      congr 1
      rw [mul_sub, mul_sub, Finset.mul_sum, Finset.mul_sum]
      congr 1
      · refine Finset.sum_congr rfl fun r _ => ?_
        rw [mul_pow]; ring
      · rw [mul_pow]; ring
    rw [e1]
    simp only [smul_sub, Finset.sum_sub_distrib]
    abel
  have r3 : ‖∑ q ∈ range n, (h * (((q.factorial : ℝ))⁻¹ * h ^ q *
      (∑ r ∈ range n, w r * c r ^ q - s ^ (q + 1) / ((q : ℝ) + 1)))) • g q‖ ≤ h * (n * (δ * D)) := by
    refine (norm_sum_le _ _).trans ?_
    refine le_trans (Finset.sum_le_sum (g := fun _ => h * (δ * D)) fun q hq => ?_) ?_
    · have hq := mem_range.1 hq
      rw [norm_smul, Real.norm_eq_abs, abs_mul, abs_of_nonneg hh, mul_assoc]
      refine mul_le_mul_of_nonneg_left ?_ hh
      refine mul_le_mul ?_ (g1 q hq) (norm_nonneg _) ((abs_nonneg _).trans (hw q hq))
      rw [abs_mul]
      have hf : (1 : ℝ) ≤ (q.factorial : ℝ) := by exact_mod_cast Nat.factorial_pos q
      have h2 : |((q.factorial : ℝ))⁻¹ * h ^ q| ≤ 1 := by
        rw [abs_of_nonneg (mul_nonneg (by positivity) (pow_nonneg hh _))]
        exact mul_le_one₀ (inv_le_one_of_one_le₀ hf) (pow_nonneg hh _) (pow_le_one₀ hh h1)
      calc _ ≤ 1 * δ := mul_le_mul h2 (hw q hq) (abs_nonneg _) zero_le_one
        _ = δ := one_mul _
    · simp
      exact le_of_eq (by ring)
  rw [e]
  refine (norm_sub_le _ _).trans ?_
  refine (add_le_add ((norm_sub_le _ _).trans (add_le_add r1
    ((norm_smul_le h _).trans (mul_le_mul_of_nonneg_left r2 (norm_nonneg h))))) r3).trans ?_
  rw [Real.norm_eq_abs, abs_of_nonneg hh]
  have : D * h ^ n * (s * h) ≤ D * h ^ n * h :=
    mul_le_mul_of_nonneg_left hsh.2 (mul_nonneg hD0 (pow_nonneg hh _))
  nlinarith

/-- One step with slopes `K r` that differ from the slopes of the solution by the Lipschitz constant times the
error of the stages and `η`: the error grows by the factor `exp (2 A L h)` and the defect. -/
theorem rk_step_near {n : Nat} {D : ℝ} {f : V → V} {φ : ℝ → V} {t h A L δ η : ℝ} {a : Nat → Nat → ℝ} {b c : Nat → ℝ}
    (hn : 0 < n) (hh : 0 ≤ h) (h1 : h ≤ 1) (hs : SmoothSolution n D f φ t (t + h))
    (ho : StageOrder n a b c δ) (hA : ∀ j < n, ∑ r ∈ range n, |a j r| ≤ A) (hB : ∑ r ∈ range n, |b r| ≤ A)
    (hL0 : 0 ≤ L) (hAL : h * (A * L) ≤ 1 / 2) (hη0 : 0 ≤ η)
    {x x' : V} {X K : Nat → V}
    (hK : ∀ r < n, ‖K r - f (φ (t + c r * h))‖ ≤ L * ‖X r - φ (t + c r * h)‖ + η)
    (hX : ∀ j < n, X j = x + h • ∑ r ∈ range n, a j r • K r)
    (hx' : x' = x + h • ∑ r ∈ range n, b r • K r) :
    (∀ j < n, ‖X j - φ (t + c j * h)‖ ≤ 2 * (‖x - φ t‖ + h * (D * ((1 + A) * h ^ n + n * δ) + A * η))) ∧
    ‖x' - φ (t + h)‖
      ≤ Real.exp (2 * A * L * h) * (‖x - φ t‖ + h * (D * ((1 + A) * h ^ n + n * δ) + A * η)) := by
  set τ0 := h * (D * ((1 + A) * h ^ n + n * δ)) with hτ0'
  set τ := h * (D * ((1 + A) * h ^ n + n * δ) + A * η) with hτ
  have hτe : τ = τ0 + h * (A * η) := by rw [hτ, hτ0']; ring
  set e := ‖x - φ t‖ with he
  have hA0 : 0 ≤ A := (Finset.sum_nonneg fun _ _ => abs_nonneg _).trans hB
  have dB := defect hn hh h1 hs ho.inside zero_le_one le_rfl hB (by simpa using ho.quad)
  rw [one_mul, ← hτ0'] at dB
  have dA := fun j hj => defect hn hh h1 hs ho.inside (ho.inside j hj).1 (ho.inside j hj).2 (hA j hj)
    (ho.stage j hj)
  rw [← hτ0'] at dA
  have hτ00 : 0 ≤ τ0 := (norm_nonneg _).trans dB
  have hτ0 : 0 ≤ τ := by rw [hτe]; positivity
  have he0 : 0 ≤ e := norm_nonneg _
  -- the largest stage error
  obtain ⟨m, hm, hmax⟩ := Finset.exists_max_image (range n) (fun j => ‖X j - φ (t + c j * h)‖)
    ⟨0, mem_range.2 hn⟩
  set E := ‖X m - φ (t + c m * h)‖ with hE
  have sumle : ∀ w : Nat → ℝ, ∑ r ∈ range n, |w r| ≤ A →
      ‖h • ∑ r ∈ range n, w r • (K r - f (φ (t + c r * h)))‖ ≤ h * (A * L) * E + h * (A * η) := by
    intro w hw
    rw [norm_smul, Real.norm_eq_abs, abs_of_nonneg hh, mul_assoc h, ← mul_add]
    refine mul_le_mul_of_nonneg_left ((norm_sum_le _ _).trans ?_) hh
    refine le_trans (Finset.sum_le_sum (g := fun r => |w r| * (L * E + η)) fun r hr => ?_) ?_
    · rw [norm_smul, Real.norm_eq_abs]
      refine mul_le_mul_of_nonneg_left ?_ (abs_nonneg _)
      exact (hK r (mem_range.1 hr)).trans (add_le_add_left (mul_le_mul_of_nonneg_left (hmax r hr) hL0) _)
    · rw [← Finset.sum_mul, mul_assoc, ← mul_add]
      exact mul_le_mul_of_nonneg_right hw (add_nonneg (mul_nonneg hL0 (norm_nonneg _)) hη0)
  have split : ∀ (w : Nat → ℝ) (s : ℝ), x + h • ∑ r ∈ range n, w r • K r - φ (t + s * h)
      = (x - φ t) + h • ∑ r ∈ range n, w r • (K r - f (φ (t + c r * h)))
        - (φ (t + s * h) - φ t - h • ∑ r ∈ range n, w r • f (φ (t + c r * h))) := by
    intro w s
    simp only [smul_sub, Finset.sum_sub_distrib]
    abel
  have est : ∀ (w : Nat → ℝ) (s : ℝ), ∑ r ∈ range n, |w r| ≤ A →
      ‖φ (t + s * h) - φ t - h • ∑ r ∈ range n, w r • f (φ (t + c r * h))‖ ≤ τ0 →
      ‖x + h • ∑ r ∈ range n, w r • K r - φ (t + s * h)‖ ≤ e + h * (A * L) * E + τ := by
    intro w s hw hd
    rw [split, hτe]
    have := (norm_sub_le _ _).trans (add_le_add ((norm_add_le (x - φ t) _).trans
      (add_le_add le_rfl (sumle w hw))) hd)
    linarith
  have hE2 : E ≤ 2 * (e + τ) := by
    have hm' := mem_range.1 hm
    have := est (a m) (c m) (hA m hm') (dA m hm')
    rw [← hX m hm', ← hE] at this
    have hE0 : 0 ≤ E := norm_nonneg _
    nlinarith
  refine ⟨fun j hj => (hmax j (mem_range.2 hj)).trans hE2, ?_⟩
  have := est b 1 hB (by rw [one_mul]; exact dB)
  rw [← hx', one_mul] at this
  refine this.trans ?_
  have hexp : 1 + 2 * A * L * h ≤ Real.exp (2 * A * L * h) := by
    have := Real.add_one_le_exp (2 * A * L * h)
    linarith
  have hk : 0 ≤ h * (A * L) := mul_nonneg hh (mul_nonneg hA0 hL0)
  have h3 : h * (A * L) * E ≤ h * (A * L) * (2 * (e + τ)) := mul_le_mul_of_nonneg_left hE2 hk
  have h4 : (1 + 2 * A * L * h) * (e + τ) ≤ Real.exp (2 * A * L * h) * (e + τ) :=
    mul_le_mul_of_nonneg_right hexp (by linarith)
  nlinarith

/-- One step with slopes `K r` that are `f` at the stages up to `η`: the error grows by the factor
`exp (2 A L h)` and the defect. -/
theorem rk_step {n : Nat} {D : ℝ} {f : V → V} {φ : ℝ → V} {t h A L δ η : ℝ} {a : Nat → Nat → ℝ} {b c : Nat → ℝ}
    (hn : 0 < n) (hh : 0 ≤ h) (h1 : h ≤ 1) (hs : SmoothSolution n D f φ t (t + h))
    (ho : StageOrder n a b c δ) (hA : ∀ j < n, ∑ r ∈ range n, |a j r| ≤ A) (hB : ∑ r ∈ range n, |b r| ≤ A)
    (hL : ∀ x y, ‖f x - f y‖ ≤ L * ‖x - y‖) (hL0 : 0 ≤ L) (hAL : h * (A * L) ≤ 1 / 2)
    {x x' : V} {X K : Nat → V} (hK : ∀ r < n, ‖K r - f (X r)‖ ≤ η)
    (hX : ∀ j < n, X j = x + h • ∑ r ∈ range n, a j r • K r)
    (hx' : x' = x + h • ∑ r ∈ range n, b r • K r) :
    (∀ j < n, ‖X j - φ (t + c j * h)‖ ≤ 2 * (‖x - φ t‖ + h * (D * ((1 + A) * h ^ n + n * δ) + A * η))) ∧
    ‖x' - φ (t + h)‖
      ≤ Real.exp (2 * A * L * h) * (‖x - φ t‖ + h * (D * ((1 + A) * h ^ n + n * δ) + A * η)) := by
  have hη0 : 0 ≤ η := (norm_nonneg _).trans (hK 0 hn)
  refine rk_step_near hn hh h1 hs ho hA hB hL0 hAL hη0 (fun r hr => ?_) hX hx'
  have : K r - f (φ (t + c r * h)) = (f (X r) - f (φ (t + c r * h))) + (K r - f (X r)) := by abel
  rw [this]
  exact (norm_add_le _ _).trans (add_le_add (hL _ _) (hK r hr))

end
end Nosnoc
