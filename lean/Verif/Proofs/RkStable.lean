import Verif.Proofs.RkConv
/-
Two Runge-Kutta steps of the same length with the same coefficients stay together.
-/
namespace Nosnoc
open Finset

section
variable {V : Type*} [NormedAddCommGroup V] [NormedSpace ℝ V]

theorem rk_stable {n : Nat} {f : V → V} {h A L : ℝ} {a : Nat → Nat → ℝ} {b : Nat → ℝ} (hn : 0 < n) (hh : 0 ≤ h)
    (hA : ∀ j < n, ∑ r ∈ range n, |a j r| ≤ A) (hB : ∑ r ∈ range n, |b r| ≤ A)
    (hL : ∀ x y, ‖f x - f y‖ ≤ L * ‖x - y‖) (hL0 : 0 ≤ L) (hAL : h * (A * L) ≤ 1 / 2)
    {x xe y ye : V} {X Y : Nat → V}
    (hX : ∀ j < n, X j = x + h • ∑ r ∈ range n, a j r • f (X r))
    (hxe : xe = x + h • ∑ r ∈ range n, b r • f (X r))
    (hY : ∀ j < n, Y j = y + h • ∑ r ∈ range n, a j r • f (Y r))
    (hye : ye = y + h • ∑ r ∈ range n, b r • f (Y r)) :
    (∀ j < n, ‖X j - Y j‖ ≤ 2 * ‖x - y‖) ∧ ‖xe - ye‖ ≤ Real.exp (2 * A * L * h) * ‖x - y‖ := by
  have hA0 : 0 ≤ A := (Finset.sum_nonneg fun _ _ => abs_nonneg _).trans hB
  obtain ⟨m, hm, hmax⟩ := Finset.exists_max_image (range n) (fun j => ‖X j - Y j‖) ⟨0, mem_range.2 hn⟩
  set E := ‖X m - Y m‖ with hE
  have hE0 : 0 ≤ E := norm_nonneg _
  have est : ∀ w : Nat → ℝ, ∑ r ∈ range n, |w r| ≤ A →
      ‖(x + h • ∑ r ∈ range n, w r • f (X r)) - (y + h • ∑ r ∈ range n, w r • f (Y r))‖
        ≤ ‖x - y‖ + h * (A * L) * E := by
    intro w hw
    have e : (x + h • ∑ r ∈ range n, w r • f (X r)) - (y + h • ∑ r ∈ range n, w r • f (Y r))
        = (x - y) + h • ∑ r ∈ range n, w r • (f (X r) - f (Y r)) := by
      simp only [smul_sub, Finset.sum_sub_distrib]
      abel
    rw [e]
    refine (norm_add_le _ _).trans (add_le_add le_rfl ?_)
    rw [norm_smul, Real.norm_eq_abs, abs_of_nonneg hh, mul_assoc h]
    refine mul_le_mul_of_nonneg_left ((norm_sum_le _ _).trans ?_) hh
    refine le_trans (Finset.sum_le_sum (g := fun r => |w r| * (L * E)) fun r hr => ?_) ?_
    · rw [norm_smul, Real.norm_eq_abs]
      exact mul_le_mul_of_nonneg_left ((hL _ _).trans (mul_le_mul_of_nonneg_left (hmax r hr) hL0)) (abs_nonneg _)
    · rw [← Finset.sum_mul, mul_assoc]
      exact mul_le_mul_of_nonneg_right hw (mul_nonneg hL0 hE0)
  have hm' := mem_range.1 hm
  have hE2 : E ≤ 2 * ‖x - y‖ := by
    have := est (a m) (hA m hm')
    rw [← hX m hm', ← hY m hm', ← hE] at this
    nlinarith
  refine ⟨fun j hj => (hmax j (mem_range.2 hj)).trans hE2, ?_⟩
  have := est b hB
  rw [← hxe, ← hye] at this
  refine this.trans ?_
  have hexp : 1 + 2 * A * L * h ≤ Real.exp (2 * A * L * h) := by
    have := Real.add_one_le_exp (2 * A * L * h)
    linarith
  have hk : 0 ≤ h * (A * L) := mul_nonneg hh (mul_nonneg hA0 hL0)
  have h3 := mul_le_mul_of_nonneg_left hE2 hk
  have h4 := mul_le_mul_of_nonneg_right hexp (norm_nonneg (x - y))
  nlinarith

end
end Nosnoc
