import Verif.Props.Tables
import Verif.Proofs.TableInverse
import Mathlib.Algebra.Order.BigOperators.Ring.Finset
import Mathlib.Data.Rat.Cast.Order
import Mathlib.Data.Finset.Max
import Mathlib.Tactic.Linarith
/-
C20: the Butcher matrices are regular, so the slopes of a step can be recovered from its stage values.
-/
namespace Nosnoc
open Finset

set_option maxRecDepth 4000 in
/-- The product with the approximate inverse is close to the identity. -/
theorem approxInverse_close {n : Nat} {s : IrkScheme} {t : Tableau} (h : generateButcher n s = .ok t) :
    ∀ i < n, ∑ j ∈ range n, |(if i = j then 1 else 0)
      - ∑ r ∈ range n, ((approxInverse n s).getD i []).getD r 0 * t.a r j| ≤ 1 / 2 := by
  unfold generateButcher at h
  split at h <;> split at h <;> cases h <;> decide +kernel

/-- C20: the matrix of every returned tableau is regular: two sets of slopes with the same stage values are the
same. -/
theorem C20_regular {n : Nat} {s : IrkScheme} {t : Tableau} (h : generateButcher n s = .ok t) {u v : Nat → ℝ}
    (huv : ∀ j < n, ∑ r ∈ range n, (t.a j r : ℝ) * u r = ∑ r ∈ range n, (t.a j r : ℝ) * v r) :
    ∀ r < n, u r = v r := by
  rcases Nat.eq_zero_or_pos n with rfl | hn
  · intro r hr; omega
  set B : Nat → Nat → ℝ := fun i r => ((((approxInverse n s).getD i []).getD r 0 : ℚ) : ℝ) with hB
  set z : Nat → ℝ := fun r => u r - v r with hz
  have hz0 : ∀ j < n, ∑ r ∈ range n, (t.a j r : ℝ) * z r = 0 := by
    intro j hj
    simp only [hz, mul_sub, sum_sub_distrib]
    rw [huv j hj, sub_self]
  obtain ⟨m, hm, hmax⟩ := exists_max_image (range n) (fun j => |z j|) ⟨0, mem_range.2 hn⟩
  have hclose := approxInverse_close h m (mem_range.1 hm)
  have hclose' : ∑ j ∈ range n, |(if m = j then (1 : ℝ) else 0) - ∑ r ∈ range n, B m r * (t.a r j : ℝ)| ≤ 1 / 2 := by
    have := (Rat.cast_le (K := ℝ)).2 hclose
    push_cast at this
    refine le_trans (le_of_eq (sum_congr rfl fun j _ => ?_)) this
    by_cases hc : m = j
    · rw [if_pos hc, if_pos hc, Rat.cast_one]
    · rw [if_neg hc, if_neg hc, Rat.cast_zero]
  have hsum : z m = ∑ j ∈ range n, ((if m = j then (1 : ℝ) else 0) - ∑ r ∈ range n, B m r * (t.a r j : ℝ)) * z j := by
    simp only [sub_mul, sum_sub_distrib]
    have e1 : ∑ j ∈ range n, (if m = j then (1 : ℝ) else 0) * z j = z m := by
      rw [sum_eq_single m]
      · simp
      · intro j _ hne
        rw [if_neg hne.symm, zero_mul]
      · intro hc
        exact absurd hm hc
    have e2 : ∑ j ∈ range n, (∑ r ∈ range n, B m r * (t.a r j : ℝ)) * z j = 0 := by
      simp only [sum_mul]
      rw [sum_comm]
      refine sum_eq_zero fun r hr => ?_
      simp only [mul_assoc]
      rw [← mul_sum, hz0 r (mem_range.1 hr), mul_zero]
    rw [e1, e2, sub_zero]
  have hle : |z m| ≤ 1 / 2 * |z m| := by
    have h1 : |z m| ≤ (∑ j ∈ range n, |(if m = j then (1 : ℝ) else 0) - ∑ r ∈ range n, B m r * (t.a r j : ℝ)|) * |z m| := by
      conv_lhs => rw [hsum]
      refine (abs_sum_le_sum_abs _ _).trans ?_
      rw [sum_mul]
      refine sum_le_sum fun j hj => ?_
      rw [abs_mul]
      exact mul_le_mul_of_nonneg_left (hmax j hj) (abs_nonneg _)
    exact h1.trans (mul_le_mul_of_nonneg_right hclose' (abs_nonneg _))
  intro r hr
  have h2 := hmax r (mem_range.2 hr)
  have h3 := abs_nonneg (z r)
  have h4 : |z r| = 0 := by linarith
  exact sub_eq_zero.1 (abs_eq_zero.1 h4)

/-- Radau IIA with three stages: slopes for which all stage values are equal to the initial one vanish. -/
example {u : Nat → ℝ} (hu : ∀ j < 3, ∑ r ∈ range 3, (radau3.a j r : ℝ) * u r = 0) : ∀ r < 3, u r = 0 :=
  C20_regular (n := 3) (s := .radauIIA) (t := radau3) (v := fun _ => 0) rfl fun j hj => by rw [hu j hj]; simp

end Nosnoc
