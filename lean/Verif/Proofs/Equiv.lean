import Verif.Props.Colloc
import Verif.Spec.CollocTableau
/-
Helper lemmas: integral and differential form of a collocation step.
-/
namespace Nosnoc
open Polynomial

theorem exists_antiderivative (q : ℝ[X]) : ∃ Q : ℝ[X], derivative Q = q ∧ Q.eval 0 = 0 ∧
    Q.natDegree ≤ q.natDegree + 1 := by
  refine ⟨∑ i ∈ Finset.range (q.natDegree + 1), C (q.coeff i / ((i : ℝ) + 1)) * X ^ (i + 1),
    ?_, ?_, ?_⟩
  · rw [derivative_sum]
    conv_rhs => rw [q.as_sum_range_C_mul_X_pow]
    refine Finset.sum_congr rfl fun i _ => ?_
    have h : ((i : ℝ) + 1) ≠ 0 := by positivity
    rw [derivative_C_mul, derivative_X_pow, Nat.add_sub_cancel, ← mul_assoc]
    congr 1
    push_cast
    rw [← C_mul, div_mul_cancel₀ _ h]
  · simp [eval_finsetSum]
  · refine natDegree_sum_le_of_forall_le _ _ fun i hi => ?_
    refine (natDegree_C_mul_X_pow_le _ _).trans ?_
    have := Finset.mem_range.1 hi
    omega

theorem poly_ftc (P : ℝ[X]) (a b : ℝ) :
    P.eval b - P.eval a = ∫ t in a..b, (derivative P).eval t :=
  (intervalIntegral.integral_eq_sub_of_hasDerivAt (fun x _ => P.hasDerivAt x)
    ((derivative P).differentiable.continuous.intervalIntegrable _ _)).symm

theorem integral_comb (n : Nat) (c : Nat → ℝ) (l : Nat → ℝ[X]) (a b : ℝ) :
    ∫ t in a..b, (∑ r ∈ Finset.range n, C (c r) * l r).eval t
      = ∑ r ∈ Finset.range n, c r * ∫ t in a..b, (l r).eval t := by
  simp only [eval_finsetSum, eval_mul, eval_C]
  rw [intervalIntegral.integral_finsetSum]
  · simp only [intervalIntegral.integral_const_mul]
  · intro j _
    exact ((l j).differentiable.continuous.const_mul _ |>.intervalIntegrable _ _)

section
variable {points : List ℝ}

theorem points_injOn (hn : points.Nodup) :
    Set.InjOn (fun i => points.getD i 0) (Finset.range points.length : Set Nat) := by
  intro a ha b hb hab
  simp only [Finset.coe_range, Set.mem_Iio] at ha hb
  simp only [List.getD_eq_getElem?_getD, List.getElem?_eq_getElem ha,
    List.getElem?_eq_getElem hb, Option.getD_some] at hab
  exact (List.Nodup.getElem_inj_iff hn).1 hab

theorem node_succ (j : Nat) : node points (j + 1) = points.getD j 0 := by simp [node]
theorem node_zero : node points 0 = 0 := by simp [node]

/-- A polynomial whose derivative has values `d r` at the points. -/
theorem poly_step (hn : points.Nodup) {P : ℝ[X]}
    (hP : P.natDegree ≤ points.length) {d : Nat → ℝ}
    (hd : ∀ r < points.length, (derivative P).eval (points.getD r 0) = d r) (b : ℝ) :
    P.eval b = P.eval 0 + ∑ r ∈ Finset.range points.length,
      d r * ∫ t in (0 : ℝ)..b, (collocBasis points r).eval t := by
  have e : derivative P = ∑ r ∈ Finset.range points.length, C (d r) * collocBasis points r := by
    by_cases h0 : points.length = 0
    · have : P.natDegree = 0 := by omega
      rw [derivative_of_natDegree_zero this, h0]
      simp
    · have hdeg : (derivative P).degree < (Finset.range points.length).card := by
        rw [Finset.card_range]
        by_cases hz : derivative P = 0
        · rw [hz, degree_zero]; exact WithBot.bot_lt_coe _
        · rw [degree_eq_natDegree hz]
          have := natDegree_derivative_lt (p := P) (fun h => hz (derivative_of_natDegree_zero h))
          exact_mod_cast this.trans_le hP
      refine (Lagrange.eq_interpolate (points_injOn hn) hdeg).trans ?_
      rw [Lagrange.interpolate_apply]
      refine Finset.sum_congr rfl fun r hr => ?_
      rw [hd r (Finset.mem_range.1 hr)]
      rfl
  have h := poly_ftc P 0 b
  rw [e, integral_comb] at h
  linarith

/-- The polynomial through given values at the nodes. -/
theorem exists_through (hn : (0 :: points).Nodup) (y : Nat → ℝ) : ∃ P : ℝ[X],
    P.natDegree ≤ points.length ∧ ∀ j < points.length + 1, P.eval (node points j) = y j := by
  have hinj := points_injOn hn
  refine ⟨Lagrange.interpolate (Finset.range (0 :: points).length) (fun i => (0 :: points).getD i 0) y,
    ?_, ?_⟩
  · have := Lagrange.degree_interpolate_lt y hinj
    rw [Finset.card_range, List.length_cons] at this
    exact natDegree_le_iff_coeff_eq_zero.2 fun N hN => (degree_lt_iff_coeff_zero _ _).1 this N hN
  · intro j hj
    exact Lagrange.eval_interpolate_at_node y hinj (by simpa using hj)

end

end Nosnoc
