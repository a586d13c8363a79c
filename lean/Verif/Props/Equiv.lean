import Verif.Proofs.Equiv
/-
C19: the INTEGRAL and the DIFFERENTIAL form of a collocation step have the same solutions.
-/
namespace Nosnoc
open Polynomial

/-- C19: with the coefficients of `generate_butcher_tableu_integral` for the given points, the
INTEGRAL equations for the stage values `x` hold iff `x` are the stage values of the Runge-Kutta
method with the collocation tableau of the same points and stage derivatives `K`. -/
theorem C19_stage_equations {points : List ℝ} (hn : (0 :: points).Nodup) (h x0 : ℝ)
    (x K : Nat → ℝ) :
    (∀ j < points.length, h * K j = (generateButcherIntegral points).C 0 (j + 1) * x0
        + ∑ r ∈ Finset.range points.length, (generateButcherIntegral points).C (r + 1) (j + 1) * x r)
    ↔ ∀ j < points.length, x j = x0
        + ∑ r ∈ Finset.range points.length, h * collocA points j r * K r := by
  have hn' := (List.nodup_cons.1 hn).2
  have split : ∀ (P : ℝ[X]), P.eval 0 = x0 → (∀ r < points.length, P.eval (points.getD r 0) = x r) →
      P.natDegree ≤ points.length → ∀ j,
      (generateButcherIntegral points).C 0 (j + 1) * x0
        + ∑ r ∈ Finset.range points.length, (generateButcherIntegral points).C (r + 1) (j + 1) * x r
      = (derivative P).eval (points.getD j 0) := by
    intro P h0 hx hP j
    rw [← node_succ, ← C15_derivative hn hP (j + 1), Finset.sum_range_succ', node_zero, h0, add_comm]
    congr 1
    refine Finset.sum_congr rfl fun r hr => ?_
    rw [node_succ, hx r (Finset.mem_range.1 hr)]
  constructor
  · intro H
    obtain ⟨P, hP, hv⟩ := exists_through hn (fun j => if j = 0 then x0 else x (j - 1))
    have h0 : P.eval 0 = x0 := by rw [← node_zero (points := points), hv 0 (by omega)]; rfl
    have hx : ∀ r < points.length, P.eval (points.getD r 0) = x r := by
      intro r hr
      rw [← node_succ, hv (r + 1) (by omega)]
      simp
    intro j hj
    have := poly_step hn' hP (d := fun r => h * K r)
      (fun r hr => by rw [← split P h0 hx hP r, ← H r hr]) (points.getD j 0)
    rw [← hx j hj, this, h0]
    congr 1
    refine Finset.sum_congr rfl fun r _ => ?_
    unfold collocA
    ring
  · intro H
    set q : ℝ[X] := ∑ r ∈ Finset.range points.length, C (h * K r) * collocBasis points r with hq
    obtain ⟨Q, hQ, hQ0, hQd⟩ := exists_antiderivative q
    have hqv : ∀ r < points.length, q.eval (points.getD r 0) = h * K r := by
      intro r hr
      have : q = Lagrange.interpolate (Finset.range points.length) (fun i => points.getD i 0)
          (fun r => h * K r) := by rw [Lagrange.interpolate_apply]; rfl
      rw [this]
      exact Lagrange.eval_interpolate_at_node _ (points_injOn hn') (Finset.mem_range.2 hr)
    by_cases hz : points.length = 0
    · intro j hj; omega
    have hqd : q.natDegree + 1 ≤ points.length := by
      have : q.natDegree ≤ points.length - 1 := by
        refine natDegree_sum_le_of_forall_le _ _ fun r hr => ?_
        refine (natDegree_C_mul_le _ _).trans ?_
        have h1 := Lagrange.degree_basis (points_injOn hn') hr
        rw [Finset.card_range] at h1
        exact (natDegree_eq_of_degree_eq_some h1).le
      omega
    have hPd : (Q + C x0).natDegree ≤ points.length := by
      rw [natDegree_add_C]
      omega
    have hder : derivative (Q + C x0) = q := by rw [derivative_add, derivative_C, add_zero, hQ]
    have h0 : (Q + C x0).eval 0 = x0 := by rw [eval_add, hQ0, eval_C, zero_add]
    have hx : ∀ r < points.length, (Q + C x0).eval (points.getD r 0) = x r := by
      intro j hj
      have := poly_step hn' hPd (d := fun r => h * K r)
        (fun r hr => by rw [hder, hqv r hr]) (points.getD j 0)
      rw [this, h0, H j hj]
      congr 1
      refine Finset.sum_congr rfl fun r _ => ?_
      unfold collocA
      ring
    intro j hj
    rw [split _ h0 hx hPd j, hder, hqv j hj]

/-- C19: and then both forms define the same end state. -/
theorem C19_end_state {points : List ℝ} (hn : (0 :: points).Nodup) (h x0 : ℝ)
    (x K : Nat → ℝ)
    (H : ∀ j < points.length, x j = x0
        + ∑ r ∈ Finset.range points.length, h * collocA points j r * K r) :
    (generateButcherIntegral points).D 0 * x0
        + ∑ r ∈ Finset.range points.length, (generateButcherIntegral points).D (r + 1) * x r
      = x0 + ∑ r ∈ Finset.range points.length, h * collocB points r * K r := by
  have hn' := (List.nodup_cons.1 hn).2
  obtain ⟨P, hP, hv⟩ := exists_through hn (fun j => if j = 0 then x0 else x (j - 1))
  have h0 : P.eval 0 = x0 := by rw [← node_zero (points := points), hv 0 (by omega)]; rfl
  have hx : ∀ r < points.length, P.eval (points.getD r 0) = x r := by
    intro r hr
    rw [← node_succ, hv (r + 1) (by omega)]
    simp
  have hder : ∀ r < points.length, (derivative P).eval (points.getD r 0) = h * K r := by
    intro r hr
    rw [(C19_stage_equations hn h x0 x K).2 H r hr, ← node_succ, ← C15_derivative hn hP (r + 1),
      Finset.sum_range_succ', node_zero, h0, add_comm]
    congr 1
    refine Finset.sum_congr rfl fun r hr => ?_
    rw [node_succ, hx r (Finset.mem_range.1 hr)]
  have hD := C15_end_value hn hP
  rw [Finset.sum_range_succ', node_zero, h0, add_comm] at hD
  have e : ∑ r ∈ Finset.range points.length, (generateButcherIntegral points).D (r + 1) * x r
      = ∑ r ∈ Finset.range points.length,
        (generateButcherIntegral points).D (r + 1) * P.eval (node points (r + 1)) :=
    Finset.sum_congr rfl fun r hr => by rw [node_succ, hx r (Finset.mem_range.1 hr)]
  rw [e, hD, poly_step hn' hP hder 1, h0]
  congr 1
  refine Finset.sum_congr rfl fun r _ => ?_
  unfold collocB
  ring

/-- Two-stage Radau nodes meet the hypothesis of C19. -/
example : ((0 : ℝ) :: [1 / 3, 1]).Nodup := by
  simp

end Nosnoc
