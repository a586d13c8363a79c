import Verif.Proofs.Colloc
/-
C15: the collocation coefficients are exact.  The statements use Mathlib's polynomials, derivative
and integral; nothing of the code's polynomial arithmetic appears in them.
-/
namespace Nosnoc
open Polynomial

/-- The nodes of the collocation polynomial: 0 and the collocation points. -/
noncomputable abbrev node (points : List ℝ) (j : Nat) : ℝ := (0 :: points).getD j 0

theorem colloc_degree {points : List ℝ} {p : ℝ[X]} (hp : p.natDegree ≤ points.length) :
    p.degree < (0 :: points).length := by
  refine lt_of_le_of_lt p.degree_le_natDegree ?_
  simp only [List.length_cons]
  exact_mod_cast Nat.lt_succ_of_le hp

/-- C15: `D` evaluates the polynomial at the end of the element, from its values at the nodes. -/
theorem C15_end_value {points : List ℝ} (hn : (0 :: points).Nodup) {p : ℝ[X]}
    (hp : p.natDegree ≤ points.length) :
    ∑ j ∈ Finset.range (points.length + 1),
      (generateButcherIntegral points).D j * p.eval (node points j) = p.eval 1 := by
  have h := congrArg (Polynomial.eval 1) (interpolation hn (colloc_degree hp))
  rw [h, eval_finsetSum]
  refine Finset.sum_congr rfl fun j _ => ?_
  simp only [generateButcherIntegral, npPolyval_eq, eval_mul, eval_C]
  ring

/-- C15: column `r` of `C` differentiates the polynomial at node `r`. -/
theorem C15_derivative {points : List ℝ} (hn : (0 :: points).Nodup) {p : ℝ[X]}
    (hp : p.natDegree ≤ points.length) (r : Nat) :
    ∑ j ∈ Finset.range (points.length + 1),
      (generateButcherIntegral points).C j r * p.eval (node points j)
      = (derivative p).eval (node points r) := by
  have h := congrArg (fun q => (derivative q).eval (node points r))
    (interpolation hn (colloc_degree hp))
  rw [h, derivative_sum, eval_finsetSum]
  refine Finset.sum_congr rfl fun j _ => ?_
  simp only [generateButcherIntegral, npPolyval_eq, toPoly_polyder, eval_mul, eval_C,
    derivative_C_mul]
  ring

/-- C15: `B` integrates the polynomial over the element. -/
theorem C15_integral {points : List ℝ} (hn : (0 :: points).Nodup) {p : ℝ[X]}
    (hp : p.natDegree ≤ points.length) :
    ∑ j ∈ Finset.range (points.length + 1),
      (generateButcherIntegral points).B j * p.eval (node points j)
      = ∫ t in (0 : ℝ)..1, p.eval t := by
  have h : ∀ t, p.eval t = ∑ j ∈ Finset.range (points.length + 1),
      p.eval (node points j) * (toPoly (lagrangeCoeff (0 :: points) j)).eval t := by
    intro t
    have h := congrArg (Polynomial.eval t) (interpolation hn (colloc_degree hp))
    rw [h, eval_finsetSum]
    refine Finset.sum_congr rfl fun j _ => ?_
    rw [eval_mul, eval_C]
  rw [intervalIntegral.integral_congr (g := fun t => ∑ j ∈ Finset.range (points.length + 1),
      p.eval (node points j) * (toPoly (lagrangeCoeff (0 :: points) j)).eval t) (fun t _ => h t),
    intervalIntegral.integral_finsetSum]
  · refine Finset.sum_congr rfl fun j _ => ?_
    rw [intervalIntegral.integral_const_mul, ← polyint_integral]
    simp only [generateButcherIntegral, npPolyval_eq]
    ring
  · intro j _
    exact ((toPoly _).differentiable.continuous.const_mul _ |>.intervalIntegrable _ _)

/-- C15: the three identities determine the coefficients: any coefficients with the property of `D`
are `D` (and similarly for `C`, `B`). -/
theorem C15_unique {points : List ℝ} (hn : (0 :: points).Nodup) (c : Nat → ℝ)
    (L : ℝ[X] → ℝ)
    (hc : ∀ p : ℝ[X], p.natDegree ≤ points.length →
      ∑ j ∈ Finset.range (points.length + 1), c j * p.eval (node points j) = L p)
    (c' : Nat → ℝ)
    (hc' : ∀ p : ℝ[X], p.natDegree ≤ points.length →
      ∑ j ∈ Finset.range (points.length + 1), c' j * p.eval (node points j) = L p)
    {j : Nat} (hj : j < points.length + 1) : c j = c' j := by
  have hinj : Set.InjOn (node points) (Finset.range (points.length + 1) : Set Nat) := by
    intro a ha b hb hab
    simp only [Finset.coe_range, Set.mem_Iio] at ha hb
    have ha' : a < (0 :: points).length := by simpa using ha
    have hb' : b < (0 :: points).length := by simpa using hb
    simp only [node, List.getD_eq_getElem?_getD, List.getElem?_eq_getElem ha',
      List.getElem?_eq_getElem hb', Option.getD_some] at hab
    exact (List.Nodup.getElem_inj_iff hn).1 hab
  set s := Finset.range (points.length + 1)
  have hjs : j ∈ s := Finset.mem_range.2 hj
  have hd : (Lagrange.basis s (node points) j).natDegree ≤ points.length := by
    have h1 := Lagrange.degree_basis hinj hjs
    have h2 := natDegree_eq_of_degree_eq_some h1
    rw [h2]
    simp [s]
  have key : ∀ c : Nat → ℝ, ∑ i ∈ s, c i * (Lagrange.basis s (node points) j).eval (node points i)
      = c j := by
    intro c
    rw [Finset.sum_eq_single j]
    · rw [Lagrange.eval_basis_self hinj hjs, mul_one]
    · intro b hb hbj
      rw [Lagrange.eval_basis_of_ne (Ne.symm hbj) hb, mul_zero]
    · intro h; exact absurd hjs h
  rw [← key c, ← key c', hc _ hd, hc' _ hd]

/-- C16: when the last collocation point is 1, `D` selects the last stage. -/
theorem C16_D_selects_last {points : List ℝ} (hn : (0 :: points).Nodup)
    (hl : points.getLast? = some 1) {j : Nat} (hj : j < points.length + 1) :
    (generateButcherIntegral points).D j = if j = points.length then 1 else 0 := by
  refine C15_unique hn _ (fun p => p.eval 1) (fun p hp => C15_end_value hn hp)
    (fun j => if j = points.length then 1 else 0) (fun p _ => ?_) hj
  rw [Finset.sum_eq_single points.length]
  · have : node points points.length = 1 := by
      have hne : points ≠ [] := by rintro rfl; simp at hl
      obtain ⟨n, hlen⟩ := Nat.exists_eq_succ_of_ne_zero (fun h => hne (List.length_eq_zero_iff.1 h))
      rw [List.getLast?_eq_getElem?] at hl
      simp only [node, hlen, List.getD_eq_getElem?_getD, List.getElem?_cons_succ]
      rw [hlen] at hl
      simp only [Nat.succ_eq_add_one, Nat.add_sub_cancel] at hl
      rw [hl]; rfl
    rw [if_pos rfl, one_mul, this]
  · intro b _ hb
    rw [if_neg hb, zero_mul]
  · intro h; exact absurd (Finset.mem_range.2 (Nat.lt_succ_self _)) h

/-- The hypotheses hold for the two-point Radau nodes 1/3, 1 and the polynomial `t²`. -/
example : (0 :: [1 / 3, 1] : List ℝ).Nodup ∧ (X ^ 2 : ℝ[X]).natDegree ≤ ([1 / 3, 1] : List ℝ).length
    ∧ ([1 / 3, 1] : List ℝ).getLast? = some 1 := by
  refine ⟨by norm_num, by simp, by simp⟩

/-- The coefficients are the textbook ones: for the nodes 1/3, 1 the weights are 0, 3/4, 1/4. -/
example : (generateButcherIntegral [1 / 3, 1]).B 0 = 0 ∧
    (generateButcherIntegral [1 / 3, 1]).B 1 = 3 / 4 ∧
    (generateButcherIntegral [1 / 3, 1]).B 2 = 1 / 4 := by
  refine ⟨?_, ?_, ?_⟩ <;>
  norm_num [generateButcherIntegral, lagrangeCoeff, List.range_succ, npConvolve, addPad, npPolyint,
    npPolyint.go, npPolyval]

end Nosnoc
