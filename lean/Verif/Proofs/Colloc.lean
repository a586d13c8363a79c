import Verif.Model.Rk
import Mathlib.LinearAlgebra.Lagrange
import Mathlib.Algebra.Polynomial.Derivative
import Mathlib.Analysis.SpecialFunctions.Integrals.Basic
import Mathlib.Analysis.Calculus.Deriv.Polynomial
/-
Helper lemmas: the numpy polynomial routines compute with polynomials.
-/
namespace Nosnoc
open Polynomial

/-- The polynomial of a coefficient list, highest degree first. -/
noncomputable def toPoly : List ℝ → ℝ[X]
  | [] => 0
  | a :: l => C a * X ^ l.length + toPoly l

theorem npPolyval_eq (l : List ℝ) (x : ℝ) : npPolyval l x = (toPoly l).eval x := by
  have h : ∀ (l : List ℝ) (acc : ℝ),
      l.foldl (fun acc a => acc * x + a) acc = acc * x ^ l.length + (toPoly l).eval x := by
    intro l
    induction l with
    | nil => intro acc; simp [toPoly]
    | cons a l ih =>
      intro acc
      rw [List.foldl_cons, ih]
      simp [toPoly]
      ring
  unfold npPolyval
  rw [h]
  simp

theorem toPoly_map_mul (c : ℝ) (l : List ℝ) : toPoly (l.map (c * ·)) = C c * toPoly l := by
  induction l with
  | nil => simp [toPoly]
  | cons a l ih => simp [toPoly, ih, mul_add, mul_assoc]

theorem toPoly_map_div (c : ℝ) (l : List ℝ) : toPoly (l.map (· / c)) = C c⁻¹ * toPoly l := by
  have : (fun x : ℝ => x / c) = fun x => c⁻¹ * x := by funext x; rw [div_eq_mul_inv, mul_comm]
  rw [this, toPoly_map_mul]

theorem length_addPad (u v : List ℝ) : (addPad u v).length = max u.length v.length := by
  induction u generalizing v with
  | nil => cases v <;> simp [addPad]
  | cons a u ih =>
    cases v with
    | nil => simp [addPad]
    | cons b v => simp [addPad, ih]

/-- Convolution with a two-element list: multiplication by a linear factor. -/
theorem length_convolve (l : List ℝ) (a b : ℝ) (h : l ≠ []) :
    (npConvolve l [a, b]).length = l.length + 1 := by
  induction l with
  | nil => exact absurd rfl h
  | cons x l ih =>
    rw [npConvolve, length_addPad]
    cases l with
    | nil => simp [npConvolve]
    | cons y l =>
      simp only [List.length_cons, List.map_cons, List.map_nil] at ih ⊢
      rw [ih (by simp)]
      simp

theorem toPoly_addPad {u v : List ℝ} (h : u.length ≤ v.length) :
    toPoly (addPad u v) = toPoly u * X ^ (v.length - u.length) + toPoly v := by
  induction u generalizing v with
  | nil => cases v <;> simp [addPad, toPoly]
  | cons a u ih =>
    cases v with
    | nil => simp at h
    | cons b v =>
      simp only [List.length_cons, Nat.add_le_add_iff_right] at h
      simp only [addPad, toPoly, length_addPad, ih h, List.length_cons, Nat.add_sub_add_right,
        Nat.max_eq_right h]
      have e : (X : ℝ[X]) ^ v.length = X ^ u.length * X ^ (v.length - u.length) := by
        rw [← pow_add]; congr 1; omega
      rw [C_add, e]
      ring

theorem toPoly_cons_zero (l : List ℝ) : toPoly (0 :: l) = toPoly l := by simp [toPoly]

theorem toPoly_convolve (l : List ℝ) (a b : ℝ) :
    toPoly (npConvolve l [a, b]) = toPoly l * (C a * X + C b) := by
  induction l with
  | nil => simp [npConvolve, toPoly]
  | cons x l ih =>
    rw [npConvolve]
    cases l with
    | nil =>
      simp [npConvolve, addPad, toPoly]
      ring
    | cons y l =>
      have hl := length_convolve (y :: l) a b (by simp)
      rw [toPoly_addPad (by simp [hl]), toPoly_map_mul, toPoly_cons_zero, ih, List.length_cons, hl]
      simp only [toPoly, List.length_cons, List.length_map, List.length_nil]
      have e : (X : ℝ[X]) ^ (l.length + 1 + 1 + 1 - (0 + 1 + 1)) = X ^ (l.length + 1) := by
        congr 1
      rw [e]
      ring

theorem toPoly_polyder (l : List ℝ) : toPoly (npPolyder l) = derivative (toPoly l) := by
  induction l with
  | nil => simp [npPolyder, toPoly]
  | cons a l ih =>
    cases l with
    | nil => simp [npPolyder, toPoly]
    | cons b l =>
      have hlen : ∀ l : List ℝ, (npPolyder l).length = l.length - 1 := by
        intro l
        induction l with
        | nil => rfl
        | cons a l ih =>
          cases l with
          | nil => rfl
          | cons b l => simp [npPolyder, ih]
      rw [npPolyder, toPoly, ih, hlen]
      conv_rhs => rw [toPoly]
      simp only [derivative_add, derivative_C_mul, derivative_X_pow, List.length_cons,
        Nat.add_sub_cancel, C_mul]
      push_cast
      simp only [C_add, C_1, map_natCast]
      ring

theorem toPoly_append_zero (l : List ℝ) : toPoly (l ++ [0]) = toPoly l * X := by
  induction l with
  | nil => simp [toPoly]
  | cons a l ih =>
    simp only [List.cons_append, toPoly, ih, List.length_append, List.length_cons, List.length_nil,
      zero_add]
    ring

theorem derivative_polyint (l : List ℝ) : derivative (toPoly (npPolyint l)) = toPoly l := by
  unfold npPolyint
  rw [toPoly_append_zero]
  have hlen : ∀ l : List ℝ, (npPolyint.go l).length = l.length := by
    intro l
    induction l with
    | nil => rfl
    | cons a l ih => simp [npPolyint.go, ih]
  induction l with
  | nil => simp [npPolyint.go, toPoly]
  | cons a l ih =>
    rw [npPolyint.go, toPoly, toPoly, hlen, add_mul, derivative_add, ih, mul_assoc, ← pow_succ,
      derivative_C_mul, derivative_X_pow, Nat.add_sub_cancel]
    congr 1
    rw [← mul_assoc]
    congr 1
    have h : ((l.length : ℝ) + 1) ≠ 0 := by positivity
    have : ((↑(l.length + 1) : ℝ) : ℝ) = (l.length : ℝ) + 1 := by push_cast; rfl
    rw [this, ← C_mul, div_mul_cancel₀ _ h]

theorem polyint_zero (l : List ℝ) : (toPoly (npPolyint l)).eval 0 = 0 := by
  unfold npPolyint
  rw [toPoly_append_zero]
  simp

theorem polyint_integral (l : List ℝ) :
    (toPoly (npPolyint l)).eval 1 = ∫ x in (0 : ℝ)..1, (toPoly l).eval x := by
  have := intervalIntegral.integral_eq_sub_of_hasDerivAt (a := 0) (b := 1)
    (f := fun x => (toPoly (npPolyint l)).eval x) (f' := fun x => (toPoly l).eval x)
    (fun x _ => by
      have := (toPoly (npPolyint l)).hasDerivAt x
      rwa [derivative_polyint] at this)
    ((toPoly l).differentiable.continuous.intervalIntegrable _ _)
  rw [this, polyint_zero, sub_zero]

/-! ### Lagrange polynomials -/

theorem toPoly_lagrange (t : List ℝ) (j : Nat) :
    toPoly (lagrangeCoeff t j)
      = Lagrange.basis (Finset.range t.length) (fun r => t.getD r 0) j := by
  have h : ∀ n, toPoly ((List.range n).foldl (fun coeff r =>
      if r = j then coeff
      else (npConvolve coeff [1, -(t.getD r 0)]).map (· / (t.getD j 0 - t.getD r 0))) [1])
      = Lagrange.basis (Finset.range n) (fun r => t.getD r 0) j := by
    intro n
    induction n with
    | zero => simp [toPoly, Lagrange.basis]
    | succ n ih =>
      rw [List.range_succ, List.foldl_append, List.foldl_cons, List.foldl_nil]
      unfold Lagrange.basis at ih ⊢
      by_cases hn : n = j
      · subst hn
        rw [if_pos rfl, ih, Finset.range_add_one, Finset.erase_insert_eq_erase]
      · rw [if_neg hn, toPoly_map_div, toPoly_convolve, ih, Finset.range_add_one,
          Finset.erase_insert_of_ne (by exact hn), Finset.prod_insert (by simp)]
        unfold Lagrange.basisDivisor
        simp only [C_1, one_mul, C_neg]
        ring
  exact h t.length

/-- A polynomial of degree less than the number of distinct nodes is the combination of the Lagrange
polynomials with its values at the nodes. -/
theorem interpolation {t : List ℝ} (ht : t.Nodup) {p : ℝ[X]} (hp : p.degree < t.length) :
    p = ∑ j ∈ Finset.range t.length, C (p.eval (t.getD j 0)) * toPoly (lagrangeCoeff t j) := by
  have hinj : Set.InjOn (fun r => t.getD r 0) (Finset.range t.length : Set Nat) := by
    intro a ha b hb hab
    simp only [Finset.coe_range, Set.mem_Iio] at ha hb
    simp only [List.getD_eq_getElem?_getD, List.getElem?_eq_getElem ha,
      List.getElem?_eq_getElem hb, Option.getD_some] at hab
    exact (List.Nodup.getElem_inj_iff ht).1 hab
  have := Lagrange.eq_interpolate (f := p) (s := Finset.range t.length) hinj (by simpa using hp)
  refine this.trans ?_
  rw [Lagrange.interpolate_apply]
  refine Finset.sum_congr rfl fun j _ => ?_
  rw [toPoly_lagrange]

end Nosnoc
