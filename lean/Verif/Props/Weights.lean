import Verif.Props.Tables
import Verif.Proofs.Equiv
import Verif.Spec.Invariant
import Verif.Spec.Dynamics
import Verif.Witness.Slide
import Mathlib.LinearAlgebra.Lagrange
import Mathlib.Analysis.Calculus.Deriv.Polynomial
import Mathlib.Analysis.Calculus.Deriv.MeanValue
/-
C20: the weights of all schemes are not negative.  The hypothesis `SchemeWeights` of the theorems about Filippov
solutions and descent is met by every scheme.
-/
namespace Nosnoc
open Polynomial

/-- A quadrature rule with `n` distinct points that is exact up to degree `2 n - 2` has no negative weights. -/
theorem quad_weights_nonneg {points : List ℝ} {n : Nat} {b : Nat → ℝ} (hl : points.length = n)
    (hd : points.Nodup) (hb : ∀ p : ℝ[X], p.natDegree ≤ 2 * n - 1 → p.eval 1 - p.eval 0
      = ∑ j ∈ Finset.range n, b j * (derivative p).eval (points.getD j 0)) {j : Nat} (hj : j < n) : 0 ≤ b j := by
  have hinj : Set.InjOn (fun i => points.getD i 0) (Finset.range n) := by
    intro i hi i' hi' h
    have hi : i < points.length := by simpa [hl] using hi
    have hi' : i' < points.length := by simpa [hl] using hi'
    simp only [List.getD_eq_getElem?_getD, List.getElem?_eq_getElem hi, List.getElem?_eq_getElem hi',
      Option.getD_some] at h
    exact (hd.getElem_inj_iff).1 h
  set q := Lagrange.basis (Finset.range n) (fun i => points.getD i 0) j with hq
  have hj' : j ∈ Finset.range n := Finset.mem_range.2 hj
  have hdeg : q.natDegree ≤ n - 1 := by
    have := Lagrange.degree_basis (s := Finset.range n) (v := fun i => points.getD i 0) hinj hj'
    rw [Finset.card_range] at this
    exact natDegree_le_of_degree_le this.le
  obtain ⟨Q, hQ, -, hQd⟩ := exists_antiderivative (q ^ 2)
  have hQd' : Q.natDegree ≤ 2 * n - 1 := by
    have : (q ^ 2).natDegree ≤ 2 * (n - 1) := natDegree_pow_le.trans (by omega)
    omega
  have h1 := hb Q hQd'
  rw [hQ, Finset.sum_eq_single j] at h1
  · rw [eval_pow, Lagrange.eval_basis_self hinj hj', one_pow, mul_one] at h1
    rw [← h1, sub_nonneg]
    have hm : Monotone fun x => Q.eval x := monotone_of_deriv_nonneg Q.differentiable fun x => by
      rw [Polynomial.deriv, hQ, eval_pow]
      positivity
    exact hm zero_le_one
  · intro i hi hij
    have := Lagrange.eval_basis_of_ne (v := fun i => points.getD i 0) (Ne.symm hij) hi
    rw [← hq] at this
    rw [eval_pow, show eval (points.getD i 0) q = 0 from this]
    simp
  · exact fun h => absurd hj' h

/-- C20: every scheme has weights that are not negative: the weights of its table, or, with INTEGRAL, those of
the quadrature rule at the collocation points, which is exact up to degree `2 n_s - 2` (Radau IIA points, and
Gauss-Legendre points, for which it is exact for one degree more). -/
theorem C20_weights {colloc : IrkScheme → Nat → List ℝ} {o : Opts} (hn : 0 < o.nS) {t : Tableau}
    (ht : o.irkRep ≠ .integral → generateButcher o.nS o.scheme = .ok t)
    (hc : o.irkRep = .integral → CollocOk (colloc o.scheme o.nS) o.nS ∧
      ∃ b : Nat → ℝ, ∀ p : ℝ[X], p.natDegree ≤ 2 * o.nS - 1 → p.eval 1 - p.eval 0
        = ∑ j ∈ Finset.range o.nS, b j * (derivative p).eval ((colloc o.scheme o.nS).getD j 0)) :
    ∃ b, SchemeWeights colloc o b := by
  by_cases hr : o.irkRep = .integral
  · obtain ⟨hc, b, hb⟩ := hc hr
    exact ⟨b, fun j hj => quad_weights_nonneg hc.length (List.nodup_cons.1 hc.nodup).2 hb hj,
      fun h => absurd hr h, fun _ p hp => hb p (by omega)⟩
  · refine ⟨fun j => ((t.w j : ℚ) : ℝ), fun j hj => ?_, fun _ t' ht' j _ => ?_, fun h => absurd h hr⟩
    · exact_mod_cast ((C20_valid (ht hr)).positive j hj).le
    · rw [ht hr] at ht'
      cases ht'
      rfl

/-- C20: the points `1/3, 1`, and the shipped tables with all numbers of stages. -/
example : (∃ b, SchemeWeights demoColloc (slideOpts 1 2) b) ∧
    ∀ (n : Nat) (s : IrkScheme), 1 ≤ n ∧ n ≤ 9 → ∃ b, SchemeWeights demoColloc
      { Opts.default with irkRep := .differential, nS := n, scheme := s } b := by
  refine ⟨C20_weights (t := radau2) (by simp [slideOpts, Opts.default]) (fun h => absurd rfl h) fun _ =>
    ⟨(slide_colloc 1 2).1, fun j => if j = 0 then 3 / 4 else 1 / 4, fun p hp => ?_⟩, fun n s hn => ?_⟩
  · have hp : p.natDegree ≤ 3 := hp
    rw [p.as_sum_range' 4 (by omega)]
    simp [Finset.sum_range_succ, slideOpts, Opts.default, demoColloc]
    ring
  · obtain ⟨t, ht⟩ := (C20_range n s).2 hn
    exact C20_weights (t := t) (by show 0 < n; omega) (fun _ => ht) (fun h => IrkRep.noConfusion h)

end Nosnoc
