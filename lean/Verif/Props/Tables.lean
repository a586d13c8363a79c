import Verif.Model.Rk
import Verif.Spec.Tableau
import Mathlib.Tactic.IntervalCases
/-
C20: the Butcher tables are valid.  The table is finite; its 18 entries are checked by the kernel.
-/
namespace Nosnoc

instance (n : Nat) (t : Tableau) : Decidable (ValidTableau n t) :=
  decidable_of_iff
    (t.A.length = n ∧ (∀ row ∈ t.A, row.length = n) ∧ t.b.length = n ∧ t.c.length = n ∧
      (∀ i < n, ∀ j < n, i < j → t.node i < t.node j) ∧
      (∀ i < n, 0 < t.node i ∧ t.node i ≤ 1) ∧ (∀ i < n, 0 < t.w i) ∧
      (∀ i < n, |∑ j ∈ Finset.range n, t.a i j - t.node i| ≤ tabTol) ∧
      (∀ q < t.order,
        |∑ i ∈ Finset.range n, t.w i * t.node i ^ q - 1 / ((q : ℚ) + 1)| ≤ tabTol) ∧
      ∀ i < n, ∀ q < n,
        |∑ j ∈ Finset.range n, t.a i j * t.node j ^ q - t.node i ^ (q + 1) / ((q : ℚ) + 1)|
          ≤ tabTol)
    ⟨fun ⟨a, b, c, d, e, f, g, h, i, j⟩ => ⟨a, b, c, d, e, f, g, h, i, j⟩,
     fun ⟨a, b, c, d, e, f, g, h, i, j⟩ => ⟨a, b, c, d, e, f, g, h, i, j⟩⟩

set_option maxRecDepth 4000 in
/-- C20: every returned tableau has matching shapes, increasing nodes in `(0, 1]`, positive weights,
row sums `c`, and satisfies the quadrature conditions up to its order and the stage order `n_s`, up
to `1e-11`. -/
theorem C20_valid {n : Nat} {s : IrkScheme} {t : Tableau} (h : generateButcher n s = .ok t) :
    ValidTableau n t := by
  unfold generateButcher at h
  split at h <;> split at h <;> cases h <;> decide +kernel

/-- C20: the returned order is `2 n_s - 1` (Radau IIA) or `2 n_s` (Gauss-Legendre). -/
theorem C20_order {n : Nat} {s : IrkScheme} {t : Tableau} (h : generateButcher n s = .ok t) :
    t.order = schemeOrder n s := by
  unfold generateButcher at h
  split at h <;> split at h <;> cases h <;> rfl

/-- C20: Radau tables are stiffly accurate (the last row of `A` is exactly `b`) and end at 1. -/
theorem C20_radau_stiffly_accurate {n : Nat} {t : Tableau}
    (h : generateButcher n .radauIIA = .ok t) :
    t.A.getLast? = some t.b ∧ t.c.getLast? = some 1 := by
  unfold generateButcher at h
  simp only at h
  split at h <;> cases h <;> decide +kernel

/-- C20: Gauss tables do not end at 1; the last node stays away from it by more than 1%. -/
theorem C20_gauss_interior {n : Nat} {t : Tableau}
    (h : generateButcher n .gaussLegendre = .ok t) :
    ∃ c, t.c.getLast? = some c ∧ c < 99 / 100 := by
  unfold generateButcher at h
  simp only at h
  split at h <;> cases h <;> exact ⟨_, rfl, by decide +kernel⟩

/-- C20: tables exist exactly for `n_s` from 1 to 9. -/
theorem C20_range (n : Nat) (s : IrkScheme) :
    (∃ t, generateButcher n s = .ok t) ↔ 1 ≤ n ∧ n ≤ 9 := by
  constructor
  · rintro ⟨t, h⟩
    unfold generateButcher at h
    split at h <;> split at h <;> first | omega | cases h
  · rintro ⟨h1, h2⟩
    interval_cases n <;> cases s <;> exact ⟨_, rfl⟩

/-- C20: outside that range RADAU_IIA raises NotImplementedError, GAUSS_LEGENDRE an
UnboundLocalError. -/
theorem C20_outside {n : Nat} (h : ¬ (1 ≤ n ∧ n ≤ 9)) :
    generateButcher n .radauIIA = .error .notImplemented ∧
    generateButcher n .gaussLegendre = .error .unboundLocal := by
  obtain rfl | ⟨m, rfl⟩ : n = 0 ∨ ∃ m, n = m + 10 := by
    rcases Nat.eq_zero_or_pos n with h0 | h0
    · exact Or.inl h0
    · exact Or.inr ⟨n - 10, by omega⟩
  · exact ⟨rfl, rfl⟩
  · exact ⟨rfl, rfl⟩

/-- A case: the five-stage Gauss table. -/
example : ∃ t, generateButcher 5 .gaussLegendre = .ok t ∧ t.order = 10 := ⟨_, rfl, rfl⟩

end Nosnoc
