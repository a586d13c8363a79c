import Mathlib.Algebra.BigOperators.Fin
import Verif.Spec.UserDisc
/-
The two representations of a discontinuous right-hand side at one point, as mathematics: regions given
by a sign matrix, the algebraic conditions of Stewart's and of the step representation.
-/
namespace Nosnoc

/-- The switching values `c` lie strictly inside region `i`: every switching function used by row `i` of
`S` has the sign the row asks for. -/
def InRegion (S : SMat) (i : Nat) (c : Nat → ℝ) : Prop :=
  ∀ k < S.cols, S.entry i k ≠ 0 → 0 < S.entry i k * c k

/-- All entries are -1, 0 or 1. -/
def SMat.IsSign (S : SMat) : Prop :=
  ∀ i < S.rows, ∀ k < S.cols, S.entry i k = -1 ∨ S.entry i k = 0 ∨ S.entry i k = 1

/-- All entries are -1 or 1, and no two rows are equal. -/
def SMat.IsDense (S : SMat) : Prop :=
  (∀ i < S.rows, ∀ k < S.cols, S.entry i k = -1 ∨ S.entry i k = 1) ∧
  ∀ i < S.rows, ∀ j < S.rows, i ≠ j → ∃ k < S.cols, S.entry i k ≠ S.entry j k

/-- Any two rows contradict each other: some switching function has opposite signs in them. -/
def SMat.Contradicting (S : SMat) : Prop :=
  ∀ i < S.rows, ∀ j < S.rows, i ≠ j → ∃ k < S.cols, S.entry i k * S.entry j k = -1

/-- Every assignment of signs to the switching functions belongs to exactly one row (the regions cover
the space and do not overlap).  The full sign matrix is the case without zeros. -/
def SMat.Partition (S : SMat) : Prop :=
  ∀ σ : Nat → Bool, ∃! i : Fin S.rows, ∀ k < S.cols, S.entry i k ≠ 0 →
    S.entry i k = if σ k then 1 else -1

/-- Stewart's conditions for the values `g`: `g = λ - μ`, `Σ θ = 1`, `0 ≤ θ ⟂ λ ≥ 0`. -/
structure StewartStage {n : Nat} (g θ lam : Fin n → ℝ) (mu : ℝ) : Prop where
  eq : ∀ i, g i = lam i - mu
  sum : ∑ i, θ i = 1
  theta_nonneg : ∀ i, 0 ≤ θ i
  lam_nonneg : ∀ i, 0 ≤ lam i
  compl : ∀ i, θ i * lam i = 0

/-- The step conditions for the switching values `c`: `c = λᵖ - λⁿ`, `0 ≤ α ⟂ λⁿ ≥ 0`,
`0 ≤ 1 - α ⟂ λᵖ ≥ 0`. -/
structure StepStage {n : Nat} (c α lamN lamP : Fin n → ℝ) : Prop where
  eq : ∀ i, c i = lamP i - lamN i
  alpha_nonneg : ∀ i, 0 ≤ α i
  alpha_le_one : ∀ i, α i ≤ 1
  lamN_nonneg : ∀ i, 0 ≤ lamN i
  lamP_nonneg : ∀ i, 0 ≤ lamP i
  compl_neg : ∀ i, α i * lamN i = 0
  compl_pos : ∀ i, (1 - α i) * lamP i = 0

end Nosnoc
