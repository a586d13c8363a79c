import Verif.Spec.Filippov
/-
Systems with unique solutions.
-/
namespace Nosnoc

/-- The Filippov set-valued right-hand side is one-sided Lipschitz with constant `K` (for the parameters `p`).
`K = 0`: minus the right-hand side is monotone, as for friction, `ẋ = -sign x` and the like. -/
def UserModel.OneSided (um : UserModel) (p : List ℝ) (K : ℝ) : Prop :=
  ∀ (x x' y y' : Nat → ℝ), um.InFilippov ((List.range um.nX).map x) [] p [] y →
    um.InFilippov ((List.range um.nX).map x') [] p [] y' →
    ∑ i ∈ Finset.range um.nX, (x i - x' i) * (y i - y' i) ≤ K * ∑ i ∈ Finset.range um.nX, (x i - x' i) ^ 2

/-- Squared distance of two states. -/
def sqDist (a b : List ℝ) : ℝ := ∑ i ∈ Finset.range a.length, (a.getD i 0 - b.getD i 0) ^ 2

end Nosnoc
