import Mathlib.Analysis.SpecialFunctions.Pow.Real
import Verif.Model.Opts
/-
What each MPCC mode imposes on one complementarity pair `Σ xs ⟂ y`, as mathematics.
-/
namespace Nosnoc

/-- The Fischer-Burmeister function, relaxed with `σ²`. -/
noncomputable def fischerBurmeister (a b σ : ℝ) : ℝ := a + b - Real.sqrt (a ^ 2 + b ^ 2 + σ ^ 2)

/-- The relation imposed by the mode on values `xs` (whose sum is complementary to `y`), with
homotopy parameters `σ`, `τ` and elastic variable `s`. -/
def CompSat (o : Opts) (σ τ s : ℝ) (xs : List ℝ) (y : ℝ) : Prop :=
  match o.mpcc with
  | .scholtesIneq => xs.sum * y ≤ σ
  | .scholtesEq => xs.sum * y = σ
  | .elasticIneq => xs.sum * y ≤ s
  | .elasticEq => xs.sum * y = s
  | .elasticTwoSided => -s ≤ xs.sum * y ∧ xs.sum * y ≤ s
  | .fischerBurmeister => (xs.map fun x => fischerBurmeister x y σ).sum = 0
  | .fischerBurmeisterIpAug => (xs.map fun x => fischerBurmeister x y σ).sum = 0 ∧
      o.fbAug1 * (xs.sum - σ) * Real.sqrt τ = 0 ∧ o.fbAug1 * (y - σ) * Real.sqrt τ = 0 ∧
      o.fbAug2 * (xs.map fun x => fischerBurmeister x y σ).sum
        * Real.sqrt (1 + (xs.sum - y) ^ 2) = 0
  | .boolean => ∃ b : ℝ, 0 ≤ b ∧ b ≤ 1 ∧
      -(100000 * b) ≤ y ∧ y ≤ 100000 * b ∧
      -(100000 * (1 - b)) ≤ xs.sum ∧ xs.sum ≤ 100000 * (1 - b)

end Nosnoc
