import Verif.Spec.Relax
import Verif.Spec.Results
/-
What it means that a reported trajectory follows the vector fields of the regions it lies in (C108).
-/
namespace Nosnoc

/-- A reported trajectory of a piecewise constant system follows the regions it lies in up to `ε`: take any
finite element, and for every subsystem a region in which the reported state at the beginning of the element
(with `ends`: or at its end) lies with distance at least `δ` to the other regions.  Then the reported state
moves over this element by the reported step length times (`W` times) the sum of the vector fields of these
regions, up to an error of (step length) * (number of regions) * `ε / δ` * (largest difference to the vector
fields of other regions).  `p k` are the parameters of control stage `k`. -/
def FollowsRegions (o : Opts) (um : UserModel) (p : Nat → List ℝ) (ends : Prop) (W ε : ℝ)
    (res : Results) : Prop :=
  ∀ k < o.nStages, ∀ e < o.nfeAfter.getD k 0, ∃ (x x' u v : List ℝ) (h : ℝ),
    res.xTraj[(o.nfeAfter.take k).sum + e]? = some x ∧
    res.xTraj[(o.nfeAfter.take k).sum + e + 1]? = some x' ∧
    res.timeSteps[(o.nfeAfter.take k).sum + e]? = some h ∧
    res.uList[k]? = some u ∧ res.vGlobal = [v] ∧
    ∀ (δ : ℝ) (reg : Nat → Nat), 0 < δ →
      (∀ s < um.nSys, reg s < (um.Fmat s).nCols ∧
        (um.DeepIn s (reg s) δ x [] (p k) ∨ ends ∧ um.DeepIn s (reg s) δ x' [] (p k))) →
      ∀ row < um.nX, ∀ M : ℝ,
        (∀ s < um.nSys, ∀ i < (um.Fmat s).nCols,
          |(um.Fmat s).entry row i [] [] u (p k) v - (um.Fmat s).entry row (reg s) [] [] u (p k) v| ≤ M) →
        |x'.getD row 0 - (x.getD row 0
            + h * W * ∑ s ∈ Finset.range um.nSys, (um.Fmat s).entry row (reg s) [] [] u (p k) v)|
          ≤ |h| * W * ((∑ s ∈ Finset.range um.nSys, selConst o um s (reg s)) * (ε / δ) * M)

end Nosnoc
