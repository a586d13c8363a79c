import Verif.Spec.Converge
import Verif.Spec.Relax
/-
Solutions that pass through regions one after the other (C111).
-/
namespace Nosnoc

/-- The sum of the vector fields of the regions `reg s`, for given controls, parameters and global variables. -/
noncomputable def UserModel.regionField (um : UserModel) (reg : Nat → Nat) (u p v : List ℝ)
    (x : Fin um.nX → ℝ) : Fin um.nX → ℝ :=
  fun row => ∑ s ∈ Finset.range um.nSys, (um.Fmat s).entry row (reg s) (List.ofFn x) [] u p v

/-- Over the first `N` reported finite elements, `φ` solves the differential equation of the regions `reg k e s`,
with the reported controls and global variables and the parameters `p k` of control stage `k`, and is smooth
there. -/
def UserModel.SwitchedReference (um : UserModel) (o : Opts) (p : Nat → List ℝ) (reg : Nat → Nat → Nat → Nat)
    (N n : Nat) (D : ℝ) (res : Results) (φ : ℝ → Fin um.nX → ℝ) : Prop :=
  ∀ k < o.nStages, ∀ e < o.nfeAfter.getD k 0, (o.nfeAfter.take k).sum + e < N →
    ∀ u v t t', res.uList[k]? = some u → res.vGlobal = [v] →
    res.tGrid[(o.nfeAfter.take k).sum + e]? = some t → res.tGrid[(o.nfeAfter.take k).sum + e + 1]? = some t' →
    SmoothSolution n D (um.regionField (reg k e) u (p k) v) φ t t'

/-- Each of the first `N` reported elements begins (with `ends`: or ends) at a reported state that lies in the
regions `reg k e s` with distance at least `δ` to the others. -/
def UserModel.Passes (um : UserModel) (o : Opts) (p : Nat → List ℝ) (ends : Prop) (reg : Nat → Nat → Nat → Nat)
    (N : Nat) (δ : ℝ) (res : Results) : Prop :=
  ∀ k < o.nStages, ∀ e < o.nfeAfter.getD k 0, (o.nfeAfter.take k).sum + e < N →
    ∀ x x', res.xTraj[(o.nfeAfter.take k).sum + e]? = some x →
    res.xTraj[(o.nfeAfter.take k).sum + e + 1]? = some x' →
    ∀ s < um.nSys, reg k e s < (um.Fmat s).nCols ∧
      (um.DeepIn s (reg k e s) δ x [] (p k) ∨ ends ∧ um.DeepIn s (reg k e s) δ x' [] (p k))

/-- The vector fields of two regions differ by at most `M`. -/
def UserModel.JumpBound (um : UserModel) (M : ℝ) : Prop :=
  ∀ row < um.nX, ∀ s < um.nSys, ∀ i < (um.Fmat s).nCols, ∀ i' < (um.Fmat s).nCols, ∀ x u p v,
    |(um.Fmat s).entry row i x [] u p v - (um.Fmat s).entry row i' x [] u p v| ≤ M

end Nosnoc
