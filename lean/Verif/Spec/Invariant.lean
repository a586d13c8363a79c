import Verif.Spec.UserDisc
import Verif.Spec.Filippov
/-
Functions of the state that are conserved, or do not increase, in every region (C121, C122).
-/
namespace Nosnoc
open Polynomial

/-- The derivative of a function of the state with gradient `q x` along the vector field is `g`, whatever
the region.  Given by `F`: the derivative along a column does not depend on the column; with several
subsystems, whose vector fields are added, `g` is the sum of their contributions.  Given by `f_x`: it does
not depend on `alpha`. -/
def UserModel.AlongField (um : UserModel) (q : List ℝ → Nat → ℝ) (g : (x z u p v : List ℝ) → ℝ) : Prop :=
  match um.F, um.fx with
  | some _, _ => ∃ gs : Nat → (x z u p v : List ℝ) → ℝ,
      (∀ s < um.nSys, ∀ i < (um.Fmat s).nCols, ∀ x z u p v,
        ∑ row ∈ Finset.range um.nX, q x row * (um.Fmat s).entry row i x z u p v = gs s x z u p v) ∧
      ∀ x z u p v, ∑ s ∈ Finset.range um.nSys, gs s x z u p v = g x z u p v
  | none, some f => ∀ x α z u p v, ∑ row ∈ Finset.range um.nX, q x row * f.entry row x α z u p v = g x z u p v
  | none, none => False

/-- The derivative of a function with gradient `q x` is not positive, whatever the regions of the
subsystems. -/
def UserModel.Descends (um : UserModel) (q : List ℝ → Nat → ℝ) : Prop :=
  um.F.isSome = true ∧ ∀ r : Nat → Nat, (∀ s < um.nSys, r s < (um.Fmat s).nCols) → ∀ x z u p v,
    ∑ s ∈ Finset.range um.nSys, ∑ row ∈ Finset.range um.nX, q x row * (um.Fmat s).entry row (r s) x z u p v ≤ 0

/-- The function `Σ c_i x_i` of the state. -/
def linFun (n : Nat) (c : Nat → ℝ) (x : List ℝ) : ℝ := ∑ i ∈ Finset.range n, c i * x.getD i 0

/-- The function `Σ M_ij x_i x_j + Σ c_i x_i` of the state. -/
def quadFun (n : Nat) (M : Nat → Nat → ℝ) (c : Nat → ℝ) (x : List ℝ) : ℝ :=
  ∑ i ∈ Finset.range n, ∑ j ∈ Finset.range n, M i j * x.getD i 0 * x.getD j 0 + linFun n c x

/-- Its gradient. -/
def quadGrad (n : Nat) (M : Nat → Nat → ℝ) (c : Nat → ℝ) (x : List ℝ) (i : Nat) : ℝ :=
  ∑ j ∈ Finset.range n, (M i j + M j i) * x.getD j 0 + c i

/-- The points are those of a quadrature rule on `[0, 1]` that is exact up to degree `2 n - 1`: the
Gauss-Legendre points. -/
def GaussPoints (points : List ℝ) (n : Nat) : Prop :=
  ∃ b : Nat → ℝ, ∀ p : ℝ[X], p.natDegree ≤ 2 * n → p.eval 1 - p.eval 0
    = ∑ j ∈ Finset.range n, b j * (derivative p).eval (points.getD j 0)

/-- A convex function with gradient `q`: it lies above its tangents. -/
def ConvexWith (n : Nat) (V : List ℝ → ℝ) (q : List ℝ → Nat → ℝ) : Prop :=
  ∀ x y, x.length = n → y.length = n →
    V x + ∑ i ∈ Finset.range n, q x i * (y.getD i 0 - x.getD i 0) ≤ V y

/-- A Lyapunov function of the discontinuous system: convex, and not increasing along any velocity of the
Filippov set. -/
def UserModel.Lyapunov (um : UserModel) (V : List ℝ → ℝ) (q : List ℝ → Nat → ℝ) : Prop :=
  ConvexWith um.nX V q ∧ ∀ x u p v y, x.length = um.nX → um.InFilippov x u p v y →
    ∑ i ∈ Finset.range um.nX, q x i * y i ≤ 0

end Nosnoc
