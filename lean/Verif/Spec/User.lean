import Mathlib.Algebra.BigOperators.Group.Finset.Basic
import Verif.Model.Model
/-
The user's model as mathematics: regions, switching functions, right-hand sides.  This vocabulary
refers only to the data the user passes in.
-/
namespace Nosnoc

/-- The user's `F[s]`, `c[s]`, `S[s]`, `g_Stewart[s]` (read for existing `s` only). -/
def UserModel.Fmat (um : UserModel) (s : Nat) : UMat :=
  (um.F.getD []).getD s ⟨0, fun _ _ _ _ _ _ _ => 0⟩
def UserModel.cVec (um : UserModel) (s : Nat) : UVec :=
  (um.c.getD []).getD s ⟨0, fun _ _ _ _ => 0⟩
def UserModel.Smat (um : UserModel) (s : Nat) : SMat :=
  (um.S.getD []).getD s ⟨0, 0, fun _ _ => 0⟩
def UserModel.gSt (um : UserModel) (s : Nat) : UVec :=
  (um.gStewart.getD []).getD s ⟨0, fun _ _ _ _ => 0⟩

/-- Stewart's indicator function of region `i` of system `s`: given by the user or `-(S c)_i`. -/
def UserModel.gVal (um : UserModel) (s i : Nat) (x z p : List ℝ) : ℝ :=
  if um.gStewartTruthy then (um.gSt s).entry i x z p
  else -∑ k ∈ Finset.range (um.Smat s).cols, (um.Smat s).entry i k * (um.cVec s).entry k x z p

/-- The multi-affine weight of region `i` of system `s` in the step representation:
product over the switching functions used by row `i` of `S` of `α_k` (for `S_ik = 1`) or `1 - α_k`
(for `S_ik = -1`), in general `(1 - S_ik)/2 + S_ik α_k`. -/
noncomputable def regionWeight (S : SMat) (i : Nat) (α : Nat → ℝ) : ℝ :=
  ∏ k ∈ (Finset.range S.cols).filter (fun k => S.entry i k ≠ 0),
    ((1 - S.entry i k) / 2 + S.entry i k * α k)

/-- Right-hand side with convex multipliers `θ s i`. -/
def UserModel.rhsStewart (um : UserModel) (row : Nat) (x z u p v : List ℝ) (θ : Nat → Nat → ℝ) : ℝ :=
  ∑ s ∈ Finset.range um.nSys, ∑ i ∈ Finset.range (um.Fmat s).nCols,
    (um.Fmat s).entry row i x z u p v * θ s i

/-- Right-hand side with step multipliers `α s k`: the region weights replace `θ`. -/
noncomputable def UserModel.rhsStep (um : UserModel) (row : Nat) (x z u p v : List ℝ)
    (α : Nat → Nat → ℝ) : ℝ :=
  um.rhsStewart row x z u p v fun s i => regionWeight (um.Smat s) i (α s)

end Nosnoc
