import Verif.Spec.Lam00
import Verif.Spec.Dcs
import Verif.Model.Root
/-
Consistent initial points and the multipliers that belong to them.
-/
namespace Nosnoc

/-- A root finder that does what its name says: whenever it returns, the point has the right length
and the residual is zero there.  (It may fail; floating-point tolerance is left out.) -/
def RootFinder.Correct (rf : RootFinder) (n : Nat) : Prop :=
  ∀ r z0 z, rf r z0 = .ok z → z.length = n ∧ ∀ v ∈ r z, v = 0

/-- `z` solves the user's algebraic equations at `x` and `p`, whatever the control. -/
def UserModel.Consistent (um : UserModel) (x z p : List ℝ) : Prop :=
  z.length = um.nZ ∧ ∀ i < um.gz.len, ∀ u, um.gz.entry i x z u p = 0

/-- `l` lists the multipliers of the discontinuous system at `(x, z, p)`: in every conceivable
solution of the stage conditions of every system, the multipliers are the entries of `l`
(Stewart: system by system; Step: for every system the negative, then the positive parts), and every
system has such a solution. -/
structure UserModel.MultipliersAt (um : UserModel) (pss : PssMode) (x z p : List ℝ)
    (l : List ℝ) : Prop where
  stewart : pss = .stewart → ∃ lam : Nat → Nat → ℝ,
    l = (List.range um.nSys).flatMap (fun s => (List.range (um.Fmat s).nCols).map (lam s)) ∧
    ∀ s < um.nSys, 0 < (um.Fmat s).nCols →
      (∃ θ mu, StewartStage (fun i : Fin (um.Fmat s).nCols => um.gVal s i x z p) θ
        (fun i => lam s i) mu) ∧
      ∀ θ lam' mu, StewartStage (fun i : Fin (um.Fmat s).nCols => um.gVal s i x z p) θ lam' mu →
        ∀ i, lam' i = lam s i
  step : pss = .step → ∃ lamN lamP : Nat → Nat → ℝ,
    l = (List.range um.nSys).flatMap (fun s => (List.range (um.cVec s).len).map (lamN s)
      ++ (List.range (um.cVec s).len).map (lamP s)) ∧
    ∀ s < um.nSys,
      (∃ α, StepStage (fun i : Fin (um.cVec s).len => (um.cVec s).entry i x z p) α
        (fun i => lamN s i) (fun i => lamP s i)) ∧
      ∀ α n q, StepStage (fun i : Fin (um.cVec s).len => (um.cVec s).entry i x z p) α n q →
        ∀ i, n i = lamN s i ∧ q i = lamP s i

end Nosnoc
