import Verif.Spec.Trajectory
/-
Discrete trajectories in the Step representation (C137): the weights of the regions are products of the values of
step functions.
-/
namespace Nosnoc

/-- `a k e j s n` is the value of the step function of switching function `n` of subsystem `s` at Runge-Kutta point
`j` of element `(k, e)`: it lies between 0 and 1, the weight of every region is the product belonging to its row of
`S`, a positive value requires that the switching function is nowhere negative on the element (its beginning and its
Runge-Kutta points), and a value below 1 that it is nowhere positive. -/
structure Traj.StepWeights (T : Traj) (a : Nat → Nat → Nat → Nat → Nat → ℝ) (um : UserModel) (o : PreOpts) :
    Prop where
  unit : ∀ k e, HasFE o k e → ∀ j < o.nS, ∀ s < um.nSys, ∀ n < (um.cVec s).len,
    0 ≤ a k e j s n ∧ a k e j s n ≤ 1
  weight : ∀ k e, HasFE o k e → ∀ j < o.nS, ∀ s < um.nSys, ∀ i < (um.Fmat s).nCols,
    T.theta k e j s i = regionWeight (um.Smat s) i (a k e j s)
  pos : ∀ k e, HasFE o k e → ∀ j < o.nS, ∀ s < um.nSys, ∀ n < (um.cVec s).len, a k e j s n ≠ 0 →
    ∀ j' < o.nS, 0 ≤ (um.cVec s).entry n (T.stageL um k e j') [] (T.pL um k)
  neg : ∀ k e, HasFE o k e → ∀ j < o.nS, ∀ s < um.nSys, ∀ n < (um.cVec s).len, a k e j s n ≠ 1 →
    ∀ j' < o.nS, (um.cVec s).entry n (T.stageL um k e j') [] (T.pL um k) ≤ 0
  posStart : ∀ k e, HasFE o k e → ∀ j < o.nS, ∀ s < um.nSys, ∀ n < (um.cVec s).len, a k e j s n ≠ 0 →
    0 ≤ (um.cVec s).entry n (T.startL o um k e) [] (T.pL um (prevStage o k e))
  negStart : ∀ k e, HasFE o k e → ∀ j < o.nS, ∀ s < um.nSys, ∀ n < (um.cVec s).len, a k e j s n ≠ 1 →
    (um.cVec s).entry n (T.startL o um k e) [] (T.pL um (prevStage o k e)) ≤ 0

end Nosnoc
