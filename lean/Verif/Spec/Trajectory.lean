import Verif.Spec.Path
import Mathlib.Algebra.Polynomial.Derivative
/-
Discrete trajectories of switched systems (C132): one Runge-Kutta step per finite element, every one within its
regions.
-/
namespace Nosnoc
open Polynomial

/-- A discrete trajectory: initial state, controls, global variables, parameters, speed of time, and for every
finite element `(k, e)` its length, the states `X k e j` at the Runge-Kutta points (the last one is its end) and
the weights `theta k e j s i` of region `i` of subsystem `s` there. -/
structure Traj where
  x0 : Nat → ℝ
  u : Nat → Nat → ℝ
  v : Nat → ℝ
  p : Nat → Nat → ℝ
  speed : Nat → ℝ
  H : Nat → Nat → ℝ
  X : Nat → Nat → Nat → Nat → ℝ
  theta : Nat → Nat → Nat → Nat → Nat → ℝ

/-- State at the beginning of element `(k, e)`. -/
def Traj.start (T : Traj) (o : PreOpts) (k e i : Nat) : ℝ := match prevFe o k e with
  | some (k', e') => T.X k' e' (o.nS - 1) i
  | none => T.x0 i

def Traj.startL (T : Traj) (o : PreOpts) (um : UserModel) (k e : Nat) : List ℝ :=
  (List.range um.nX).map (T.start o k e)
def Traj.stageL (T : Traj) (um : UserModel) (k e j : Nat) : List ℝ := (List.range um.nX).map (T.X k e j)
def Traj.uL (T : Traj) (um : UserModel) (k : Nat) : List ℝ := (List.range um.nU).map (T.u k)
def Traj.pL (T : Traj) (um : UserModel) (k : Nat) : List ℝ :=
  (List.range (um.nPtv + um.nPgl)).map (T.p k)
def Traj.vL (T : Traj) (um : UserModel) : List ℝ := (List.range um.nV).map T.v

/-- The velocity at a Runge-Kutta point. -/
def Traj.slope (T : Traj) (um : UserModel) (k e j row : Nat) : ℝ :=
  ∑ s ∈ Finset.range um.nSys, ∑ i ∈ Finset.range (um.Fmat s).nCols,
    (um.Fmat s).entry row i (T.stageL um k e j) [] (T.uL um k) (T.pL um k) (T.vL um) * T.theta k e j s i

/-- The discrete trajectory solves the system: every finite element is a step of the chosen Runge-Kutta scheme
with the velocities of the convex combinations, only regions to whose closure the element belongs take part, and
grid, bounds, path and terminal constraints are respected. -/
structure Traj.Solves (T : Traj) (colloc : IrkScheme → Nat → List ℝ) (um : UserModel) (uo : UserOcp) (o : PreOpts) :
    Prop where
  /-- INTEGRAL: there is a collocation polynomial -/
  collocation : o.irkRep = .integral → ∀ k e, HasFE o k e → ∀ i < um.nX, ∃ q : ℝ[X], q.natDegree ≤ o.nS ∧
    q.eval 0 = T.start o k e i ∧ ∀ j < o.nS, q.eval ((colloc o.scheme o.nS).getD j 0) = T.X k e j i ∧
      (derivative q).eval ((colloc o.scheme o.nS).getD j 0) = T.H k e * (T.speed k * T.slope um k e j i)
  /-- DIFFERENTIAL, DIFFERENTIAL_LIFT_X: the Runge-Kutta equations with the Butcher table -/
  rungeKutta : o.irkRep ≠ .integral → ∀ t, generateButcher o.nS o.scheme = .ok t → ∀ k e, HasFE o k e →
    ∀ i < um.nX, ∀ j < o.nS, T.X k e j i = T.start o k e i
      + T.H k e * ∑ r ∈ Finset.range o.nS, ((t.a j r : ℚ) : ℝ) * (T.speed k * T.slope um k e r i)
  convex : ∀ k e, HasFE o k e → ∀ j < o.nS, ∀ s < um.nSys, (∀ i < (um.Fmat s).nCols, 0 ≤ T.theta k e j s i) ∧
    ∑ i ∈ Finset.range (um.Fmat s).nCols, T.theta k e j s i = 1
  /-- only regions whose closure contains all Runge-Kutta points of the element take part -/
  closed : ∀ k e, HasFE o k e → ∀ j < o.nS, ∀ s < um.nSys, ∀ i < (um.Fmat s).nCols, T.theta k e j s i ≠ 0 →
    ∀ j' < o.nS, um.InClosedRegion s i (T.stageL um k e j') (T.pL um k)
  /-- and its beginning (with the parameters of the control stage it comes from) -/
  closedStart : ∀ k e, HasFE o k e → ∀ j < o.nS, ∀ s < um.nSys, ∀ i < (um.Fmat s).nCols, T.theta k e j s i ≠ 0 →
    um.InClosedRegion s i (T.startL o um k e) (T.pL um (prevStage o k e))
  /-- the grid -/
  box : ∀ k e, HasFE o k e →
    (1 - o.gammaH) * nominalH o k ≤ T.H k e ∧ T.H k e ≤ (1 + o.gammaH) * nominalH o k
  equi : o.equidistant = true → ∀ k < o.nStages,
    ∑ e ∈ Finset.range (nfe o k), T.H k e = o.terminalTime / o.nStages
  time : 1 < o.nStages → o.equidistant = false →
    ∑ k ∈ Finset.range o.nStages, ∑ e ∈ Finset.range (nfe o k), T.H k e = o.terminalTime
  noSpeed : o.sot ≠ .local → ∀ k < o.nStages, T.speed k = 1
  speedBox : o.sot = .local → ∀ k < o.nStages, o.sotMin ≤ T.speed k ∧ T.speed k ≤ o.sotMax
  /-- bounds of the user; in DIFFERENTIAL the states inside an element are no variables -/
  xBox : ∀ k e, HasFE o k e → ∀ j < o.nS, o.irkRep ≠ .differential ∨ j + 1 = o.nS → ∀ i < um.nX, getOr uo.lbx ⊥ i ≤ ((T.X k e j i : ℝ) : EReal) ∧
    ((T.X k e j i : ℝ) : EReal) ≤ getOr uo.ubx ⊤ i
  uBox : ∀ k < o.nStages, ∀ i < um.nU, getOr uo.lbu ⊥ i ≤ ((T.u k i : ℝ) : EReal) ∧
    ((T.u k i : ℝ) : EReal) ≤ getOr uo.ubu ⊤ i
  vBox : ∀ i < um.nV, getOr uo.lbv ⊥ i ≤ ((T.v i : ℝ) : EReal) ∧
    ((T.v i : ℝ) : EReal) ≤ getOr uo.ubv ⊤ i
  path : ∀ k e, HasFE o k e → (e + 1 = nfe o k ∨ o.gPathAtFe = true) → ∀ i < uo.nGPath,
    getOr uo.lbg 0 i ≤
      ((uo.gPath i (T.stageL um k e (o.nS - 1)) (T.uL um k) (T.pL um k) (T.vL um) : ℝ) : EReal) ∧
    ((uo.gPath i (T.stageL um k e (o.nS - 1)) (T.uL um k) (T.pL um k) (T.vL um) : ℝ) : EReal) ≤ getOr uo.ubg 0 i
  term : ∀ i < uo.nGTerminal,
    uo.gTerminal i (T.stageL um (o.nStages - 1) (nfe o (o.nStages - 1) - 1) (o.nS - 1))
      (T.pL um (o.nStages - 1)) (T.vL um) = 0

end Nosnoc
