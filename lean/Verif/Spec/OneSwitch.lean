import Verif.Spec.Path
import Verif.Spec.Dcs
/-
Simulation problems with one switching function (C98).
-/
namespace Nosnoc

/-- A simulation with one switching function and piecewise constant vector fields, at least two finite
elements per control stage, `gamma_h = 1` (element lengths between zero and twice the nominal length), no
speed-of-time variables, and nothing but bounds on controls and global variables that could be violated. -/
structure OneSwitch (um : UserModel) (uo : UserOcp) (po : PreOpts) : Prop where
  sys : um.nSys = 1
  one : (um.Smat 0).cols = 1
  dense : (um.Smat 0).IsDense
  part : (um.Smat 0).Partition
  cols : (um.Fmat 0).nCols = (um.Smat 0).rows
  pc : um.PiecewiseConstant
  gamma : po.gammaH = 1
  time : 0 ≤ po.terminalTime
  speed : po.sot ≠ .local
  stages : po.nStages ≠ 0
  elems : ∀ k < po.nStages, 2 ≤ nfe po k
  xfree : ∀ i < um.nX, getOr uo.lbx ⊥ i = ⊥ ∧ getOr uo.ubx ⊤ i = ⊤
  noPath : uo.nGPath = 0
  noTerm : uo.nGTerminal = 0

end Nosnoc
