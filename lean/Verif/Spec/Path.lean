import Verif.Spec.Filippov
import Verif.Spec.Feasible
/-
Polygonal solutions of piecewise constant systems, one segment per finite element.
-/
namespace Nosnoc

/-- The data of a trajectory with controls: initial state, controls and parameters by control stage,
global variables, speed of time by control stage, length, end state and convex multipliers of every
segment. -/
structure Path where
  x0 : Nat → ℝ
  u : Nat → Nat → ℝ
  v : Nat → ℝ
  p : Nat → Nat → ℝ
  speed : Nat → ℝ
  H : Nat → Nat → ℝ
  X : Nat → Nat → Nat → ℝ
  theta : Nat → Nat → Nat → Nat → ℝ

/-- The control stage before the beginning of segment `(k, e)`. -/
def prevStage (o : PreOpts) (k e : Nat) : Nat := match prevFe o k e with
  | some (k', _) => k'
  | none => 0

/-- State at the beginning of segment `(k, e)`. -/
def Path.start (T : Path) (o : PreOpts) (k e i : Nat) : ℝ := match prevFe o k e with
  | some (k', e') => T.X k' e' i
  | none => T.x0 i

def Path.startL (T : Path) (o : PreOpts) (um : UserModel) (k e : Nat) : List ℝ :=
  (List.range um.nX).map (T.start o k e)
def Path.endL (T : Path) (um : UserModel) (k e : Nat) : List ℝ := (List.range um.nX).map (T.X k e)
def Path.uL (T : Path) (um : UserModel) (k : Nat) : List ℝ := (List.range um.nU).map (T.u k)
def Path.pL (T : Path) (um : UserModel) (k : Nat) : List ℝ :=
  (List.range (um.nPtv + um.nPgl)).map (T.p k)
def Path.vL (T : Path) (um : UserModel) : List ℝ := (List.range um.nV).map T.v

/-- The velocity on segment `(k, e)`. -/
def Path.slope (T : Path) (um : UserModel) (k e row : Nat) : ℝ :=
  ∑ s ∈ Finset.range um.nSys, ∑ i ∈ Finset.range (um.Fmat s).nCols,
    (um.Fmat s).entry row i [] [] (T.uL um k) (T.pL um k) (T.vL um) * T.theta k e s i

/-- The path is a Filippov solution of the piecewise constant system (with the factor `W` in front of
the right-hand side), its segments fit on the grid, and it respects the bounds and the terminal
constraint of the ocp. -/
structure Path.Solves (T : Path) (um : UserModel) (uo : UserOcp) (o : PreOpts) (W : ℝ) : Prop where
  /-- every segment is straight, with the velocity of its convex combination -/
  step : ∀ k e, HasFE o k e → ∀ i < um.nX,
    T.X k e i = T.start o k e i + T.H k e * (W * T.speed k * T.slope um k e i)
  convex : ∀ k e, HasFE o k e → ∀ s < um.nSys, (∀ i < (um.Fmat s).nCols, 0 ≤ T.theta k e s i) ∧
    ∑ i ∈ Finset.range (um.Fmat s).nCols, T.theta k e s i = 1
  /-- only regions whose closure contains both ends of the segment take part -/
  closed : ∀ k e, HasFE o k e → ∀ s < um.nSys, ∀ i < (um.Fmat s).nCols, T.theta k e s i ≠ 0 →
    um.InClosedRegion s i (T.startL o um k e) (T.pL um k) ∧
    um.InClosedRegion s i (T.endL um k e) (T.pL um k)
  /-- at the beginning of a segment also with the parameters of the control stage it comes from (only a
  condition when time-varying parameters of the switching functions jump) -/
  closedOld : ∀ k e, HasFE o k e → ∀ s < um.nSys, ∀ i < (um.Fmat s).nCols, T.theta k e s i ≠ 0 →
    um.InClosedRegion s i (T.startL o um k e) (T.pL um (prevStage o k e))
  /-- the grid -/
  box : ∀ k e, HasFE o k e →
    (1 - o.gammaH) * nominalH o k ≤ T.H k e ∧ T.H k e ≤ (1 + o.gammaH) * nominalH o k
  equi : o.equidistant = true → ∀ k < o.nStages,
    ∑ e ∈ Finset.range (nfe o k), T.H k e = o.terminalTime / o.nStages
  time : 1 < o.nStages → o.equidistant = false →
    ∑ k ∈ Finset.range o.nStages, ∑ e ∈ Finset.range (nfe o k), T.H k e = o.terminalTime
  noSpeed : o.sot ≠ .local → ∀ k < o.nStages, T.speed k = 1
  speedBox : o.sot = .local → ∀ k < o.nStages, o.sotMin ≤ T.speed k ∧ T.speed k ≤ o.sotMax
  /-- bounds of the user -/
  x0Box : ∀ i < um.nX, getOr uo.lbx ⊥ i ≤ ((T.x0 i : ℝ) : EReal) ∧
    ((T.x0 i : ℝ) : EReal) ≤ getOr uo.ubx ⊤ i
  xBox : ∀ k e, HasFE o k e → ∀ i < um.nX, getOr uo.lbx ⊥ i ≤ ((T.X k e i : ℝ) : EReal) ∧
    ((T.X k e i : ℝ) : EReal) ≤ getOr uo.ubx ⊤ i
  uBox : ∀ k < o.nStages, ∀ i < um.nU, getOr uo.lbu ⊥ i ≤ ((T.u k i : ℝ) : EReal) ∧
    ((T.u k i : ℝ) : EReal) ≤ getOr uo.ubu ⊤ i
  vBox : ∀ i < um.nV, getOr uo.lbv ⊥ i ≤ ((T.v i : ℝ) : EReal) ∧
    ((T.v i : ℝ) : EReal) ≤ getOr uo.ubv ⊤ i
  path : ∀ k e, HasFE o k e → (e + 1 = nfe o k ∨ o.gPathAtFe = true) → ∀ i < uo.nGPath,
    getOr uo.lbg 0 i ≤ ((uo.gPath i (T.endL um k e) (T.uL um k) (T.pL um k) (T.vL um) : ℝ) : EReal) ∧
    ((uo.gPath i (T.endL um k e) (T.uL um k) (T.pL um k) (T.vL um) : ℝ) : EReal) ≤ getOr uo.ubg 0 i
  term : ∀ i < uo.nGTerminal, uo.gTerminal i (T.endL um (o.nStages - 1) (nfe o (o.nStages - 1) - 1))
    (T.pL um (o.nStages - 1)) (T.vL um) = 0

/-- The problem asks for nothing a trajectory could violate besides the above: no user algebraic
equations, no path complementarities, no path constraints at Runge-Kutta stages, no time freezing, no
step equilibration by constraints; a mode in which complementary values are feasible for `σ = 0`, and a
slack that may be zero. -/
structure PlainProblem (o : Opts) (um : UserModel) (uo : UserOcp) : Prop where
  noGz : um.gz.len = 0
  noComp : uo.gPathComp = []
  stage : o.gPathAtStg = true → uo.nGPath = 0
  freeze : o.timeFreezing = false
  stepEq : o.stepEq ≠ .direct ∧ o.stepEq ≠ .directComplementarity ∧ o.stepEq ≠ .heuristicDeltaHComp
  mode : o.mpcc ≠ .boolean ∧ o.mpcc ≠ .fischerBurmeisterIpAug
  slack : o.mpcc = .elasticIneq ∨ o.mpcc = .elasticEq ∨ o.mpcc = .elasticTwoSided →
    o.sElasticMin ≤ 0 ∧ 0 ≤ o.sElasticMax

end Nosnoc
