import Verif.Spec.Filippov
import Verif.Spec.Solve
import Verif.Model.Examples
/-
The analytic solutions of `ẋ = a` for `x < 0`, `ẋ = b` for `x > 0`.
-/
namespace Nosnoc

/-- Both slopes positive: the solution crosses the surface (at time `-x0 / a` if it starts below). -/
noncomputable def crossingSol (a b x0 t : ℝ) : ℝ :=
  if 0 ≤ x0 then x0 + b * t else if t ≤ -x0 / a then x0 + a * t else b * (t - (-x0 / a))

/-- Slopes pointing towards the surface: the solution reaches it and stays. -/
noncomputable def slidingSol (a b x0 t : ℝ) : ℝ :=
  if x0 ≤ 0 then min (x0 + a * t) 0 else max (x0 + b * t) 0

/-- What is needed of the options to get exact results: FESD with polishing on an equidistant grid, EXACT
constraint handling, a Scholtes mode (or Fischer-Burmeister modes applied to every pair), nonnegative step
lengths, a scheme with nonnegative weights, and the right boundary point of elements among the points of the
scheme or SUM_LAMBDAS cross complementarities. -/
structure ExactSimOpts (colloc : IrkScheme → Nat → List ℝ) (o : Opts) : Prop where
  nS : 0 < o.nS
  exact : o.constraintHandling = .exact
  lists : o.nfeAfter.length = o.nStages
  polish : o.polish = true
  fesd : o.useFesd = true
  equidistant : o.equidistant = true
  mode : o.mpcc = .scholtesIneq ∨ o.mpcc = .scholtesEq ∨
    ((o.mpcc = .fischerBurmeister ∨ o.mpcc = .fischerBurmeisterIpAug) ∧ o.crossComp = .complementAll)
  sot : o.sot = .none
  gamma : 0 ≤ o.gammaH ∧ o.gammaH ≤ 1
  weights : ∃ b, SchemeWeights colloc o b
  points : o.irkRep = .integral → CollocOk (colloc o.scheme o.nS) o.nS
  ends : o.crossComp = .sumLambdas ∨
    ∀ t po, ({ o with terminalTime := t } : Opts).preprocess colloc = .ok po → po.rbe = true

/-- What is needed of the options to get results up to a tolerance (the shipped options are of this kind): FESD
without polishing on an equidistant grid, EXACT constraint handling, a Scholtes mode with the automatic number of
homotopy iterations and LINEAR updates, nonnegative step lengths, a scheme with nonnegative weights whose last point
is the end of the element. -/
structure NearSimOpts (colloc : IrkScheme → Nat → List ℝ) (o : Opts) : Prop where
  nS : 0 < o.nS
  exact : o.constraintHandling = .exact
  lists : o.nfeAfter.length = o.nStages
  polish : o.polish = false
  fesd : o.useFesd = true
  equidistant : o.equidistant = true
  mode : o.mpcc = .scholtesIneq ∨ o.mpcc = .scholtesEq
  budget : o.maxIterHomotopy = 0
  rule : o.rule = .linear
  slope : 0 < o.slope ∧ o.slope < 1
  tol : 0 < o.compTol ∧ o.compTol ≤ o.sigma0
  sot : o.sot = .none
  gamma : 0 ≤ o.gammaH ∧ o.gammaH ≤ 1
  weights : ∃ b, SchemeWeights colloc o b
  points : o.irkRep = .integral → CollocOk (colloc o.scheme o.nS) o.nS
  ends : ∀ t po, ({ o with terminalTime := t } : Opts).preprocess colloc = .ok po → po.rbe = true

/-- The largest complementarity residual a successful solve can end with. -/
noncomputable def finalTol (o : Opts) : ℝ := max (o.compTol / √o.slope) o.sigmaN

end Nosnoc
