import Verif.Spec.Names
/-
The complementarity pairs of the discontinuity model: which multiplier belongs to which convex
coefficient.  Stewart: `θ_i ⟂ λ_i` for every region `i` of every subsystem.  Step: `α_i ⟂ λⁿ_i` and
`1 - α_i ⟂ λᵖ_i` for every switching function `i` of every subsystem.
-/
namespace Nosnoc

/-- Name of a complementarity pair (subsystem `s`, component `i`). -/
inductive Pair
  /-- `θ_{s,i} ⟂ λ_{s,i}` -/
  | region (s i : Nat)
  /-- `α_{s,i} ⟂ λⁿ_{s,i}` -/
  | neg (s i : Nat)
  /-- `1 - α_{s,i} ⟂ λᵖ_{s,i}` -/
  | pos (s i : Nat)
  deriving DecidableEq

/-- The pairs that exist for the given mode and dimensions. -/
def IsPair (o : PreOpts) (d : Dims) : Pair → Prop
  | .region s i => o.pss = .stewart ∧ s < d.nSys ∧ i < d.nF s
  | .neg s i => o.pss = .step ∧ s < d.nSys ∧ i < d.nC s
  | .pos s i => o.pss = .step ∧ s < d.nSys ∧ i < d.nC s

/-- The convex coefficient of the pair at stage `j` of element `(k, e)`. -/
def thetaAt (k e j : Nat) (env : Env) : Pair → ℝ
  | .region s i => env (.st2 .theta k e j s i)
  | .neg s i => env (.st2 .alpha k e j s i)
  | .pos s i => 1 - env (.st2 .alpha k e j s i)

/-- The multiplier of the pair at point `j` of element `(k, e)`. -/
def lamAt (k e j : Nat) (env : Env) : Pair → ℝ
  | .region s i => env (.st2 .lam k e j s i)
  | .neg s i => env (.st2 .lamN k e j s i)
  | .pos s i => env (.st2 .lamP k e j s i)

/-- The multiplier at the initial point (a parameter). -/
def lam00At (env : Env) : Pair → ℝ
  | .region s i => env (.lam00 .lam s i)
  | .neg s i => env (.lam00 .lamN s i)
  | .pos s i => env (.lam00 .lamP s i)

/-- The multiplier at the beginning of element `(k, e)`: the last one of the previous element, the
initial one for the first element. -/
def lamStart (o : PreOpts) (k e : Nat) (env : Env) (q : Pair) : ℝ := match prevFe o k e with
  | some (k', e') => lamAt k' e' (lastLam o k' e') env q
  | none => lam00At env q

/-- All pairs in the order of the code's vectors. -/
def pairList (o : PreOpts) (d : Dims) : List Pair :=
  match o.pss with
  | .stewart => (List.range d.nSys).flatMap fun s => (List.range (d.nF s)).map (.region s)
  | .step => (List.range d.nSys).flatMap (fun s => (List.range (d.nC s)).map (.neg s))
      ++ (List.range d.nSys).flatMap (fun s => (List.range (d.nC s)).map (.pos s))

/-- Number of points of element `(k, e)` that carry multipliers: the stages, and the end point when
it has multipliers of its own. -/
def nLamPts (o : PreOpts) (k e : Nat) : Nat := o.nS + extraPt o k e

/-- Sum over all multipliers of the pair in element `(k, e)`, including the one at its beginning. -/
noncomputable def sumLam (o : PreOpts) (k e : Nat) (env : Env) (q : Pair) : ℝ :=
  ((List.range (nLamPts o k e)).map fun j => lamAt k e j env q).sum + lamStart o k e env q

/-- Sum over all stages of the coefficient of the pair. -/
noncomputable def sumTheta (o : PreOpts) (k e : Nat) (env : Env) (q : Pair) : ℝ :=
  ((List.range o.nS).map fun j => thetaAt k e j env q).sum

/-- The switch indicator `ν` between elements `(k, e-1)` and `(k, e)`. -/
noncomputable def nuOf (o : PreOpts) (d : Dims) (k e : Nat) (env : Env) : ℝ :=
  ((pairList o d).map fun q => sumLam o k (e - 1) env q * sumLam o k e env q
    + sumTheta o k (e - 1) env q * sumTheta o k e env q).prod

end Nosnoc
