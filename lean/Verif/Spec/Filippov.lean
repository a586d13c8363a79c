import Verif.Spec.Dcs
import Verif.Spec.Names
import Verif.Spec.Dynamics
import Verif.Spec.Tableau
/-
Filippov solutions of the user's discontinuous system (models without algebraic variables), and what a
piecewise constant system is.
-/
namespace Nosnoc
open Polynomial

/-- `x` lies in the closure of region `i` of system `s`: no switching function has the sign opposite to
the one row `i` of `S` asks for. -/
def UserModel.InClosedRegion (um : UserModel) (s i : Nat) (x p : List ℝ) : Prop :=
  ∀ n < (um.Smat s).cols, 0 ≤ (um.Smat s).entry i n * (um.cVec s).entry n x [] p

/-- `y` belongs to the Filippov set at `x`: for every system a convex combination of the vector fields
(columns of `F`) of the regions whose closure contains `x`; the systems are added. -/
def UserModel.InFilippov (um : UserModel) (x u p v : List ℝ) (y : Nat → ℝ) : Prop :=
  ∃ θ : Nat → Nat → ℝ,
    (∀ s < um.nSys, (∀ i < (um.Fmat s).nCols, 0 ≤ θ s i) ∧
      ∑ i ∈ Finset.range (um.Fmat s).nCols, θ s i = 1 ∧
      ∀ i < (um.Fmat s).nCols, θ s i ≠ 0 → um.InClosedRegion s i x p) ∧
    ∀ row < um.nX, y row = ∑ s ∈ Finset.range um.nSys, ∑ i ∈ Finset.range (um.Fmat s).nCols,
      (um.Fmat s).entry row i x [] u p v * θ s i

/-- A piecewise constant system: no algebraic variables, vector fields that do not depend on the state
(they may depend on controls and parameters), switching functions affine in the state. -/
structure UserModel.PiecewiseConstant (um : UserModel) : Prop where
  noZ : um.nZ = 0
  F : ∀ s < um.nSys, ∀ row i x x' u p v,
    (um.Fmat s).entry row i x [] u p v = (um.Fmat s).entry row i x' [] u p v
  c : ∀ s < um.nSys, ∀ n < (um.Smat s).cols, ∀ p, ∃ (a : Nat → ℝ) (b : ℝ), ∀ x,
    (um.cVec s).entry n x [] p = b + ∑ i ∈ Finset.range um.nX, a i * x.getD i 0

/-- The weights of the integration scheme: with the differential representations those of the table
returned by `generate_butcher_tableu`, with INTEGRAL those of the interpolatory quadrature rule of the
collocation points.  They are nonnegative (true of Radau IIA and Gauss-Legendre). -/
structure SchemeWeights (colloc : IrkScheme → Nat → List ℝ) (o : Opts) (b : Nat → ℝ) : Prop where
  nonneg : ∀ j < o.nS, 0 ≤ b j
  table : o.irkRep ≠ .integral → ∀ t, generateButcher o.nS o.scheme = .ok t →
    ∀ j < o.nS, b j = ((t.w j : ℚ) : ℝ)
  quad : o.irkRep = .integral → ∀ p : ℝ[X], p.natDegree ≤ o.nS → p.eval 1 - p.eval 0
    = ∑ j ∈ Finset.range o.nS, b j * (derivative p).eval ((colloc o.scheme o.nS).getD j 0)

/-- Beginning of element `(k, e)` on the (numerical) time grid. -/
noncomputable def tStart (o : PreOpts) (env : Env) (k e : Nat) : ℝ :=
  ∑ k' ∈ Finset.range k, ∑ e' ∈ Finset.range (nfe o k'), hVal o k' e' env
    + ∑ e' ∈ Finset.range e, hVal o k e' env

/-- Assumptions on the sign matrices. -/
def SignsOk (o : Opts) (um : UserModel) : Prop :=
  ∀ s < um.nSys, (um.Smat s).Partition ∧
    (o.pss = .stewart → um.gStewartTruthy = false ∧ (um.Smat s).IsDense) ∧
    (o.pss = .step → (um.Smat s).IsSign)

/-- The initial multipliers are those of the initial state: `g = λ - μ` (Stewart), `c = λᵖ - λⁿ` (Step). -/
def UserModel.InitialMultipliers (um : UserModel) (po : PreOpts) (d : Dims) (env : Env) : Prop :=
  match po.pss with
  | .stewart => ∀ s < um.nSys, ∃ mu, ∀ i < (um.Fmat s).nCols,
      um.gVal s i ((List.range d.nX).map fun i => env (.x0 i)) [] (pVal d 0 env)
        = env (.lam00 .lam s i) - mu
  | .step => ∀ s < um.nSys, ∀ i < (um.cVec s).len,
      (um.cVec s).entry i ((List.range d.nX).map fun i => env (.x0 i)) [] (pVal d 0 env)
        = env (.lam00 .lamP s i) - env (.lam00 .lamN s i)

/-- The switching functions do not change from one control stage to the next. -/
def UserModel.SameSwitching (um : UserModel) (po : PreOpts) (d : Dims) (env : Env) : Prop :=
  ∀ k < po.nStages, ∀ s < um.nSys, ∀ n x,
    (um.cVec s).entry n x [] (pVal d k env) = (um.cVec s).entry n x [] (pVal d 0 env)

end Nosnoc
