import Verif.Spec.Feasible
import Verif.Spec.Dcs
/-
Two points, of problems with different representations of the discontinuity, that describe the same
trajectory.
-/
namespace Nosnoc

/-- The variables and parameters that only one of the two representations has: convex coefficients and
multipliers, at the stages, at the ends of elements and at the initial point. -/
def Sym.IsMult : Sym → Prop
  | .st2 _ _ _ _ _ _ => True
  | .lam00 _ _ _ => True
  | _ => False

/-- Same values of everything else: initial state, controls, parameters, global variables, step
lengths, stage states, stage derivatives, end states, algebraic variables, `σ`, slack. -/
def SamePath (env env' : Env) : Prop := ∀ s : Sym, ¬ s.IsMult → env' s = env s

/-- `lam` are Stewart multipliers of the switching values `c`: `-S c = λ - μ`. -/
def StewartLam (S : SMat) (c : Nat → ℝ) (mu : ℝ) (lam : Nat → ℝ) : Prop :=
  ∀ i < S.rows, -∑ n ∈ Finset.range S.cols, S.entry i n * c n = lam i - mu

/-- The convex coefficients of every stage have the product form of the step representation. -/
def ProductWeights (o : PreOpts) (um : UserModel) (env : Env) : Prop :=
  ∀ k e, HasFE o k e → ∀ j < o.nS, ∀ s < um.nSys, ∃ α : Nat → ℝ,
    (∀ n < (um.Smat s).cols, 0 ≤ α n ∧ α n ≤ 1) ∧
    ∀ i < (um.Fmat s).nCols, env (.st2 .theta k e j s i) = regionWeight (um.Smat s) i α

/-- Regions given by a sign matrix without zeros, whose regions cover the space. -/
def FullSigns (um : UserModel) : Prop :=
  um.F.isSome = true ∧ um.gStewartTruthy = false ∧
    ∀ s < um.nSys, (um.Smat s).IsDense ∧ (um.Smat s).Partition

end Nosnoc
