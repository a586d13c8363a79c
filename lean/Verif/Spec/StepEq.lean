import Verif.Spec.Objective
/-
Step equilibration in the user's terms.
-/
namespace Nosnoc

/-- The switching indicator of the pair `q` between the elements `(k, e-1)` and `(k, e)`: the products
of the summed multipliers of the two elements and of the summed coefficients.  It vanishes (for
nonnegative values) iff the pair changes its state between the elements. -/
noncomputable def indicator (o : PreOpts) (k e : Nat) (env : Env) (q : Pair) : ℝ :=
  sumLam o k (e - 1) env q * sumLam o k e env q + sumTheta o k (e - 1) env q * sumTheta o k e env q

/-- Some indicator between the elements `(k, e-1)` and `(k, e)` vanishes. -/
def Switches (o : PreOpts) (d : Dims) (k e : Nat) (env : Env) : Prop :=
  ∃ q, IsPair o d q ∧ indicator o k e env q = 0

/-- All steps of each control stage have the same length. -/
def UniformSteps (o : PreOpts) (env : Env) : Prop :=
  ∀ k e e', HasFE o k e → HasFE o k e' → hVal o k e env = hVal o k e' env

/-- All step lengths have their nominal value `T / (N · N_fe)`. -/
def NominalSteps (o : PreOpts) (env : Env) : Prop :=
  ∀ k e, HasFE o k e → hVal o k e env = o.terminalTime / (o.nStages * nfe o k)

end Nosnoc
