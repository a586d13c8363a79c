import Mathlib.Analysis.Calculus.ContDiff.Defs
import Mathlib.Analysis.Calculus.IteratedDeriv.Defs
import Mathlib.Analysis.Calculus.Deriv.Basic
import Mathlib.Analysis.Normed.Group.Constructions
import Verif.Spec.Clock
import Verif.Spec.Results
/-
Smooth solutions of differential equations (C110).
-/
namespace Nosnoc

/-- On `[t0, t1]` the function `φ` solves `φ̇ = f(φ)`, and its time derivative is (the restriction of) an
`n` times continuously differentiable function with derivatives up to order `n` bounded by `D` there. -/
def SmoothSolution {V : Type*} [NormedAddCommGroup V] [NormedSpace ℝ V] (n : Nat) (D : ℝ) (f : V → V)
    (φ : ℝ → V) (t0 t1 : ℝ) : Prop :=
  ∃ G : ℝ → V, ContDiff ℝ n G ∧ (∀ q ≤ n, ∀ t ∈ Set.Icc t0 t1, ‖iteratedDeriv q G t‖ ≤ D) ∧
    ∀ t ∈ Set.Icc t0 t1, G t = f (φ t) ∧ HasDerivWithinAt φ (f (φ t)) (Set.Icc t0 t1) t

/-- The right-hand side is `g` in all regions. -/
def UserModel.SmoothRhs (um : UserModel) (g : Nat → (x z u p v : List ℝ) → ℝ) : Prop :=
  ∀ row < um.nX, um.Unswitched row (g row)

/-- It as a vector field, for given controls, parameters and global variables. -/
def UserModel.field (um : UserModel) (g : Nat → (x z u p v : List ℝ) → ℝ) (u p v : List ℝ)
    (x : Fin um.nX → ℝ) : Fin um.nX → ℝ := fun i => g i (List.ofFn x) [] u p v

/-- A list of numbers as a vector. -/
def toVec (n : Nat) (l : List ℝ) : Fin n → ℝ := fun i => l.getD i 0

/-- `φ` solves the differential equation over all reported finite elements, with the reported controls and
global variables and the parameters `p k` of control stage `k`, and is smooth there. -/
def UserModel.Reference (um : UserModel) (o : Opts) (g : Nat → (x z u p v : List ℝ) → ℝ) (p : Nat → List ℝ)
    (n : Nat) (D : ℝ) (res : Results) (φ : ℝ → Fin um.nX → ℝ) : Prop :=
  ∀ k < o.nStages, ∀ e < o.nfeAfter.getD k 0, ∀ u v t t', res.uList[k]? = some u → res.vGlobal = [v] →
    res.tGrid[(o.nfeAfter.take k).sum + e]? = some t → res.tGrid[(o.nfeAfter.take k).sum + e + 1]? = some t' →
    SmoothSolution n D (um.field g u (p k) v) φ t t'

end Nosnoc
