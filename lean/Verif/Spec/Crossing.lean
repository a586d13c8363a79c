import Mathlib.Algebra.Module.LinearMap.Defs
import Verif.Spec.Switched
/-
Trajectories that cross a switching surface (C131).
-/
namespace Nosnoc

/-- A trajectory that crosses the surface `ψ = 0` at time `ts`, from `ψ < 0`, where the vector field is `fA`, to
`ψ > 0`, where it is `fB`.  `φA` is the part before the crossing and `φB` the part after it, both continued as
solutions of their own vector fields by a time `η`.  Near the crossing point, `ψ` is approximated by the linear
map `G`, and both vector fields point to the side `ψ > 0`. -/
structure Crossing {V : Type*} [NormedAddCommGroup V] [NormedSpace ℝ V] (n : Nat) (D : ℝ) (fA fB : V → V)
    (ψ : V → ℝ) (φA φB : ℝ → V) (G : V →ₗ[ℝ] ℝ) (ts η T α Lψ r vel μ : ℝ) : Prop where
  eta : 0 < η
  alpha : 0 < α
  radius : 0 < r
  lipNonneg : 0 ≤ Lψ
  start : 0 ≤ ts
  horizon : ts + η ≤ T
  before : SmoothSolution n D fA φA 0 (ts + η)
  after : SmoothSolution n D fB φB (ts - η) T
  meet : φA ts = φB ts
  /-- `φA` approaches the surface and goes through it with positive speed -/
  below : ∀ t, 0 ≤ t → t ≤ ts → ψ (φA t) ≤ α * (t - ts)
  above : ∀ t, ts ≤ t → t ≤ ts + η → α * (t - ts) ≤ ψ (φA t)
  /-- `φB` leaves the surface with positive speed and does not come back -/
  away : ∀ t, ts ≤ t → t ≤ T → α * min (t - ts) η ≤ ψ (φB t)
  /-- `ψ` is Lipschitz continuous near the trajectory -/
  lipA : ∀ t y, 0 ≤ t → t ≤ ts + η → ‖y - φA t‖ ≤ r → |ψ y - ψ (φA t)| ≤ Lψ * ‖y - φA t‖
  lipB : ∀ t y, ts ≤ t → t ≤ T → ‖y - φB t‖ ≤ r → |ψ y - ψ (φB t)| ≤ Lψ * ‖y - φB t‖
  /-- near the crossing point `ψ` is nearly linear -/
  linear : ∀ y y', ‖y - φA ts‖ ≤ r → ‖y' - φA ts‖ ≤ r → |ψ y' - ψ y - G (y' - y)| ≤ μ * ‖y' - y‖
  /-- near the crossing point both vector fields point across the surface -/
  acrossA : ∀ y, ‖y - φA ts‖ ≤ r → α ≤ G (fA y) ∧ ‖fA y‖ ≤ vel
  acrossB : ∀ y, ‖y - φA ts‖ ≤ r → α ≤ G (fB y) ∧ ‖fB y‖ ≤ vel
  small : 0 ≤ μ ∧ μ * vel < α

/-- The switching function of a system with one switching function, with the sign it has in region `i`. -/
noncomputable def UserModel.surface (um : UserModel) (i : Nat) (p : List ℝ) (x : Fin um.nX → ℝ) : ℝ :=
  (um.Smat 0).entry i 0 * (um.cVec 0).entry 0 (List.ofFn x) [] p

end Nosnoc
