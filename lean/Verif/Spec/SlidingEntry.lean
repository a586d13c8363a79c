import Verif.Spec.Crossing
/-
Trajectories that reach a switching surface and slide along it.
-/
namespace Nosnoc

/-- Filippov's sliding vector field for a plane surface with normal `G`: the convex combination of `fA` and `fB` that
is tangential to the surface. -/
noncomputable def slideField {V : Type*} [NormedAddCommGroup V] [NormedSpace ℝ V] (G : V →ₗ[ℝ] ℝ) (fA fB : V → V)
    (y : V) : V :=
  (G (fA y) - G (fB y))⁻¹ • (G (fA y) • fB y - G (fB y) • fA y)

/-- A trajectory that follows `fA` (part `φA`), reaches the plane surface `ψ = 0` from below at the time `ts` and
slides along it afterwards (part `φS`, until `T`); both vector fields point towards the surface there. -/
structure SlidingEntry {V : Type*} [NormedAddCommGroup V] [NormedSpace ℝ V] (n : Nat) (D L : ℝ) (fA fB fS : V → V)
    (ψ : V → ℝ) (φA φS : ℝ → V) (G : V →ₗ[ℝ] ℝ) (ts η T α Lψ r vel : ℝ) : Prop where
  eta : 0 < η
  alpha : 0 < α
  radius : 0 < r
  lipNonneg : 0 ≤ Lψ
  start : 0 ≤ ts
  horizon : ts + η ≤ T
  before : SmoothSolution n D fA φA 0 (ts + η)
  after : SmoothSolution n D fS φS (ts - η) T
  meet : φA ts = φS ts
  /-- `φA` approaches the surface and goes through it with positive speed -/
  below : ∀ t, 0 ≤ t → t ≤ ts → ψ (φA t) ≤ α * (t - ts)
  above : ∀ t, ts ≤ t → t ≤ ts + η → α * (t - ts) ≤ ψ (φA t)
  /-- the surface is plane -/
  plane : ∀ y y', ψ y' - ψ y = G (y' - y)
  normal : ∀ v, |G v| ≤ Lψ * ‖v‖
  /-- near the sliding part both vector fields point towards the surface -/
  inward : ∀ t y, ts - η ≤ t → t ≤ T → ‖y - φS t‖ ≤ r →
    α ≤ G (fA y) ∧ G (fB y) ≤ -α ∧ ‖fA y‖ ≤ vel ∧ ‖fB y‖ ≤ vel
  /-- near the sliding part `fS` is the sliding vector field -/
  sliding : ∀ t y, ts - η ≤ t → t ≤ T → ‖y - φS t‖ ≤ r → fS y = slideField G fA fB y
  lipschitz : ∀ x y, ‖fS x - fS y‖ ≤ L * ‖x - y‖

end Nosnoc
