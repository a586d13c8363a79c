import Verif.Model.Oscillator
/-
The exact trajectory of the oscillator example (C133).
-/
namespace Nosnoc

/-- Inside the circle: the spiral of `A2` through `(1, 0)` at time 1. -/
noncomputable def oscBefore (t : ℝ) : Fin 2 → ℝ :=
  ![Real.exp (t - 1) * Real.cos (2 * Real.pi * t), Real.exp (t - 1) * Real.sin (2 * Real.pi * t)]

/-- Outside: the spiral of `A1` through `(1, 0)` at time 1. -/
noncomputable def oscAfter (t : ℝ) : Fin 2 → ℝ :=
  ![Real.exp (t - 1) * Real.cos (2 * Real.pi * (t - 1)), -Real.exp (t - 1) * Real.sin (2 * Real.pi * (t - 1))]

/-- The trajectory from `(1 / e, 0)`. -/
noncomputable def oscSol (t : ℝ) : Fin 2 → ℝ := if t ≤ 1 then oscBefore t else oscAfter t

end Nosnoc
