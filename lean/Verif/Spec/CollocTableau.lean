import Mathlib.LinearAlgebra.Lagrange
import Mathlib.MeasureTheory.Integral.IntervalIntegral.Basic
import Verif.Model.Opts
/-
The Butcher tableau of the collocation method with given points: `a_jr = ∫_0^{t_j} ℓ_r`,
`b_r = ∫_0^1 ℓ_r` with the Lagrange polynomials `ℓ_r` of the points.
-/
namespace Nosnoc

/-- Lagrange polynomial of point `r` (among the collocation points, without 0). -/
noncomputable def collocBasis (points : List ℝ) (r : Nat) : Polynomial ℝ :=
  Lagrange.basis (Finset.range points.length) (fun i => points.getD i 0) r

noncomputable def collocA (points : List ℝ) (j r : Nat) : ℝ :=
  ∫ t in (0 : ℝ)..points.getD j 0, (collocBasis points r).eval t

noncomputable def collocB (points : List ℝ) (r : Nat) : ℝ :=
  ∫ t in (0 : ℝ)..1, (collocBasis points r).eval t

/-- The options with the DIFFERENTIAL representation and the exact collocation tableau of the
points (the tables of the code are this tableau up to rounding, C20). -/
noncomputable def diffForm (o : PreOpts) (points : List ℝ) : PreOpts :=
  { o with irkRep := .differential, aIrk := collocA points, bIrk := collocB points }

end Nosnoc
