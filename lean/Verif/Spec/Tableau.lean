import Mathlib.Algebra.BigOperators.Group.Finset.Basic
import Mathlib.Data.Rat.BigOperators
import Mathlib.Algebra.Order.Group.Unbundled.Abs
import Verif.Model.RkTables
import Verif.Model.Basic
/-
What a valid Butcher tableau of a collocation method is: the simplifying assumptions `B(order)` and
`C(n_s)` of Runge-Kutta theory, with the tolerance of the decimal literals.
-/
namespace Nosnoc

/-- Entries of a tableau. -/
def Tableau.a (t : Tableau) (i j : Nat) : ℚ := (t.A.getD i []).getD j 0
def Tableau.w (t : Tableau) (i : Nat) : ℚ := t.b.getD i 0
def Tableau.node (t : Tableau) (i : Nat) : ℚ := t.c.getD i 0

/-- Rounding tolerance: the literals have 15 decimals. -/
def tabTol : ℚ := 1 / 10 ^ 11

/-- The tableau `t` is, up to rounding, that of an `n`-stage collocation method of order
`t.order`. -/
structure ValidTableau (n : Nat) (t : Tableau) : Prop where
  /-- shapes -/
  rows : t.A.length = n
  cols : ∀ row ∈ t.A, row.length = n
  weights : t.b.length = n
  nodes : t.c.length = n
  /-- nodes increase and lie in `(0, 1]` -/
  increasing : ∀ i < n, ∀ j < n, i < j → t.node i < t.node j
  inside : ∀ i < n, 0 < t.node i ∧ t.node i ≤ 1
  /-- weights are positive -/
  positive : ∀ i < n, 0 < t.w i
  /-- row sums are the nodes -/
  rowSum : ∀ i < n, |∑ j ∈ Finset.range n, t.a i j - t.node i| ≤ tabTol
  /-- `B(order)`: `t^q` is integrated exactly for `q < order` -/
  quadrature : ∀ q < t.order,
    |∑ i ∈ Finset.range n, t.w i * t.node i ^ q - 1 / ((q : ℚ) + 1)| ≤ tabTol
  /-- `C(n)`: every stage integrates `t^q` exactly for `q < n` -/
  stageOrder : ∀ i < n, ∀ q < n,
    |∑ j ∈ Finset.range n, t.a i j * t.node j ^ q - t.node i ^ (q + 1) / ((q : ℚ) + 1)| ≤ tabTol

/-- The order of the scheme with `n` stages. -/
def schemeOrder (n : Nat) : IrkScheme → Nat
  | .radauIIA => 2 * n - 1
  | .gaussLegendre => 2 * n

end Nosnoc
