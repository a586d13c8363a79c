import Verif.Spec.UserDisc
import Mathlib.Algebra.Polynomial.Derivative
import Mathlib.Algebra.Polynomial.Eval.Degree
/-
Runge-Kutta and collocation steps, textbook form.
-/
namespace Nosnoc
open Polynomial

/-- State at the beginning of element `(k, e)`: `x0` for the first element, otherwise the state at
the end of the previous element (of the previous control stage if `e = 0`). -/
def startVal (o : PreOpts) (d : Dims) (k e : Nat) (env : Env) : List ℝ :=
  if 0 < e then xEndVal o d k (e - 1) env
  else if 0 < k then xEndVal o d (k - 1) (nfe o (k - 1) - 1) env
  else (List.range d.nX).map fun i => env (.x0 i)

/-- One step of the `n`-stage Runge-Kutta method `(a, b)` of length `h` from `xs` to `xe` with stage
states `X` and stage derivatives `K`, which are the values `f` of the right-hand side. -/
structure RungeKuttaStep (n nX : Nat) (a : Nat → Nat → ℝ) (b : Nat → ℝ) (h : ℝ) (xs : List ℝ)
    (X : Nat → List ℝ) (K f : Nat → Nat → ℝ) (xe : List ℝ) : Prop where
  stage : ∀ j < n, ∀ i < nX,
    (X j).getD i 0 = xs.getD i 0 + h * ∑ r ∈ Finset.range n, a j r * K r i
  slope : ∀ j < n, ∀ i < nX, K j i = f j i
  finish : ∀ i < nX, xe.getD i 0 = xs.getD i 0 + h * ∑ r ∈ Finset.range n, b r * K r i

/-- One collocation step of length `h` from `xs` to `xe` with the given points: each component is a
polynomial on `[0, 1]` of degree at most `n` that starts at `xs`, ends at `xe`, passes through the
stage states and has the right-hand side `h f` as slope there. -/
def CollocationStep (n nX : Nat) (points : List ℝ) (h : ℝ) (xs : List ℝ)
    (X : Nat → List ℝ) (f : Nat → Nat → ℝ) (xe : List ℝ) : Prop :=
  ∀ i < nX, ∃ p : ℝ[X], p.natDegree ≤ n ∧ p.eval 0 = xs.getD i 0 ∧ p.eval 1 = xe.getD i 0 ∧
    ∀ j < n, p.eval (points.getD j 0) = (X j).getD i 0 ∧
      (derivative p).eval (points.getD j 0) = h * f j i

/-- What is assumed about `casadi.collocation_points(n, scheme)`: `n` distinct nonzero points, and
if the last one is within `1e-9` of 1 then it is 1. -/
structure CollocOk (points : List ℝ) (n : Nat) : Prop where
  length : points.length = n
  nodup : (0 :: points).Nodup
  last : ∀ t, points.getLast? = some t → |t - 1| < 1 / 10 ^ 9 → t = 1

end Nosnoc
