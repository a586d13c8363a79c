import Mathlib.Data.Real.Basic
import Mathlib.Data.Rat.Cast.Defs
import Verif.Model.Basic
import Verif.Model.RkTables
/-
Model of nosnoc/rk_utils.py: tableaus, collocation coefficients, explicit RK4.
-/
namespace Nosnoc

/-- nosnoc/rk_utils.py:49-1052 `generate_butcher_tableu`.  For RADAU_IIA an `n_s` outside 1..9
raises NotImplementedError (540-541); for GAUSS_LEGENDRE there is no `else`, so the final
`return A, b, c, order` raises UnboundLocalError. -/
def generateButcher (nS : Nat) : IrkScheme → Except PyErr Tableau
  | .radauIIA => match nS with
      | 1 => .ok radau1 | 2 => .ok radau2 | 3 => .ok radau3 | 4 => .ok radau4 | 5 => .ok radau5
      | 6 => .ok radau6 | 7 => .ok radau7 | 8 => .ok radau8 | 9 => .ok radau9
      | _ => .error .notImplemented
  | .gaussLegendre => match nS with
      | 1 => .ok gauss1 | 2 => .ok gauss2 | 3 => .ok gauss3 | 4 => .ok gauss4 | 5 => .ok gauss5
      | 6 => .ok gauss6 | 7 => .ok gauss7 | 8 => .ok gauss8 | 9 => .ok gauss9
      | _ => .error .unboundLocal

/-! numpy polynomial routines: coefficient lists, highest degree first. -/

/-- Elementwise sum of two coefficient lists aligned at the front (padding with zeros). -/
def addPad : List ℝ → List ℝ → List ℝ
  | [], v => v
  | u, [] => u
  | a :: u, b :: v => (a + b) :: addPad u v

/-- `np.convolve(a, v)`: `out[n] = Σ_m a[m] v[n-m]` (used at rk_utils.py:1073, there with a
two-element `v`; numpy rejects an empty `v`, which never occurs). -/
def npConvolve : List ℝ → List ℝ → List ℝ
  | [], _ => []
  | a :: as, v => addPad (v.map (a * ·)) (0 :: npConvolve as v)

/-- `np.polyval(p, x)` by Horner's rule (rk_utils.py:1076, 1081, 1085). -/
def npPolyval (p : List ℝ) (x : ℝ) : ℝ := p.foldl (fun acc a => acc * x + a) 0

/-- `np.polyder(p)` (rk_utils.py:1079): coefficient of degree `d` becomes `d * a` at degree `d-1`. -/
noncomputable def npPolyder : List ℝ → List ℝ
  | [] => []
  | [_] => []
  | a :: b :: p => ((b :: p).length : ℝ) * a :: npPolyder (b :: p)

/-- `np.polyint(p)` (rk_utils.py:1084), integration constant 0. -/
noncomputable def npPolyint (p : List ℝ) : List ℝ := go p ++ [0]
where
  /-- coefficients of positive degree -/
  go : List ℝ → List ℝ
    | [] => []
    | a :: p => a / ((p.length : ℝ) + 1) :: go p

/-- rk_utils.py:1070-1074: the coefficients of the `j`-th Lagrange polynomial for the nodes `t`,
by the loop over `r` (`coeff = np.convolve(coeff, [1, -tau_root[r]]) / (tau_root[j] - tau_root[r])`). -/
noncomputable def lagrangeCoeff (t : List ℝ) (j : Nat) : List ℝ :=
  (List.range t.length).foldl (fun coeff r =>
    if r = j then coeff
    else (npConvolve coeff [1, -(t.getD r 0)]).map (· / (t.getD j 0 - t.getD r 0))) [1]

/-- The values returned by `generate_butcher_tableu_integral`. -/
structure Colloc where
  B : Nat → ℝ
  C : Nat → Nat → ℝ
  D : Nat → ℝ
  /-- `tau_root`, including the leading 0. -/
  tau : List ℝ

/-- nosnoc/rk_utils.py:1055-1086 `generate_butcher_tableu_integral`.  `points` is the result of
`ca.collocation_points(n_s, …)` (external; constrained by hypotheses in the theorems).
Arrays are functions, read only at indices `0..n_s`. -/
noncomputable def generateButcherIntegral (points : List ℝ) : Colloc where
  tau := 0 :: points
  D := fun j => npPolyval (lagrangeCoeff (0 :: points) j) 1
  C := fun j r => npPolyval (npPolyder (lagrangeCoeff (0 :: points) j)) ((0 :: points).getD r 0)
  B := fun j => npPolyval (npPolyint (lagrangeCoeff (0 :: points) j)) 1

/-! Explicit RK4 -/

/-- Componentwise operations on numeric states. -/
def sAdd (a b : List ℝ) : List ℝ := List.zipWith (· + ·) a b
def sSmul (c : ℝ) (a : List ℝ) : List ℝ := a.map (c * ·)

/-- One step of rk_utils.py:21-25 (= 38-43):
`x + dt/6 * (k1 + 2 k2 + 2 k3 + k4)`. -/
noncomputable def rk4Step (f : List ℝ → List ℝ) (dt : ℝ) (x : List ℝ) : List ℝ :=
  let k1 := f x
  let k2 := f (sAdd x (sSmul (dt / 2) k1))
  let k3 := f (sAdd x (sSmul (dt / 2) k2))
  let k4 := f (sAdd x (sSmul dt k3))
  sAdd x (sSmul (dt / 6) (sAdd (sAdd (sAdd k1 (sSmul 2 k2)) (sSmul 2 k3)) k4))

/-- nosnoc/rk_utils.py:30-46 `rk4_on_timegrid(f, x0, t_grid)`: rows `x[0..len(t_grid)]`;
`t_grid` holds step lengths. -/
noncomputable def rk4OnTimegrid (f : List ℝ → List ℝ) (x0 : List ℝ) : List ℝ → List (List ℝ)
  | [] => [x0]
  | dt :: ts => x0 :: rk4OnTimegrid f (rk4Step f dt x0) ts

/-- nosnoc/rk_utils.py:7-27 `rk4(f, x0, tf, n_steps)`: states (first return value).
`n_steps = 0` divides by zero. -/
noncomputable def rk4 (f : List ℝ → List ℝ) (x0 : List ℝ) (tf : ℝ) (nSteps : Nat) :
    Except PyErr (List (List ℝ)) :=
  if nSteps = 0 then .error .zeroDivision
  else .ok (go (tf / nSteps) x0 nSteps)
where
  /-- the loop of lines 18-25, recursively -/
  go (dt : ℝ) (x : List ℝ) : Nat → List (List ℝ)
    | 0 => [x]
    | n + 1 => x :: go dt (rk4Step f dt x) n

/-- The second return value of `rk4`: `np.linspace(0, tf, n_steps + 1)` (line 12). -/
noncomputable def rk4Times (tf : ℝ) (nSteps : Nat) : List ℝ :=
  (List.range (nSteps + 1)).map fun (i : ℕ) => (i : ℝ) * (tf / nSteps)

end Nosnoc
