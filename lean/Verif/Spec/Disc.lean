import Mathlib.Algebra.BigOperators.Group.Finset.Basic
import Verif.Spec.Names
import Verif.Model.Problem
/-
Discretised quantities as expressions in the optimisation variables: stage states, algebraic
variables, controls, parameters.  Like `Verif/Spec/Names.lean`, this is vocabulary for stating
properties.
-/
namespace Nosnoc

/-- State of Runge-Kutta stage `j` of element `(k, e)`: with the DIFFERENTIAL representation
`x_start + h Σ_r a_jr v_r`, otherwise a variable. -/
noncomputable def stageX (o : PreOpts) (d : Dims) (k e j : Nat) : Vec :=
  if o.irkRep = .differential then
    (List.range d.nX).map fun i env => env (startX o k e i) +
      ∑ r ∈ Finset.range o.nS, hVal o k e env * o.aIrk j r * env (.st1 .v k e r i)
  else vars (blk d.nX (.st1 .x k e j))

/-- State at the end of element `(k, e)`. -/
def endState (o : PreOpts) (d : Dims) (k e : Nat) : Vec := vars (blk d.nX (endX o k e))

/-- Algebraic variables at stage `j`, in the order of the model's `z`. -/
def stageZ (o : PreOpts) (d : Dims) (k e j : Nat) : Vec := vars (zSyms o d k e j j)

/-- Controls, parameters and global variables of control stage `k`. -/
def ctrlU (d : Dims) (k : Nat) : Vec := vars (blk d.nU (.u k))
def ctrlP (d : Dims) (k : Nat) : Vec := vars (blk (d.nPtv + d.nPgl) (.pStage k))
def globV (d : Dims) : Vec := vars d.mV

end Nosnoc
