import Verif.Model.World
/-
Notions used in the statements about histories of operations.
-/
namespace Nosnoc

/-- `Q` holds for every operation of the history and the state in which it is done. -/
def Along (colloc : IrkScheme → Nat → List ℝ) (orc : Nat → Oracle) (Q : World → Action → Prop) :
    World → List Action → Prop
  | _, [] => True
  | w, op :: ops => Q w op ∧ Along colloc orc Q (w.step colloc orc op).1 ops

/-- What the user has asked for: the attributes of options object `i` with the user's assignments
only. -/
def assigned (i : Nat) (o : Opts) : List Action → Opts
  | [] => o
  | .assign j f :: ops => assigned i (if j = i then f o else o) ops
  | _ :: ops => assigned i o ops

/-- An assignment whose effect on the other attributes does not depend on `max_iter_homotopy` and
`Nfe_list` (for example the assignment of constants). -/
def Blind (f : Opts → Opts) : Prop := ∀ o k l, ∃ k' l',
  f { o with maxIterHomotopy := k, nfeList := l } = { f o with maxIterHomotopy := k', nfeList := l' }

/-- `opts.Nfe_list = []; opts.max_iter_homotopy = 0`: the default values. -/
def resetDerived (o : Opts) : Opts := { o with nfeList := [], maxIterHomotopy := 0 }

/-- The user does not touch `tol_ipopt` and all options objects have `comp_tol = c`. -/
def UniformTol (c : ℝ) : Action → Prop
  | .newOpts o => o.compTol = c
  | .assign _ f => ∀ o, o.compTol = c → (f o).compTol = c
  | .setTol _ _ => False
  | _ => True

/-- Every construction with model object `i` uses `N_stages = n`. -/
def StagesOnly (i n : Nat) (w : World) : Action → Prop
  | .newSolver oi mi _ => mi = i → ∀ o, w.opts[oi]? = some o → o.nStages = n
  | _ => True

/-- Every construction with ocp object `c` uses a model with these numbers of states, controls and
global variables. -/
def OcpDims (c nX nU nV : Nat) (w : World) : Action → Prop
  | .newSolver _ mi ci => ci = some c → ∀ mo, w.models[mi]? = some mo →
      mo.user.nX = nX ∧ mo.user.nU = nU ∧ mo.user.nV = nV
  | _ => True

/-- The operation does not concern options object `i`, model object `j` and solver `s`, except that
methods of solver `s` may be called. -/
def Apart (i j s : Nat) (w : World) : Action → Prop
  | .assign i' _ => i' ≠ i
  | .newSolver oi mi _ => oi ≠ i ∧ mi ≠ j
  | .set s' _ _ => s' = s ∨ ∀ so, w.solvers[s']? = some so → so.model ≠ j
  | .solve s' => s' = s ∨ ∀ so, w.solvers[s']? = some so → so.model ≠ j
  | _ => True

/-- A solver in a process in which nothing else happens. -/
noncomputable def ownStep (orc : Oracle) (s : Nat) (S : Solver) : Action → Solver
  | .set s' f v => if s' = s then (S.set f v).1 else S
  | .solve s' => if s' = s then (S.solve orc).1 else S
  | _ => S

end Nosnoc
