import Verif.Spec.Feasible
/-
Two points, of problems with different representations of the Runge-Kutta equations, that describe
the same trajectory.
-/
namespace Nosnoc

/-- The variables that only some representations have: stage derivatives, stage states and end
states. -/
def Sym.IsRep : Sym → Prop
  | .st1 .v _ _ _ _ => True
  | .st1 .x _ _ _ _ => True
  | .xEnd _ _ _ => True
  | _ => False

/-- Same values of all other variables and parameters, same stage states and same end states. -/
structure SameTraj (d : Dims) (o : PreOpts) (env : Env) (o' : PreOpts) (env' : Env) : Prop where
  other : ∀ s, ¬ s.IsRep → env' s = env s
  stage : ∀ k e, HasFE o k e → ∀ j < o.nS, xVal o' d k e j env' = xVal o d k e j env
  finish : ∀ k e, HasFE o k e → xEndVal o' d k e env' = xEndVal o d k e env

/-- The stage states satisfy the state bounds (which LIFT_X and INTEGRAL impose on them, DIFFERENTIAL
does not). -/
def StageBounds (o : PreOpts) (d : Dims) (uo : UserOcp) (env : Env) : Prop :=
  ∀ k e, HasFE o k e → ∀ j < o.nS, ∀ i < d.nX,
    getOr uo.lbx ⊥ i ≤ (((xVal o d k e j env).getD i 0 : ℝ) : EReal) ∧
    (((xVal o d k e j env).getD i 0 : ℝ) : EReal) ≤ getOr uo.ubx ⊤ i

end Nosnoc
