import Verif.Spec.Disc
import Verif.Spec.User
/-
Values, at a point `env`, of the quantities the user's functions are evaluated at, and the user's
right-hand side at a Runge-Kutta stage.
-/
namespace Nosnoc

/-- State of stage `j` of element `(k, e)`. -/
noncomputable def xVal (o : PreOpts) (d : Dims) (k e j : Nat) (env : Env) : List ℝ :=
  evalVec (stageX o d k e j) env
/-- State at the end of element `(k, e)`. -/
def xEndVal (o : PreOpts) (d : Dims) (k e : Nat) (env : Env) : List ℝ :=
  (List.range d.nX).map fun i => env (endX o k e i)
/-- User algebraic variables of stage `j`. -/
def zVal (d : Dims) (k e j : Nat) (env : Env) : List ℝ :=
  (List.range d.nZ).map fun i => env (.st1 .z k e j i)
/-- Controls and parameters of control stage `k`, global variables. -/
def uVal (d : Dims) (k : Nat) (env : Env) : List ℝ := (List.range d.nU).map fun i => env (.u k i)
def pVal (d : Dims) (k : Nat) (env : Env) : List ℝ :=
  (List.range (d.nPtv + d.nPgl)).map fun i => env (.pStage k i)
def vVal (d : Dims) (env : Env) : List ℝ := (List.range d.nV).map fun i => env (.vGlob i)
/-- All step multipliers of stage `j`. -/
def alphaVal (o : PreOpts) (d : Dims) (k e j : Nat) (env : Env) : List ℝ :=
  (rowSyms o d k e .alpha j).map env

/-- The user's right-hand side at stage `j` of element `(k, e)`. -/
noncomputable def UserModel.stageRhs (um : UserModel) (o : PreOpts) (d : Dims) (k e j row : Nat)
    (env : Env) : ℝ :=
  match o.pss, um.F, um.fx with
  | .stewart, _, _ => um.rhsStewart row (xVal o d k e j env) (zVal d k e j env) (uVal d k env)
      (pVal d k env) (vVal d env) fun s i => env (.st2 .theta k e j s i)
  | .step, some _, _ => um.rhsStep row (xVal o d k e j env) (zVal d k e j env) (uVal d k env)
      (pVal d k env) (vVal d env) fun s i => env (.st2 .alpha k e j s i)
  | .step, none, some f => f.entry row (xVal o d k e j env) (alphaVal o d k e j env)
      (zVal d k e j env) (uVal d k env) (pVal d k env) (vVal d env)
  | .step, none, none => 0

/-- The switching equations with state `x`, algebraic variables `z`, parameters `p` and multipliers
at point `jl` of element `(k, e)`: `g_i = λ_i - μ` (Stewart), `c_i = λᵖ_i - λⁿ_i` (Step). -/
def UserModel.Switching (um : UserModel) (o : PreOpts) (k e jl : Nat)
    (x z p : List ℝ) (env : Env) : Prop :=
  match o.pss with
  | .stewart => ∀ s < um.nSys, ∀ i < (um.Fmat s).nCols,
      um.gVal s i x z p = env (.st2 .lam k e jl s i) - env (.st2 .mu k e jl s 0)
  | .step => ∀ s < um.nSys, ∀ i < (um.cVec s).len,
      (um.cVec s).entry i x z p = env (.st2 .lamP k e jl s i) - env (.st2 .lamN k e jl s i)

/-- All algebraic equations of a stage: switching, convexity (Stewart), user equations. -/
def UserModel.Algebraic (um : UserModel) (o : PreOpts) (d : Dims) (k e j : Nat) (x : List ℝ)
    (env : Env) : Prop :=
  um.Switching o k e j x (zVal d k e j env) (pVal d k env) env ∧
  (o.pss = .stewart → ∀ s < um.nSys,
    ∑ i ∈ Finset.range (um.Fmat s).nCols, env (.st2 .theta k e j s i) = 1) ∧
  ∀ i < um.gz.len, um.gz.entry i x (zVal d k e j env) (uVal d k env) (pVal d k env) = 0

end Nosnoc
