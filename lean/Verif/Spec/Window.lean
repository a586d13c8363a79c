import Verif.Spec.Objective
/-
A part of the horizon: the problem over the control stages `a, …, a + n - 1` of a problem.
-/
namespace Nosnoc

/-- Options for `n` control stages beginning with control stage `a`: the stages keep their length and their
numbers of finite elements. -/
noncomputable def Opts.window (o : Opts) (a n : Nat) : Opts :=
  { o with
    nStages := n
    terminalTime := o.terminalTime / o.nStages * n
    nfeList := (o.nfeAfter.drop a).take n }

/-- The model with the time-varying parameter values of these stages. -/
def UserModel.window (um : UserModel) (a n : Nat) : UserModel :=
  { um with pTimeVarVal := um.pTimeVarVal.map fun V => (V.drop a).take n }

/-- The ocp without terminal cost and terminal constraint. -/
def UserOcp.noTerminal (uo : UserOcp) : UserOcp :=
  { uo with fTerminal := fun _ _ _ => 0, nGTerminal := 0 }

/-- The part of a point that belongs to the stages from stage `a` on, with the stages numbered from 0: the initial
state is the state at the end of stage `a - 1`, the initial multipliers are the last ones of stage `a - 1`. -/
def windowEnv (po : PreOpts) (a : Nat) (env : Env) : Env
  | .u k i => env (.u (k + a) i)
  | .sot k => env (.sot (k + a))
  | .h k e => env (.h (k + a) e)
  | .st1 f k e j i => env (.st1 f (k + a) e j i)
  | .st2 f k e j s i => env (.st2 f (k + a) e j s i)
  | .xEnd k e i => env (.xEnd (k + a) e i)
  | .pStage k i => env (.pStage (k + a) i)
  | .x0 i => env (startX po a 0 i)
  | .lam00 f s i => match prevFe po a 0 with
    | some (k, e) => env (.st2 f k e (lastLam po k e) s i)
    | none => env (.lam00 f s i)
  | t => env t

/-- The point that is `env` on the stages before stage `a` and `tail` from stage `a` on. -/
def joinEnv (a : Nat) (env tail : Env) : Env
  | .u k i => if k < a then env (.u k i) else tail (.u (k - a) i)
  | .sot k => if k < a then env (.sot k) else tail (.sot (k - a))
  | .h k e => if k < a then env (.h k e) else tail (.h (k - a) e)
  | .st1 f k e j i => if k < a then env (.st1 f k e j i) else tail (.st1 f (k - a) e j i)
  | .st2 f k e j s i => if k < a then env (.st2 f k e j s i) else tail (.st2 f (k - a) e j s i)
  | .xEnd k e i => if k < a then env (.xEnd k e i) else tail (.xEnd (k - a) e i)
  | .pStage k i => if k < a then env (.pStage k i) else tail (.pStage (k - a) i)
  | t => env t

/-- Global parameters have the same value on all control stages. -/
def SameGlobals (o : Opts) (um : UserModel) (env : Env) : Prop :=
  ∀ k < o.nStages, ∀ i < um.nPgl, env (.pStage k (um.nPtv + i)) = env (.pStage 0 (um.nPtv + i))

/-- What the elastic modes add to the objective (0 in the other modes). -/
noncomputable def elasticPenalty (o : Opts) (env : Env) : ℝ :=
  if o.mpcc = .elasticIneq ∨ o.mpcc = .elasticEq ∨ o.mpcc = .elasticTwoSided then
    if o.objScalingDirect then 1 / env .sigma * env .sElastic else env .sElastic
  else 0

/-- Variables that belong to no control stage. -/
def Sym.IsShared : Sym → Prop
  | .vGlob _ => True
  | .sElastic => True
  | _ => False

/-- A feasible point whose objective is minimal among the feasible points with the same values of the parameters
and of the variables in `fixed`. -/
def Problem.Optimal (P : Problem) (fixed : Sym → Prop) (env : Env) : Prop :=
  P.form.Feasible env ∧ ∀ env', (∀ s ∈ P.p, env' s = env s) → (∀ s, fixed s → env' s = env s) →
    P.form.Feasible env' → P.form.cost env ≤ P.form.cost env'

/-- Preprocessed options of the window. -/
noncomputable def PreOpts.window (po : PreOpts) (a n : Nat) : PreOpts :=
  { po with
    nStages := n
    terminalTime := po.terminalTime / po.nStages * n
    nfeList := (po.nfeList.drop a).take n }

end Nosnoc
