import Mathlib.Data.Real.Basic
import Mathlib.Data.EReal.Basic
import Verif.Model.Utils
/-
Symbols, expressions, options enums: the vocabulary of the NLP model.
-/
namespace Nosnoc

/-- nosnoc/nosnoc_types.py:4-33. -/
inductive MpccMode
  | scholtesIneq | scholtesEq | fischerBurmeister | fischerBurmeisterIpAug
  | elasticIneq | elasticEq | elasticTwoSided | boolean
  deriving DecidableEq, Repr

/-- nosnoc/nosnoc_types.py:36-39. -/
inductive IrkScheme | radauIIA | gaussLegendre
  deriving DecidableEq, Repr

/-- nosnoc/nosnoc_types.py:42-49. -/
inductive InitStrategy | allXcurrentW0Start | allXcurrentWoptPrev | external | rk4Smoothened
  deriving DecidableEq, Repr

/-- nosnoc/nosnoc_types.py:52-60. -/
inductive StepEqMode
  | heuristicMean | heuristicDelta | l2RelaxedScaled | l2Relaxed | direct
  | directComplementarity | heuristicDeltaHComp
  deriving DecidableEq, Repr

/-- nosnoc/nosnoc_types.py:63-66. -/
inductive CrossCompMode | complementAll | sumLambdas
  deriving DecidableEq, Repr

/-- nosnoc/nosnoc_types.py:69-73. -/
inductive IrkRep | integral | differential | differentialLiftX
  deriving DecidableEq, Repr

/-- nosnoc/nosnoc_types.py:76-78. -/
inductive HomotopyRule | linear | superlinear
  deriving DecidableEq, Repr

/-- nosnoc/nosnoc_types.py:81-83. -/
inductive ConstraintHandling | exact | leastSquares
  deriving DecidableEq, Repr

/-- nosnoc/nosnoc_types.py:86-89. -/
inductive SotMode | none | local | global
  deriving DecidableEq, Repr

/-- nosnoc/nosnoc_types.py:92-116. -/
inductive PssMode | stewart | step
  deriving DecidableEq, Repr

/-- nosnoc/nosnoc_types.py:119-121. -/
inductive Status | success | infeasible
  deriving DecidableEq, Repr

/-- Variable families with one vector per Runge-Kutta stage:
state derivatives `v`, states `x`, user algebraics `z`
(index lists `ind_v`, `ind_x`, `ind_z`, problem.py:253-267). -/
inductive Fam1 | v | x | z
  deriving DecidableEq, Repr

/-- Variable families with one vector per Runge-Kutta stage and per subsystem
(index lists `ind_theta`, `ind_lam`, `ind_mu`, `ind_alpha`, `ind_lambda_n`, `ind_lambda_p`,
problem.py:261-266). -/
inductive Fam2 | theta | lam | mu | alpha | lamN | lamP
  deriving DecidableEq, Repr

/-- Scalar symbols (`ca.SX.sym` entries).  Two `SX.sym` calls create different symbols, which is
why each creation site has its own constructor or index.

* `mX … mPgl`, `vGlob`: the symbols of the user model (model.py:80-105); `vGlob` is also an
  optimisation variable (problem.py:645).
* `mAlg`: the stage symbols of `create_stage_vars` (model.py:330-360).
* `pStage, sigma, tau, x0, lam00`: parameters (model.py:202, problem.py:199-219, 754-755).
* the rest: optimisation variables (problem.py:147, 277, 290-391, 613-619, 758).
  A boundary ("end") multiplier is `st2 f k e n_s s i`. -/
inductive Sym
  | mX (i : Nat) | mU (i : Nat) | mZ (i : Nat) | mPtv (i : Nat) | mPgl (i : Nat)
  | vGlob (i : Nat)
  | mAlg (f : Fam2) (s i : Nat)
  | pStage (k i : Nat) | sigma | tau | x0 (i : Nat) | lam00 (f : Fam2) (s i : Nat)
  | sElastic | u (k i : Nat) | sot (k : Nat)
  | h (k e : Nat)
  | st1 (f : Fam1) (k e j i : Nat)
  | st2 (f : Fam2) (k e j s i : Nat)
  | xEnd (k e i : Nat)
  | boolFe (k e pos : Nat) | boolGlob (pos : Nat)
  deriving DecidableEq, Repr

/-- An assignment of real values to all symbols. -/
abbrev Env := Sym → ℝ
/-- A scalar `SX` expression, as its denotation. -/
abbrev Expr := Env → ℝ
/-- A column vector of `SX` expressions. -/
abbrev Vec := List Expr

/-- The expression consisting of one symbol. -/
def var (s : Sym) : Expr := fun env => env s
/-- A vector of symbols as a vector of expressions. -/
def vars (l : List Sym) : Vec := l.map var
/-- A numeric constant as expression. -/
def const (r : ℝ) : Expr := fun _ => r
/-- The values of a vector. -/
def evalVec (v : Vec) (env : Env) : List ℝ := v.map (fun e => e env)
/-- `v[j]`, read only for `j < len(v)`. -/
def at' (v : Vec) (j : Nat) : Expr := v.getD j (const 0)
/-- Elementwise sum, difference and product of equally long vectors. -/
def vadd (a b : Vec) : Vec := List.zipWith (fun x y env => x env + y env) a b
def vsub (a b : Vec) : Vec := List.zipWith (fun x y env => x env - y env) a b
def vmul (a b : Vec) : Vec := List.zipWith (fun x y env => x env * y env) a b
/-- Scalar times vector. -/
def vsmul (c : Expr) (a : Vec) : Vec := a.map (fun x env => c env * x env)

/-- `n` symbols `f 0, …, f (n-1)` (`ca.SX.sym(name, n)`). -/
def blk (n : Nat) (f : Nat → Sym) : List Sym := (List.range n).map f

/-- `w[idx]` for a list of integer positions; numpy/CasADi raise on positions out of range. -/
def gather (w : List Sym) (idx : List Nat) : Except PyErr (List Sym) :=
  idx.mapM fun i => match w[i]? with
    | some s => .ok s
    | none => .error .indexError

/-- A CasADi `Function`: symbolic inputs (a list of symbol vectors) and one output vector. -/
structure CFun where
  ins : List (List Sym)
  outs : Vec

/-- Environment in which the symbols `ss` are replaced by the values of `es`. -/
def rebind (ss : List Sym) (es : Vec) (env : Env) : Env := fun s =>
  match (ss.zip es).lookup s with
  | some e => e env
  | none => env s

/-- Calling a CasADi function on symbolic arguments.  Each argument must have the length of the
corresponding input (CasADi's implicit scalar expansion and its acceptance of empty arguments are
not modelled: they are errors here). -/
def CFun.call (f : CFun) (args : List Vec) : Except PyErr Vec :=
  if f.ins.map List.length = args.map List.length then
    .ok (f.outs.map fun e env => e (rebind f.ins.flatten args.flatten env))
  else .error .casadi

end Nosnoc
