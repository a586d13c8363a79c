import Verif.Spec.Lam00
/-
What the entries of the parameter vector stand for, and the parameter setters as operations on an
abstract record.
-/
namespace Nosnoc

/-- The quantity a parameter symbol stands for, for solver object `S` and homotopy parameters
`sigma, tau`: stage parameters, the initial multipliers of each system at the initial state, and the
initial state. -/
noncomputable def paramVal (um : UserModel) (S : Solver) (sigma tau : ℝ) : Sym → ℝ
  | .pStage k i => (S.m.pVal.getD k []).getD i 0
  | .sigma => sigma
  | .tau => tau
  | .lam00 .lam s i => um.lam00St S.m.x0 S.m.z0 (S.m.pVal.headD []) s i
  | .lam00 .lamN s i => um.lam00Neg S.m.x0 S.m.z0 (S.m.pVal.headD []) s i
  | .lam00 .lamP s i => um.lam00Pos S.m.x0 S.m.z0 (S.m.pVal.headD []) s i
  | .x0 i => S.m.x0.getD i 0
  | _ => 0

/-- The parameters as the user sees them: the value of time-varying parameter `i` in control stage
`k`, the value of global parameter `i`. -/
structure Params where
  tv : Nat → Nat → ℝ
  gl : Nat → ℝ

/-- The table of stage parameters: row `k` holds the time-varying parameters of stage `k`, then the
global ones. -/
def Params.table (q : Params) (nStages nPtv nPgl : Nat) : List (List ℝ) :=
  (List.range nStages).map fun k => (List.range nPtv).map (q.tv k) ++ (List.range nPgl).map q.gl

/-- An operation on a solver object. -/
inductive Op
  | set (f : Field) (v : Arr)
  | solve

/-- Its effect on the object (exceptions are swallowed). -/
noncomputable def Op.run (orc : Oracle) (S : Solver) : Op → Solver
  | .set f v => (S.set f v).1
  | .solve => (S.solve orc).1

/-- Its effect on the parameters. -/
def Op.params (q : Params) : Op → Params
  | .set .pGlobal (.vec v) => { q with gl := fun i => v.getD i 0 }
  | .set .pTimeVar (.mat _ _ f) => { q with tv := f }
  | _ => q

/-- The arrays given for parameters have the documented shape; other operations are not restricted. -/
def Op.ParamsOk (nStages nPtv nPgl : Nat) : Op → Prop
  | .set .pGlobal v => ∃ l, v = .vec l ∧ l.length = nPgl
  | .set .pTimeVar v => ∃ f, v = .mat nStages nPtv f
  | _ => True

end Nosnoc
