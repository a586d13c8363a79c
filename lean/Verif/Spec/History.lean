import Verif.Model.Root
/-
Histories of a solver object: sequences of calls of `set` and `solve`.
-/
namespace Nosnoc

/-- A call of `set` was carried out.  (`set('x', …)` ends with a warning, raised as an exception after the
values have been stored, unless the initialisation strategy is EXTERNAL.) -/
def Accepted (e : Option PyErr) : Prop := e = none ∨ e = some .warning

/-- The object after a sequence of calls of `set`, exceptions being caught by the caller. -/
def Solver.sets (S : Solver) (cs : List (Field × Arr)) : Solver := cs.foldl (fun S c => (S.set c.1 c.2).1) S

/-- The value last given for a field. -/
def lastSet (cs : List (Field × Arr)) (f : Field) : Option Arr :=
  ((cs.filter fun c => c.1 = f).getLast?).map Prod.snd

/-- A call of a method of the solver object. -/
inductive SolverAct
  | set (f : Field) (v : Arr)
  | solve
  | solveRoot (rf : RootFinder)

/-- The object after a call, exceptions being caught by the caller. -/
noncomputable def Solver.exec (orc : Oracle) (um : UserModel) (S : Solver) : SolverAct → Solver
  | .set f v => (S.set f v).1
  | .solve => (S.solve orc).1
  | .solveRoot rf => (S.solveRoot orc rf um).1

/-- The object after a sequence of calls. -/
noncomputable def Solver.execs (orc : Oracle) (um : UserModel) (S : Solver) (cs : List SolverAct) : Solver :=
  cs.foldl (fun S c => S.exec orc um c) S

/-- The calls of `set` among a sequence of calls. -/
def settings (cs : List SolverAct) : List (Field × Arr) := cs.filterMap fun
  | .set f v => some (f, v)
  | _ => none

end Nosnoc
