import Verif.Model.Solver
/-
Model of `NosnocProblem.print` and `NosnocProblem.dump` (nosnoc/problem.py:865-887, 899-919): the flags
that `print` shows and the data that `dump` writes.  The formatting, the printed expressions and the
serialisation are not modelled.
-/
namespace Nosnoc

/-- What `print` appends to the line of a variable. -/
inductive Flag | none | boundError | w0Error
  deriving DecidableEq

open Classical in
/-- problem.py:875-882, the branches for one variable.  (The second comparison of the `elif` compares
`self.ubw[i]` with itself.) -/
noncomputable def printFlag (lb ub : EReal) (w0 : ℝ) : Flag :=
  if lb > ub then .boundError
  else if (w0 : EReal) < lb ∨ ub > ub then .w0Error
  else .none

/-- problem.py:874-886: the loop over `range(len(self.lbw))`; indexing may raise. -/
noncomputable def Problem.printFlags (P : Problem) : Except PyErr (List Flag) :=
  (List.range P.form.lbw.length).mapM fun i => do
    let lb ← listGet P.form.lbw i
    let ub ← listGet P.form.ubw i
    let w0 ← listGet P.form.w0 i
    let _ ← listGet P.form.w i
    .ok (printFlag lb ub w0)

/-- problem.py:865-890 `print`: the flags and the number shown as `errors`.  Lines 869-870 index
`self.ubg` and `self.g` as well. -/
noncomputable def Problem.print (P : Problem) : Except PyErr (List Flag × Nat) := do
  let _ ← (List.range P.form.lbg.length).mapM (listGet P.form.ubg)
  let _ ← (List.range P.form.lbg.length).mapM (listGet P.form.g)
  let fl ← P.printFlags
  .ok (fl, (fl.filter fun f => f ≠ .none).length)

/-- The numerical part of the dictionary written by `dump`: bounds, guess, functions, shapes and
parameter values. -/
structure Dump where
  lbw : List EReal
  ubw : List EReal
  w0 : List ℝ
  lbg : List EReal
  ubg : List EReal
  /-- `data["f"]`, a function of `(w, p)` -/
  f : List ℝ → List ℝ → ℝ
  /-- `data["g"]`, a function of `(w, p)` -/
  g : List ℝ → List ℝ → List ℝ
  wShape : Nat
  pShape : Nat
  p0 : List ℝ

/-- problem.py:899-919 `dump`, for the problem and model of a solver.  The attributes of the problem
which are copied unchanged and are not listed in `Dump` (options, index lists, functions) are left
out, and so is pickling. -/
noncomputable def Solver.dump (S : Solver) : Except PyErr Dump := do
  let lam00 ← S.m.computeLambda00
  .ok { lbw := S.P.form.lbw, ubw := S.P.form.ubw, w0 := S.P.form.w0, lbg := S.P.form.lbg,
        ubg := S.P.form.ubg,
        f := fun w p => S.P.form.cost (S.P.point w p),
        g := fun w p => S.P.form.g.map fun q => q (S.P.point w p),
        wShape := S.P.form.w.length, pShape := S.P.p.length,
        p0 := S.m.pVal.flatten ++ [0, 0] ++ lam00 ++ S.m.x0 }

end Nosnoc
