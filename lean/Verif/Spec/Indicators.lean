import Verif.Model.Looper
/-
C135: describing the regions of Stewart's representation by indicator functions instead of sign matrices.
-/
namespace Nosnoc

/-- The expression `-S[i] @ c[i]` as a user would write it (as in examples/oscillator/oscillator_example.py:35). -/
def negMul (S : SMat) (c : UVec) : UVec :=
  ⟨S.rows, fun i x z p => ((List.range S.cols).map fun k => -(S.entry i k) * c.entry k x z p).sum⟩

/-- The model in which the arguments `S` and `c` have been replaced by
`g_Stewart = [-S[i] @ c[i] for i in range(n_sys)]`; everything else is as given. -/
def UserModel.byIndicators (um : UserModel) : UserModel :=
  { um with c := none, S := none,
            gStewart := some ((List.zipWith negMul (um.S.getD []) (um.c.getD [])).take um.nSys) }

/-- What a user can do with a solver object: `set`, and `solve`. -/
inductive UserCall
  | set (f : Field) (v : Arr)
  | solve

/-- What the user sees of a call: the exception or the result of `solve` (nothing is returned by `set`). -/
inductive CallSeen
  | raised (e : PyErr)
  | done
  | result (r : SolveResult)

/-- A sequence of calls: what is seen of each (a raised exception is caught and the next call made), and all NLPs handed
to the NLP solver. -/
noncomputable def observe (orc : Oracle) : List UserCall → Solver → List CallSeen × List NlpCall
  | [], S => ([], S.log)
  | .set f v :: cs, S =>
      let r := S.set f v
      let t := observe orc cs r.1
      ((match r.2 with | some e => .raised e | none => .done) :: t.1, t.2)
  | .solve :: cs, S =>
      let r := S.solve orc
      let t := observe orc cs r.1
      ((match r.2 with | .error e => .raised e | .ok r => .result r) :: t.1, t.2)

/-- A simulation: solver and looper are constructed, `run` is called, and the results are taken. -/
noncomputable def simulate (colloc : IrkScheme → Nat → List ℝ) (orc : Oracle) (o : Opts) (um : UserModel)
    (uo : Option UserOcp) (x0 : List ℝ) (nSim : Nat) (pv : Option Arr) (wi : Option (List Arr)) (stop : Bool) :
    Except PyErr SimResults := do
  let S ← Solver.create colloc o um uo
  let L ← Looper.create S x0 nSim pv wi
  match L.run orc stop with
  | (_, .error e) => .error e
  | (L', .ok _) => L'.getResults

end Nosnoc
