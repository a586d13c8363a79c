import Verif.Model.Root
/-
What a homotopy is, and which solver objects can occur.
-/
namespace Nosnoc

/-- The schedule of the homotopy parameter: `sigma_0`, then the update rule. -/
noncomputable def sigmaAt (o : Opts) : Nat → ℝ
  | 0 => o.sigma0
  | k + 1 => match o.rule with
    | .linear => o.slope * sigmaAt o k
    | .superlinear =>
        max o.sigmaN (min (o.slope * sigmaAt o k) (sigmaAt o k ^ o.exponent))

/-- The solver objects a user can have in hand: constructed, then `set` and `solve` called any number
of times in any order, whether or not the calls raised.  `solve` may run with or without the option
`rootfinder_for_initial_z`. -/
inductive Reachable (colloc : IrkScheme → Nat → List ℝ) (o : Opts) (um : UserModel)
    (uo : Option UserOcp) (orc : Oracle) : Solver → Prop
  | create {S : Solver} : Solver.create colloc o um uo = .ok S → Reachable colloc o um uo orc S
  | set {S : Solver} (f : Field) (v : Arr) : Reachable colloc o um uo orc S →
      Reachable colloc o um uo orc (S.set f v).1
  | solve {S : Solver} : Reachable colloc o um uo orc S →
      Reachable colloc o um uo orc (S.solve orc).1
  | solveRoot {S : Solver} (rf : RootFinder) : Reachable colloc o um uo orc S →
      Reachable colloc o um uo orc (S.solveRoot orc rf um).1

/-- The complementarity residual of NLP solution `x` for parameters `p`. -/
noncomputable def Solver.residual (S : Solver) (x p : List ℝ) : ℝ := S.P.compRes (S.P.point x p)

/-- A homotopy of `n` NLP solves of solver object `S` (as it is when the loop starts), with initial
multipliers `lam00`, first guess `w0` and bounds `lbx, ubx`: `calls k` is the `k`-th call of the NLP
solver, `sols k` its answer. -/
structure Homotopy (orc : Oracle) (S : Solver) (lam00 w0 : List ℝ) (lbx ubx : List EReal)
    (n : Nat) (calls : Nat → NlpCall) (sols : Nat → NlpSol) : Prop where
  /-- at least one solve, at most `max_iter_homotopy` -/
  pos : 0 < n
  le : n ≤ S.o.maxIterHomotopy
  /-- the answers are those of the NLP solver to these calls, in this order -/
  answer : ∀ k < n, sols k = orc.sol (S.log ++ (List.range (k + 1)).map calls)
  /-- the first solve starts at the given guess, every other one at the previous solution -/
  first : (calls 0).x0 = w0
  warm : ∀ k, k + 1 < n → (calls (k + 1)).x0 = (sols k).x
  /-- the same bounds in every solve -/
  bounds : ∀ k < n, (calls k).lbx = lbx ∧ (calls k).ubx = ubx ∧
    (calls k).lbg = S.P.form.lbg ∧ (calls k).ubg = S.P.form.ubg
  /-- the parameters: stage parameters, `sigma`, `tau`, initial multipliers, initial state -/
  params : ∀ k < n, (calls k).p = S.m.pVal.flatten ++
    [sigmaAt S.o.toOpts k, min (sigmaAt S.o.toOpts k ^ (3 / 2 : ℝ)) (sigmaAt S.o.toOpts k)]
    ++ lam00 ++ S.m.x0
  /-- not stopped before the last solve -/
  goOn : ∀ k, k + 1 < n → S.o.compTol ≤ S.residual (sols k).x (calls k).p ∧
    S.o.sigmaN < sigmaAt S.o.toOpts k
  /-- stopped after it for one of the three reasons -/
  stop : S.residual (sols (n - 1)).x (calls (n - 1)).p < S.o.compTol ∨
    sigmaAt S.o.toOpts (n - 1) ≤ S.o.sigmaN ∨ n = S.o.maxIterHomotopy

/-- Component of the state a variable stands for, if it stands for one. -/
def stateIdx : Sym → Option Nat
  | .st1 .x _ _ _ i => some i
  | .xEnd _ _ i => some i
  | _ => none

/-- Two solver objects differ at most in `x0`, the stage parameter values, the stored guess and the
record of NLP calls. -/
structure SameProblem (S S' : Solver) : Prop where
  o : S'.o = S.o
  smooth : S'.smooth = S.smooth
  m : S'.m = { S.m with x0 := S'.m.x0, pVal := S'.m.pVal }
  P : S'.P = { S.P with form := { S.P.form with w0 := S'.P.form.w0 } }

end Nosnoc
