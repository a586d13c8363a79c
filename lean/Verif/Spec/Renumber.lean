import Mathlib.Logic.Equiv.Basic
import Verif.Spec.User
import Verif.Spec.Names
/-
The same system with its regions listed in another order.
-/
namespace Nosnoc

/-- Columns of `F[s]`, rows of `S[s]` and entries of `g_Stewart[s]` in another order: new number `i` is
the old number `π i`. -/
def UMat.renumber (M : UMat) (π : Equiv.Perm Nat) : UMat := ⟨M.nCols, fun row i => M.entry row (π i)⟩
def SMat.renumber (S : SMat) (π : Equiv.Perm Nat) : SMat := ⟨S.rows, S.cols, fun i k => S.entry (π i) k⟩
def UVec.renumber (g : UVec) (π : Equiv.Perm Nat) : UVec := ⟨g.len, fun i => g.entry (π i)⟩

/-- The model with the regions of every subsystem `s` renumbered by `π s`. -/
def UserModel.renumber (um : UserModel) (π : Nat → Equiv.Perm Nat) : UserModel :=
  { um with
    F := um.F.map fun l => l.mapIdx fun s M => M.renumber (π s)
    S := um.S.map fun l => l.mapIdx fun s M => M.renumber (π s)
    gStewart := um.gStewart.map fun l => l.mapIdx fun s g => g.renumber (π s) }

/-- `π s` renumbers the regions of subsystem `s`. -/
def UserModel.Renumbers (um : UserModel) (π : Nat → Equiv.Perm Nat) : Prop :=
  ∀ s < um.nSys, ∀ i, π s i < (um.Fmat s).nCols ↔ i < (um.Fmat s).nCols

/-- The corresponding point: convex coefficients and multipliers of the regions renumbered (including
the initial multipliers, which are parameters), everything else unchanged. -/
def renumberEnv (π : Nat → Equiv.Perm Nat) (env : Env) : Env
  | .st2 .theta k e j s i => env (.st2 .theta k e j s (π s i))
  | .st2 .lam k e j s i => env (.st2 .lam k e j s (π s i))
  | .lam00 .lam s i => env (.lam00 .lam s (π s i))
  | t => env t

end Nosnoc
