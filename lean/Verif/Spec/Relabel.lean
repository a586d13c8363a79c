import Verif.Spec.Renumber
/-
The same system with its subsystems, and the switching functions of every subsystem, listed in another
order.
-/
namespace Nosnoc

/-- The list in another order: new entry `s` is old entry `σ s`. -/
def reorder {α : Type} (σ : Equiv.Perm Nat) (l : List α) : List α := l.mapIdx fun s a => l.getD (σ s) a

/-- Columns of `S[s]` in another order. -/
def SMat.permuteCols (S : SMat) (ρ : Equiv.Perm Nat) : SMat := ⟨S.rows, S.cols, fun i k => S.entry i (ρ k)⟩

/-- The model with new subsystem `s` the old subsystem `σ s`, and new switching function `k` of new
subsystem `s` its old switching function `ρ s k`. -/
def UserModel.relabel (um : UserModel) (σ : Equiv.Perm Nat) (ρ : Nat → Equiv.Perm Nat) : UserModel :=
  { um with
    F := um.F.map (reorder σ)
    c := um.c.map fun l => (reorder σ l).mapIdx fun s c => c.renumber (ρ s)
    S := um.S.map fun l => (reorder σ l).mapIdx fun s S => S.permuteCols (ρ s)
    gStewart := um.gStewart.map (reorder σ) }

/-- `σ` reorders the subsystems of a model given by `F`, and `ρ s` the switching functions of new
subsystem `s`; every list given has an entry for every subsystem. -/
structure UserModel.Relabels (um : UserModel) (σ : Equiv.Perm Nat) (ρ : Nat → Equiv.Perm Nat) : Prop where
  systems : um.F ≠ none
  sys : ∀ s, um.nSys ≤ s → σ s = s
  fnsC : ∀ s < um.nSys, ∀ k, (um.cVec (σ s)).len ≤ k → ρ s k = k
  fnsS : ∀ s < um.nSys, ∀ k, (um.Smat (σ s)).cols ≤ k → ρ s k = k
  other : ∀ s, um.nSys ≤ s → ρ s = 1
  lenC : ∀ l, um.c = some l → um.nSys ≤ l.length
  lenS : ∀ l, um.S = some l → um.nSys ≤ l.length
  lenG : ∀ l, um.gStewart = some l → um.nSys ≤ l.length

/-- The corresponding point. -/
def relabelEnv (σ : Equiv.Perm Nat) (ρ : Nat → Equiv.Perm Nat) (env : Env) : Env
  | .st2 .theta k e j s i => env (.st2 .theta k e j (σ s) i)
  | .st2 .lam k e j s i => env (.st2 .lam k e j (σ s) i)
  | .st2 .mu k e j s i => env (.st2 .mu k e j (σ s) i)
  | .st2 .alpha k e j s i => env (.st2 .alpha k e j (σ s) (ρ s i))
  | .st2 .lamN k e j s i => env (.st2 .lamN k e j (σ s) (ρ s i))
  | .st2 .lamP k e j s i => env (.st2 .lamP k e j (σ s) (ρ s i))
  | .lam00 .lam s i => env (.lam00 .lam (σ s) i)
  | .lam00 .lamN s i => env (.lam00 .lamN (σ s) (ρ s i))
  | .lam00 .lamP s i => env (.lam00 .lamP (σ s) (ρ s i))
  | t => env t

end Nosnoc
