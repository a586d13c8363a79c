import Verif.Spec.User
import Verif.Spec.UserDisc
/-
Two models with the same vector fields whose switching functions describe the same regions.
-/
namespace Nosnoc

/-- Region `i` of system `s` is active at a point: its indicator function is minimal. -/
def UserModel.Minimal (um : UserModel) (s i : Nat) (x z p : List ℝ) : Prop :=
  ∀ j < (um.Fmat s).nCols, um.gVal s i x z p ≤ um.gVal s j x z p

/-- The models agree in everything but the switching data (`c`, `S`, `g_Stewart`), and these describe
the same regions: in Stewart's representation the same indicator functions are minimal at every point;
in the step representation `S` is the same and every switching function has the same sign everywhere. -/
structure SameRegions (pss : PssMode) (um um' : UserModel) : Prop where
  rest : um' = { um with c := um'.c, S := um'.S, gStewart := um'.gStewart }
  stewart : pss = .stewart → ∀ s < um.nSys, ∀ i < (um.Fmat s).nCols, ∀ x z p,
    um.Minimal s i x z p ↔ um'.Minimal s i x z p
  step : pss = .step → um'.S = um.S ∧ ∀ s < um.nSys, (um'.cVec s).len = (um.cVec s).len ∧
    ∀ i < (um.cVec s).len, ∀ x z p,
      (0 ≤ (um.cVec s).entry i x z p ↔ 0 ≤ (um'.cVec s).entry i x z p) ∧
      ((um.cVec s).entry i x z p ≤ 0 ↔ (um'.cVec s).entry i x z p ≤ 0)

/-- The model with every switching function multiplied by a factor. -/
def UserModel.rescale (um : UserModel) (ψ : Nat → Nat → (x z p : List ℝ) → ℝ) : UserModel :=
  { um with c := um.c.map fun l => l.mapIdx fun s c =>
      ⟨c.len, fun i x z p => ψ s i x z p * c.entry i x z p⟩ }

end Nosnoc
