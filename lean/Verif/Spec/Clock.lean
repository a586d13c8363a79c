import Verif.Spec.UserDisc
/-
Rows of the right-hand side that do not switch (C109).
-/
namespace Nosnoc

/-- Component `row` of the right-hand side is `g`, whatever the region.  Given by `F`: the entries of the row
do not depend on the column; with several subsystems, whose vector fields are added, `g` is the sum of their
contributions.  Given by `f_x`: the component does not depend on `alpha`. -/
def UserModel.Unswitched (um : UserModel) (row : Nat) (g : (x z u p v : List ℝ) → ℝ) : Prop :=
  match um.F, um.fx with
  | some _, _ => ∃ gs : Nat → (x z u p v : List ℝ) → ℝ,
      (∀ s < um.nSys, ∀ i < (um.Fmat s).nCols, ∀ x z u p v,
        (um.Fmat s).entry row i x z u p v = gs s x z u p v) ∧
      ∀ x z u p v, ∑ s ∈ Finset.range um.nSys, gs s x z u p v = g x z u p v
  | none, some f => ∀ x α z u p v, f.entry row x α z u p v = g x z u p v
  | none, none => False

/-- State component `row` is a clock: its time derivative is 1. -/
def UserModel.Clock (um : UserModel) (row : Nat) : Prop :=
  row < um.nX ∧ um.Unswitched row fun _ _ _ _ _ => 1

/-- State component `row` integrates the polynomial `q` of the clock `c`. -/
def UserModel.Integrates (um : UserModel) (row c : Nat) (q : Polynomial ℝ) : Prop :=
  row < um.nX ∧ um.Unswitched row fun x _ _ _ _ => q.eval (x.getD c 0)

end Nosnoc
