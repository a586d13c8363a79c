import Mathlib.Data.Real.Archimedean
import Verif.Spec.Solve
import Verif.Spec.User
import Verif.Spec.Pairs
/-
The initial multipliers, stated in the user's terms.
-/
namespace Nosnoc

/-- Stewart: distance of the indicator function of region `i` of system `s` from the smallest one. -/
noncomputable def UserModel.lam00St (um : UserModel) (x z p : List ℝ) (s i : Nat) : ℝ :=
  um.gVal s i x z p - ⨅ j : Fin (um.Fmat s).nCols, um.gVal s j x z p

/-- Step: negative and positive part of switching function `i` of system `s`. -/
noncomputable def UserModel.lam00Neg (um : UserModel) (x z p : List ℝ) (s i : Nat) : ℝ :=
  max (-(um.cVec s).entry i x z p) 0
noncomputable def UserModel.lam00Pos (um : UserModel) (x z p : List ℝ) (s i : Nat) : ℝ :=
  max ((um.cVec s).entry i x z p) 0

/-- The list `lambda00`: system by system; in Step mode the negative parts of a system, then its
positive parts. -/
noncomputable def UserModel.lam00List (um : UserModel) (pss : PssMode) (x z p : List ℝ) : List ℝ :=
  match pss with
  | .stewart => (List.range um.nSys).flatMap fun s =>
      (List.range (um.Fmat s).nCols).map (um.lam00St x z p s)
  | .step => (List.range um.nSys).flatMap fun s =>
      (List.range (um.cVec s).len).map (um.lam00Neg x z p s)
        ++ (List.range (um.cVec s).len).map (um.lam00Pos x z p s)

/-- The value the user means by the initial multiplier of a pair. -/
noncomputable def UserModel.lam00Val (um : UserModel) (x z p : List ℝ) : Pair → ℝ
  | .region s i => um.lam00St x z p s i
  | .neg s i => um.lam00Neg x z p s i
  | .pos s i => um.lam00Pos x z p s i

/-- The arrays stored in the solver object have the sizes of the problem: `x0` one entry per state,
the guess one entry per variable.  (True after construction; `set` stores what it is given.) -/
structure Ready (um : UserModel) (S : Solver) : Prop where
  x0 : S.m.x0.length = um.nX
  guess : S.P.form.w0.length = S.P.form.w.length

/-- `theta` entries of the first finite element that `fix_active_set_fe0` fixes: Stewart mode, and the
initial multiplier of the region exceeds `10 comp_tol`. -/
def Solver.FixedTheta (um : UserModel) (S : Solver) (t : Sym) : Prop :=
  S.o.fixActiveSetFe0 = true ∧ S.o.pss = .stewart ∧ ∃ j s i, t = .st2 .theta 0 0 j s i ∧
    10 * S.o.compTol < um.lam00St S.m.x0 S.m.z0 (S.m.pVal.headD []) s i

end Nosnoc
