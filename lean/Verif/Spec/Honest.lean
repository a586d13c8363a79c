import Verif.Spec.Params
import Verif.Model.Results
/-
What an NLP solver promises when it reports success.
-/
namespace Nosnoc

/-- Every value lies between its bounds. -/
def Within (v : List ℝ) (lb ub : List EReal) : Prop :=
  ∀ (i : Nat) x, v[i]? = some x →
    (∀ l, lb[i]? = some l → l ≤ (x : EReal)) ∧ (∀ u, ub[i]? = some u → (x : EReal) ≤ u)

/-- The return codes of the NLP solver that count as success. -/
def acceptedStatus : List String := ["Solve_Succeeded", "Solved_To_Acceptable_Level",
  "Feasible_Point_Found", "Search_Direction_Becomes_Too_Small"]

/-- An exact NLP solver for problem `P`: whenever it reports one of the accepted return codes, its
answer satisfies the variable bounds of the call, and the constraint functions evaluated at the answer
and the parameters of the call satisfy the constraint bounds of the call.  (Tolerances of the NLP
solver are idealised to zero.) -/
def Oracle.Exact (orc : Oracle) (P : Problem) : Prop :=
  ∀ log c, (orc.sol (log ++ [c])).status ∈ acceptedStatus →
    Within (orc.sol (log ++ [c])).x c.lbx c.ubx ∧
    Within (P.form.g.map fun q => q (P.point (orc.sol (log ++ [c])).x c.p)) c.lbg c.ubg

/-- A complete NLP solver for problem `P`: whenever the call has a feasible point, it reports one of the
accepted return codes. -/
def Oracle.Complete (orc : Oracle) (P : Problem) : Prop :=
  ∀ log c, (∃ x : List ℝ, x.length = c.x0.length ∧ Within x c.lbx c.ubx ∧
      Within (P.form.g.map fun q => q (P.point x c.p)) c.lbg c.ubg) →
    (orc.sol (log ++ [c])).status ∈ acceptedStatus

/-- The symbols for the initial multipliers. -/
def IsLam00 : Sym → Prop
  | .lam00 _ _ _ => True
  | _ => False

end Nosnoc
