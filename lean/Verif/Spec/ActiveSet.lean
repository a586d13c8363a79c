import Verif.Spec.Lam00
import Verif.Spec.Params
/-
Points and the bounds of an NLP call.
-/
namespace Nosnoc

/-- The point satisfies the variable bounds of the NLP call. -/
def NlpCall.Admits (c : NlpCall) (w : List Sym) (env : Env) : Prop :=
  ∀ (i : Nat) t, w[i]? = some t →
    (∀ l, c.lbx[i]? = some l → l ≤ ((env t : ℝ) : EReal)) ∧
    (∀ u, c.ubx[i]? = some u → ((env t : ℝ) : EReal) ≤ u)

end Nosnoc
