import Verif.Spec.Feasible
/-
The situation all properties of a constructed problem refer to.
-/
namespace Nosnoc

/-- `NosnocProblem(opts, model, ocp)` succeeds on the user's options `o`, model `um` and ocp `uo`
and yields the problem `P`; `po`, `m`, `oc` are the preprocessed options, model and ocp.
`nS` excludes the meaningless `n_s = 0`; `alpha` excludes a user-supplied `alpha` next to `F`
(`alpha` belongs to models given by `f_x`). -/
structure Setup (colloc : IrkScheme → Nat → List ℝ) (o : Opts) (um : UserModel)
    (uo : Option UserOcp) (po : PreOpts) (m : PreModel) (oc : PreOcp) (P : Problem) : Prop where
  ok : construct colloc o um uo = .ok (po, m, oc, P)
  nS : 0 < o.nS
  alpha : um.F.isSome = true → um.alpha = none

/-- Furthermore EXACT constraint handling, and path complementarities whose dependence flags (what
`casadi.which_depends` reports) are right. -/
structure SetupEx (colloc : IrkScheme → Nat → List ℝ) (o : Opts) (um : UserModel)
    (uo : Option UserOcp) (po : PreOpts) (m : PreModel) (oc : PreOcp) (P : Problem) : Prop
    extends Setup colloc o um uo po m oc P where
  exact : o.constraintHandling = .exact
  sound : ∀ r ∈ (uo.getD UserOcp.trivial).gPathComp, r.Sound m.dims

end Nosnoc
