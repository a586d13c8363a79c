import Verif.Spec.Lam00
import Verif.Spec.Naming
/-
Which guesses a call of `set` should write.
-/
namespace Nosnoc

/-- Control stage, finite element and component of a state variable (stage state or end state). -/
def stateAt : Sym → Option (Nat × Nat × Nat)
  | .st1 .x k e _ i => some (k, e, i)
  | .xEnd k e i => some (k, e, i)
  | _ => none

/-- Control stage and component of a control variable. -/
def controlAt : Sym → Option (Nat × Nat)
  | .u k i => some (k, i)
  | _ => none

/-- Component of a global variable. -/
def globalAt : Sym → Option Nat
  | .vGlob i => some i
  | _ => none

/-- Control stage, finite element, subsystem and component of a Stewart multiplier `theta`. -/
def thetaNo : Sym → Option (Nat × Nat × Nat × Nat)
  | .st2 .theta k e _ s i => some (k, e, s, i)
  | _ => none

/-- Number of finite element `e` of control stage `k`, counted over the whole horizon. -/
def elemNo (o : PreOpts) (k e : Nat) : Nat := ∑ k' ∈ Finset.range k, nfe o k' + e

/-- `S'` is `S` with the guess of every variable that `v` gives a value replaced by that value; all
other guesses and everything else are those of `S`. -/
def Wrote (S S' : Solver) (v : Sym → Option ℝ) : Prop :=
  ∃ w0 : List ℝ, S' = S.setW0 w0 ∧ w0.length = S.P.form.w.length ∧
    ∀ (i : Nat) t, S.P.form.w[i]? = some t → w0[i]? = match v t with
      | some a => some a
      | none => S.P.form.w0[i]?

end Nosnoc
