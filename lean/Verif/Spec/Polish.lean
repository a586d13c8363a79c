import Verif.Spec.Solve
import Verif.Spec.Feasible
/-
What polishing may and may not fix.
-/
namespace Nosnoc

/-- Complementarity multipliers: `θ, λ, μ` (Stewart), `α, λⁿ, λᵖ` (Step). -/
def IsMultiplier : Sym → Prop
  | .st2 _ _ _ _ _ _ => True
  | _ => False

/-- Variables that must never be fixed: step lengths, controls, states (at stages and ends of elements),
state derivatives, user algebraic variables, global variables, the elastic variable. -/
def IsPrimal : Sym → Prop
  | .h _ _ => True
  | .u _ _ => True
  | .st1 _ _ _ _ _ => True
  | .xEnd _ _ _ => True
  | .vGlob _ => True
  | .sElastic => True
  | _ => False

/-- The NLP of the polishing step after NLP solution `w`: started at `w`, with `σ = τ = 0` and bounds
in which multipliers have been fixed. -/
structure PolishCall (S : Solver) (lam00 w : List ℝ) (c : NlpCall) : Prop where
  x0 : c.x0 = w
  g : c.lbg = S.P.form.lbg ∧ c.ubg = S.P.form.ubg
  p : c.p = S.m.pVal.flatten ++ [0, 0] ++ lam00 ++ S.m.x0
  len : c.lbx.length = S.P.form.w.length ∧ c.ubx.length = S.P.form.w.length
  /-- everything but multipliers keeps its bounds -/
  keep : ∀ (i : Nat) t, S.P.form.w[i]? = some t → ¬ IsMultiplier t →
    c.lbx[i]? = S.P.form.lbw[i]? ∧ c.ubx[i]? = S.P.form.ubw[i]?
  /-- multipliers closer to 1 than the threshold are fixed to 1 -/
  one : ∀ (i : Nat) t v, S.P.form.w[i]? = some t → IsMultiplier t → w[i]? = some v →
    |v - 1| < 10 * S.o.compTol → c.lbx[i]? = some 1 ∧ c.ubx[i]? = some 1
  /-- other multipliers below the threshold (also negative ones) are fixed to 0 -/
  zero : ∀ (i : Nat) t v, S.P.form.w[i]? = some t → IsMultiplier t → w[i]? = some v →
    10 * S.o.compTol ≤ |v - 1| → v < 10 * S.o.compTol → c.lbx[i]? = some 0 ∧ c.ubx[i]? = some 0
  /-- all other multipliers keep their bounds -/
  free : ∀ (i : Nat) t v, S.P.form.w[i]? = some t → IsMultiplier t → w[i]? = some v →
    10 * S.o.compTol ≤ |v - 1| → 10 * S.o.compTol ≤ v →
    c.lbx[i]? = S.P.form.lbw[i]? ∧ c.ubx[i]? = S.P.form.ubw[i]?

end Nosnoc
