import Verif.Props.Complete
import Verif.Witness.ParamJump
/-
C94: time-varying parameters in the switching functions.
-/
namespace Nosnoc

section
variable {colloc : IrkScheme → Nat → List ℝ} {o : Opts} {um : UserModel} {uo : Option UserOcp}
  {po : PreOpts} {m : PreModel} {oc : PreOcp} {P : Problem} {env : Env}

/-- C94, what FESD requires at the beginning of a control stage (any model without algebraic variables):
a region that is used in the first element must contain the boundary state in its closure also with the
switching functions of the previous control stage, that is with the old parameters. -/
theorem C94_old_parameters (h : SetupEx colloc o um uo po m oc P) (D : ExactPoint o po m P env)
    (hF : um.F.isSome = true) (hS : SignsOk o um) (hz : um.nZ = 0) {k : Nat} (hk : HasFE po (k + 1) 0)
    {j : Nat} (hj : j < o.nS) {s : Nat} (hs : s < um.nSys) {i : Nat} (hi : i < (um.Fmat s).nCols)
    (hw : wgt o um env (k + 1) 0 j s i ≠ 0) :
    um.InClosedRegion s i (xEndVal po m.dims k (nfe po k - 1) env) (pVal m.dims k env) := by
  have hz' : m.dims.nZ = 0 := by rw [h.toSetup.dims.2.2.1, hz]
  have hn : prevFe po (k + 1) 0 = some (k, nfe po k - 1) := by simp [prevFe]
  have hk' := prev_hasFE h.toSetup hk hn
  have hsw := D.switch_end h hz' hk'
  refine SwitchAt.closed h hF hS hsw (fun q hq => D.last_nonneg h hk' hq) (fun q hq hθ => ?_) hs hi hw
  have := (D.pair h hk hq hj hθ).2
  rwa [prevFe_lamStart hn] at this

end

/-- The hypotheses of `C94_old_parameters` are met: sliding in the second of two control stages. -/
example : ∃ po m oc P env,
    SetupEx demoColloc (slideOpts 2 1) slideModel (some UserOcp.trivial) po m oc P ∧
    ExactPoint (slideOpts 2 1) po m P env ∧ slideModel.F.isSome = true ∧
    SignsOk (slideOpts 2 1) slideModel ∧ slideModel.nZ = 0 ∧ HasFE po (0 + 1) 0 ∧
    wgt (slideOpts 2 1) slideModel env (0 + 1) 0 0 0 1 ≠ 0 := by
  obtain ⟨po, m, oc, P, env, h, D, i1, i2, hr, fe, hh, hx, hX, ht⟩ := slide_point (N := 2) (nf := 1)
    (.inr ⟨rfl, rfl⟩)
  have hk : HasFE po 1 0 := (fe 1 0).2 (by omega)
  refine ⟨po, m, oc, P, env, h, D, rfl, slide_signs 2 1, rfl, hk, ?_⟩
  have : wgt (slideOpts 2 1) slideModel env 1 0 0 0 1 = env (.st2 .theta 1 0 0 0 1) := rfl
  rw [this, ht 1 0 hk (by omega) 0 (by omega)]
  norm_num

/-- C94 is violated: `ẋ = 1` for `p > 0`, `ẋ = -1` for `p < 0`, with `p = 1` on the first and `p = -1` on the
second control stage.  Without FESD the discretised problem has a feasible point with exact
complementarity; with FESD, and otherwise the same options, it has no feasible point for any `σ < 1`. -/
theorem C94_violated :
    (∃ po m oc P env, SetupEx oneColloc (pjOpts false) pjModel (some UserOcp.trivial) po m oc P ∧
      P.form.Feasible env ∧ env .sigma = 0 ∧ env (.pStage 0 0) = 1 ∧ env (.pStage 1 0) = -1) ∧
    ∃ po m oc P, SetupEx oneColloc (pjOpts true) pjModel (some UserOcp.trivial) po m oc P ∧
      m.pVal = [[1], [-1]] ∧
      ∀ env, env (.pStage 0 0) = 1 → env (.pStage 1 0) = -1 → env .sigma < 1 →
        ¬ P.form.Feasible env := by
  obtain ⟨po, m, oc, P, h, hr, hA, -⟩ := pj_setup false
  obtain ⟨po', m', oc', P', h', hr', -, hp⟩ := pj_setup true
  exact ⟨⟨po, m, oc, P, pjEnv, h, pj_feasible h hr hA, rfl, rfl, rfl⟩, po', m', oc', P', h', hp,
    fun env h0 h1 hσ hf => absurd (pj_infeasible h' hr' h0 h1 hf) (not_le.2 hσ)⟩

end Nosnoc
