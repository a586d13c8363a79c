import Verif.Proofs.Cross
import Verif.Props.Reps
/-
Two constructions that differ in the cross complementarity mode only (helper lemmas for C33).
-/
namespace Nosnoc

/-- The options with another cross complementarity mode. -/
def PreOpts.withCross (po : PreOpts) (c : CrossCompMode) : PreOpts :=
  { po with toOpts := { po.toOpts with crossComp := c } }

theorem preprocess_cross (colloc : IrkScheme → Nat → List ℝ) (o : Opts) (c : CrossCompMode) :
    ({ o with crossComp := c } : Opts).preprocess colloc
      = (o.preprocess colloc).map fun po => po.withCross c := by
  unfold Opts.preprocess
  have h1 : ({ o with crossComp := c } : Opts).maxIter = o.maxIter := rfl
  have h2 : ({ o with crossComp := c } : Opts).nfeAfter = o.nfeAfter := rfl
  rw [h1, h2]
  cases o.maxIter with
  | error e => rfl
  | ok n =>
    simp only [ok_bind]
    cases hr : o.irkRep with
    | integral =>
      simp only [ok_bind]
      split <;> rfl
    | differential =>
      cases generateButcher o.nS o.scheme with
      | error e => rfl
      | ok t =>
        simp only [ok_bind]
        split <;> rfl
    | differentialLiftX =>
      cases generateButcher o.nS o.scheme with
      | error e => rfl
      | ok t =>
        simp only [ok_bind]
        split <;> rfl

section
variable {colloc : IrkScheme → Nat → List ℝ} {o : Opts} {um : UserModel} {uo : Option UserOcp}
  {po : PreOpts} {m : PreModel} {oc : PreOcp} {P : Problem} {env : Env}
  {po' : PreOpts} {m' : PreModel} {oc' : PreOcp} {P' : Problem} {c : CrossCompMode}

theorem Setup.reCross (h : Setup colloc o um uo po m oc P)
    (h' : Setup colloc { o with crossComp := c } um uo po' m' oc' P') :
    po' = po.withCross c ∧ m' = m ∧ oc' = oc := by
  obtain ⟨_, h1, h2, h3, _⟩ := construct_parts h.ok
  obtain ⟨_, h1', h2', h3', _⟩ := construct_parts h'.ok
  rw [preprocess_cross, h1] at h1'
  cases h1'
  have : um.preprocess (po.withCross c) = um.preprocess po := rfl
  rw [this, h2] at h2'
  cases h2'
  rw [h3] at h3'
  cases h3'
  exact ⟨rfl, rfl, rfl⟩

/-- Everything but the cross complementarity is untouched. -/
theorem FeasibleSpec.reCross {d : Dims} {uo : UserOcp} (S : FeasibleSpec po d um uo env)
    (hall : po.useFesd = true → c = .complementAll → ∀ k e, HasFE po k e →
      ∀ j < po.nS, ∀ q, IsPair po d q →
      Compl po env [thetaAt k e j env q] (lamStart po k e env q) ∧
      ∀ j' < po.nS, Compl po env [thetaAt k e j env q] (lamAt k e j' env q))
    (hsum : po.useFesd = true → c = .sumLambdas → ∀ k e, HasFE po k e →
      ∀ j < po.nS, ∀ q, IsPair po d q →
      Compl po env ((List.range (nLamPts po k e)).map (fun j' => lamAt k e j' env q)
        ++ [lamStart po k e env q]) (thetaAt k e j env q)) :
    FeasibleSpec (po.withCross c) d um uo env where
  bounds := S.bounds
  alg := S.alg
  rk := S.rk
  lift := S.lift
  cont := S.cont
  boundary := S.boundary
  pathEnd := S.pathEnd
  pathStage := S.pathStage
  stageComp := S.stageComp
  ctrlComp := S.ctrlComp
  globComp := S.globComp
  compStd := S.compStd
  compAll := hall
  compSum := hsum
  stepDirect := S.stepDirect
  stepDirectComp := S.stepDirectComp
  stepHComp := S.stepHComp
  equi := S.equi
  time := S.time
  freeze := S.freeze
  term := S.term
end
end Nosnoc
