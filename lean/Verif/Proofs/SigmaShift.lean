import Verif.Spec.Relax
import Verif.Proofs.Dynamics
/-
What does not depend on the homotopy parameters.
-/
namespace Nosnoc
section
variable {o : PreOpts} {d : Dims} {um : UserModel} {uo : UserOcp} {env : Env} {σ τ : ℝ}

theorem withSigma_hVal (k e : Nat) : hVal o k e (withSigma env σ τ) = hVal o k e env := by
  unfold hVal; split <;> rfl

theorem withSigma_sotVal (k : Nat) : sotVal o k (withSigma env σ τ) = sotVal o k env := by
  unfold sotVal; split <;> rfl

theorem withSigma_endX (k e i : Nat) : withSigma env σ τ (endX o k e i) = env (endX o k e i) := by
  unfold endX; split <;> rfl

theorem withSigma_startX (k e i : Nat) :
    withSigma env σ τ (startX o k e i) = env (startX o k e i) := by
  unfold startX
  cases prevFe o k e with
  | none => rfl
  | some q => exact withSigma_endX _ _ _

theorem withSigma_xVal (k e j : Nat) : xVal o d k e j (withSigma env σ τ) = xVal o d k e j env := by
  refine ext_getD (by rw [length_xVal, length_xVal]) fun i hi => ?_
  rw [length_xVal] at hi
  rw [xVal_get hi, xVal_get hi, withSigma_startX, withSigma_hVal]
  rfl

theorem withSigma_xEndVal (k e : Nat) :
    xEndVal o d k e (withSigma env σ τ) = xEndVal o d k e env :=
  List.map_congr_left fun i _ => withSigma_endX k e i

theorem withSigma_alphaVal (k e j : Nat) :
    alphaVal o d k e j (withSigma env σ τ) = alphaVal o d k e j env := by
  unfold alphaVal
  refine List.map_congr_left fun s hs => ?_
  simp only [rowSyms, blk, List.mem_flatMap, List.mem_map] at hs
  obtain ⟨_, _, _, _, rfl⟩ := hs
  rfl

theorem withSigma_rhs (k e j i : Nat) :
    um.stageRhs o d k e j i (withSigma env σ τ) = um.stageRhs o d k e j i env := by
  unfold UserModel.stageRhs
  simp only [withSigma_xVal, withSigma_alphaVal]
  rfl

theorem withSigma_theta (k e j : Nat) (q : Pair) :
    thetaAt k e j (withSigma env σ τ) q = thetaAt k e j env q := by cases q <;> rfl
theorem withSigma_lam (k e j : Nat) (q : Pair) :
    lamAt k e j (withSigma env σ τ) q = lamAt k e j env q := by cases q <;> rfl
theorem withSigma_lam00 (q : Pair) : lam00At (withSigma env σ τ) q = lam00At env q := by
  cases q <;> rfl
theorem withSigma_lamStart (k e : Nat) (q : Pair) :
    lamStart o k e (withSigma env σ τ) q = lamStart o k e env q := by
  unfold lamStart
  cases prevFe o k e with
  | none => exact withSigma_lam00 q
  | some r => exact withSigma_lam _ _ _ q
theorem withSigma_nu (k e : Nat) : nuOf o d k e (withSigma env σ τ) = nuOf o d k e env := by
  unfold nuOf sumLam sumTheta
  simp only [withSigma_theta, withSigma_lam, withSigma_lamStart]

/-- If the complementarity relation survives the change of `σ` and `τ`, feasibility does. -/
theorem FeasibleSpec.sigma (hf : FeasibleSpec o d um uo env)
    (hc : ∀ xs y, Compl o env xs y → Compl o (withSigma env σ τ) xs y) :
    FeasibleSpec o d um uo (withSigma env σ τ) where
  bounds := by
    intro s hs
    have : withSigma env σ τ s = env s := by
      cases s with
      | sigma => exact hs.elim
      | tau => exact hs.elim
      | _ => rfl
    rw [this]
    exact hf.bounds s hs
  alg := by
    intro k e hk j hj
    rw [withSigma_xVal]
    exact hf.alg k e hk j hj
  rk := by
    intro k e hk j hj i hi
    have := hf.rk k e hk j hj i hi
    unfold RkEq at this ⊢
    rw [withSigma_rhs, withSigma_sotVal, withSigma_hVal, withSigma_startX]
    exact this
  lift := by
    intro hl k e hk j hj i hi
    have := hf.lift hl k e hk j hj i hi
    unfold LiftEq at this ⊢
    rw [withSigma_startX, withSigma_hVal]
    exact this
  cont := by
    intro hl k e hk i hi
    have := hf.cont hl k e hk i hi
    unfold EndEq at this ⊢
    rw [withSigma_startX, withSigma_hVal]
    exact this
  boundary := by
    intro h1 h2 k e hk
    rw [withSigma_xEndVal]
    exact hf.boundary h1 h2 k e hk
  pathEnd := by
    intro k e hk he
    rw [withSigma_xEndVal, withSigma_xVal]
    exact hf.pathEnd k e hk he
  pathStage := by
    intro hg k e hk j hj
    rw [withSigma_xVal]
    exact hf.pathStage hg k e hk j hj
  stageComp := by
    intro k e hk j hj q hq
    rw [withSigma_xVal]
    exact hc _ _ (hf.stageComp k e hk j hj q hq)
  ctrlComp := fun k e hk he q hq => hc _ _ (hf.ctrlComp k e hk he q hq)
  globComp := fun q hq => hc _ _ (hf.globComp q hq)
  compStd := by
    intro hu k e hk j hj q hq
    rw [withSigma_lam, withSigma_theta]
    exact hc _ _ (hf.compStd hu k e hk j hj q hq)
  compAll := by
    intro hu hcc k e hk j hj q hq
    simp only [withSigma_lam, withSigma_theta, withSigma_lamStart]
    obtain ⟨h1, h2⟩ := hf.compAll hu hcc k e hk j hj q hq
    exact ⟨hc _ _ h1, fun j' hj' => hc _ _ (h2 j' hj')⟩
  compSum := by
    intro hu hcc k e hk j hj q hq
    simp only [withSigma_lam, withSigma_theta, withSigma_lamStart]
    exact hc _ _ (hf.compSum hu hcc k e hk j hj q hq)
  stepDirect := by
    intro hu hs k e hk he
    rw [withSigma_hVal, withSigma_hVal, withSigma_nu]
    exact hf.stepDirect hu hs k e hk he
  stepDirectComp := by
    intro hu hs k e hk he
    rw [withSigma_hVal, withSigma_hVal, withSigma_nu]
    exact hc _ _ (hf.stepDirectComp hu hs k e hk he)
  stepHComp := by
    intro hu hs k e hk he
    rw [withSigma_hVal, withSigma_hVal]
    exact hc _ _ (hf.stepHComp hu hs k e hk he)
  equi := by
    intro hu he k hk
    simp only [withSigma_hVal]
    exact hf.equi hu he k hk
  time := by
    intro h1 h2 h3
    simp only [withSigma_hVal]
    exact hf.time h1 h2 h3
  freeze := by
    intro t ht h1 h2 k hk
    rw [withSigma_xEndVal]
    exact hf.freeze t ht h1 h2 k hk
  term := by
    intro i hi
    rw [withSigma_xEndVal]
    exact hf.term i hi

end
end Nosnoc
