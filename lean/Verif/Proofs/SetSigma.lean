import Verif.Spec.Feasible
/-
Changing the homotopy parameter `σ` of a point only affects the complementarity conditions.
-/
namespace Nosnoc

/-- The point with another value of `σ`. -/
def setSigma (env : Env) (c : ℝ) : Env
  | .sigma => c
  | s => env s

section
variable {po : PreOpts} {d : Dims} {um : UserModel} {uo : UserOcp} {env : Env} {c : ℝ}

theorem setSigma_ne (env : Env) (c : ℝ) {s : Sym} (h : s ≠ .sigma) : setSigma env c s = env s := by
  cases s <;> first | rfl | exact absurd rfl h

theorem setSigma_endX (k e i : Nat) : setSigma env c (endX po k e i) = env (endX po k e i) := by
  unfold endX; split <;> rfl

theorem setSigma_startX (k e i : Nat) : setSigma env c (startX po k e i) = env (startX po k e i) := by
  unfold startX
  cases prevFe po k e with
  | none => rfl
  | some q => exact setSigma_endX _ _ _

theorem setSigma_hVal (k e : Nat) : hVal po k e (setSigma env c) = hVal po k e env := by
  unfold hVal; split <;> rfl

theorem setSigma_sotVal (k : Nat) : sotVal po k (setSigma env c) = sotVal po k env := by
  unfold sotVal; split <;> rfl

theorem setSigma_xVal (k e j : Nat) : xVal po d k e j (setSigma env c) = xVal po d k e j env := by
  unfold xVal evalVec stageX
  split
  · simp only [List.map_map]
    refine List.map_congr_left fun i _ => ?_
    simp only [Function.comp, setSigma_startX, setSigma_hVal]
    rfl
  · simp only [vars, blk, List.map_map]
    rfl

theorem setSigma_xEndVal (k e : Nat) :
    xEndVal po d k e (setSigma env c) = xEndVal po d k e env := by
  unfold xEndVal
  simp only [setSigma_endX]

theorem setSigma_rhs (k e j i : Nat) :
    um.stageRhs po d k e j i (setSigma env c) = um.stageRhs po d k e j i env := by
  have ha : alphaVal po d k e j (setSigma env c) = alphaVal po d k e j env := by
    unfold alphaVal rowSyms
    refine List.map_congr_left fun s hs => ?_
    obtain ⟨s', _, h⟩ := List.mem_flatMap.1 hs
    obtain ⟨i, _, rfl⟩ := List.mem_map.1 h
    rfl
  unfold UserModel.stageRhs
  rw [setSigma_xVal, ha]
  rfl

theorem setSigma_lamAt (k e j : Nat) (q : Pair) : lamAt k e j (setSigma env c) q = lamAt k e j env q := by
  cases q <;> rfl

theorem setSigma_thetaAt (k e j : Nat) (q : Pair) :
    thetaAt k e j (setSigma env c) q = thetaAt k e j env q := by
  cases q <;> rfl

theorem setSigma_lamStart (k e : Nat) (q : Pair) :
    lamStart po k e (setSigma env c) q = lamStart po k e env q := by
  unfold lamStart
  cases prevFe po k e with
  | none => cases q <;> rfl
  | some p => exact setSigma_lamAt _ _ _ _

theorem setSigma_nuOf (k e : Nat) : nuOf po d k e (setSigma env c) = nuOf po d k e env := by
  unfold nuOf sumLam sumTheta
  simp only [setSigma_lamAt, setSigma_thetaAt, setSigma_lamStart]

/-- If every complementarity condition survives the change of `σ`, so does feasibility. -/
theorem FeasibleSpec.setSigma (S : FeasibleSpec po d um uo env)
    (hc : ∀ xs y, Compl po env xs y → Compl po (setSigma env c) xs y) :
    FeasibleSpec po d um uo (setSigma env c) where
  bounds s hs := by
    rw [setSigma_ne env c (by rintro rfl; exact hs)]
    exact S.bounds s hs
  alg k e hk j hj := by
    rw [setSigma_xVal]
    exact S.alg k e hk j hj
  rk k e hk j hj i hi := by
    have := S.rk k e hk j hj i hi
    unfold RkEq at this ⊢
    rw [setSigma_hVal, setSigma_sotVal, setSigma_rhs, setSigma_startX]
    exact this
  lift hr k e hk j hj i hi := by
    have := S.lift hr k e hk j hj i hi
    unfold LiftEq at this ⊢
    rw [setSigma_hVal, setSigma_startX]
    exact this
  cont ho k e hk i hi := by
    have := S.cont ho k e hk i hi
    unfold EndEq at this ⊢
    rw [setSigma_hVal, setSigma_startX]
    exact this
  boundary h1 h2 k e hk := by
    rw [setSigma_xEndVal]
    exact S.boundary h1 h2 k e hk
  pathEnd k e hk he := by
    rw [setSigma_xEndVal, setSigma_xVal]
    exact S.pathEnd k e hk he
  pathStage hg k e hk j hj := by
    rw [setSigma_xVal]
    exact S.pathStage hg k e hk j hj
  stageComp k e hk j hj r hr := by
    rw [setSigma_xVal]
    exact hc _ _ (S.stageComp k e hk j hj r hr)
  ctrlComp k e hk he r hr := hc _ _ (S.ctrlComp k e hk he r hr)
  globComp r hr := hc _ _ (S.globComp r hr)
  compStd hu k e hk j hj q hq := by
    rw [setSigma_lamAt, setSigma_thetaAt]
    exact hc _ _ (S.compStd hu k e hk j hj q hq)
  compAll hu hcc k e hk j hj q hq := by
    rw [setSigma_lamStart, setSigma_thetaAt]
    obtain ⟨h1, h2⟩ := S.compAll hu hcc k e hk j hj q hq
    refine ⟨hc _ _ h1, fun j' hj' => ?_⟩
    rw [setSigma_lamAt]
    exact hc _ _ (h2 j' hj')
  compSum hu hcc k e hk j hj q hq := by
    simp only [setSigma_lamStart, setSigma_thetaAt, setSigma_lamAt]
    exact hc _ _ (S.compSum hu hcc k e hk j hj q hq)
  stepDirect hu hs k e hk he := by
    rw [setSigma_nuOf, setSigma_hVal, setSigma_hVal]
    exact S.stepDirect hu hs k e hk he
  stepDirectComp hu hs k e hk he := by
    rw [setSigma_nuOf, setSigma_hVal, setSigma_hVal]
    exact hc _ _ (S.stepDirectComp hu hs k e hk he)
  stepHComp hu hs k e hk he := by
    rw [setSigma_hVal, setSigma_hVal]
    exact hc _ _ (S.stepHComp hu hs k e hk he)
  equi hu hq k hk := by
    simp only [setSigma_hVal]
    exact S.equi hu hq k hk
  time h1 h2 h3 := by
    simp only [setSigma_hVal]
    exact S.time h1 h2 h3
  freeze t ht h1 h2 k hk := by
    rw [setSigma_xEndVal]
    exact S.freeze t ht h1 h2 k hk
  term i hi := by
    rw [setSigma_xEndVal]
    exact S.term i hi

end
end Nosnoc
