import Verif.Spec.Renumber
import Verif.Spec.Lam00
import Verif.Spec.Objective
import Verif.Proofs.Transfer
import Verif.Proofs.PssTransfer
import Verif.Proofs.DcsAlg
/-
Helper: feasibility and objective do not change when the regions are renumbered.
-/
namespace Nosnoc

section
variable {um : UserModel} {π : Nat → Equiv.Perm Nat} {o : PreOpts} {d : Dims} {uo : UserOcp} {env : Env}

theorem renumber_Fmat (s : Nat) : (um.renumber π).Fmat s = (um.Fmat s).renumber (π s) := by
  unfold UserModel.Fmat UserModel.renumber
  cases um.F with
  | none => rfl
  | some l =>
    simp only [Option.map_some, Option.getD_some, List.getD_eq_getElem?_getD, List.getElem?_mapIdx]
    cases l[s]? <;> rfl

theorem renumber_Smat (s : Nat) : (um.renumber π).Smat s = (um.Smat s).renumber (π s) := by
  unfold UserModel.Smat UserModel.renumber
  cases um.S with
  | none => rfl
  | some l =>
    simp only [Option.map_some, Option.getD_some, List.getD_eq_getElem?_getD, List.getElem?_mapIdx]
    cases l[s]? <;> rfl

theorem renumber_gSt (s : Nat) : (um.renumber π).gSt s = (um.gSt s).renumber (π s) := by
  unfold UserModel.gSt UserModel.renumber
  cases um.gStewart with
  | none => rfl
  | some l =>
    simp only [Option.map_some, Option.getD_some, List.getD_eq_getElem?_getD, List.getElem?_mapIdx]
    cases l[s]? <;> rfl

theorem renumber_truthy : (um.renumber π).gStewartTruthy = um.gStewartTruthy := by
  unfold UserModel.gStewartTruthy UserModel.renumber
  rcases um.gStewart with _ | _ | ⟨a, l⟩
  · rfl
  · rfl
  · simp

theorem renumber_nSys : (um.renumber π).nSys = um.nSys := by
  unfold UserModel.nSys UserModel.renumber
  cases um.F <;> simp

theorem renumber_gVal (s i : Nat) (x z p : List ℝ) :
    (um.renumber π).gVal s i x z p = um.gVal s (π s i) x z p := by
  unfold UserModel.gVal
  rw [renumber_truthy, renumber_gSt, renumber_Smat]
  rfl

theorem renumber_renumber : (um.renumber π).renumber (fun s => (π s).symm) = um := by
  unfold UserModel.renumber
  have h1 : (um.F.map fun l => l.mapIdx fun s M => M.renumber (π s)).map
      (fun l => l.mapIdx fun s (M : UMat) => M.renumber (π s).symm) = um.F := by
    cases um.F with
    | none => rfl
    | some l =>
      refine congrArg some (List.ext_getElem (by simp) fun i _ _ => ?_)
      simp [UMat.renumber]
  have h2 : (um.S.map fun l => l.mapIdx fun s M => M.renumber (π s)).map
      (fun l => l.mapIdx fun s (M : SMat) => M.renumber (π s).symm) = um.S := by
    cases um.S with
    | none => rfl
    | some l =>
      refine congrArg some (List.ext_getElem (by simp) fun i _ _ => ?_)
      simp [SMat.renumber]
  have h3 : (um.gStewart.map fun l => l.mapIdx fun s M => M.renumber (π s)).map
      (fun l => l.mapIdx fun s (M : UVec) => M.renumber (π s).symm) = um.gStewart := by
    cases um.gStewart with
    | none => rfl
    | some l =>
      refine congrArg some (List.ext_getElem (by simp) fun i _ _ => ?_)
      simp [UVec.renumber]
  simp only [h1, h2, h3]

theorem renumberEnv_renumberEnv : renumberEnv (fun s => (π s).symm) (renumberEnv π env) = env := by
  funext t
  cases t with
  | st2 f k e j s i => cases f <;> simp [renumberEnv]
  | lam00 f s i => cases f <;> simp [renumberEnv]
  | _ => rfl

theorem UserModel.Renumbers.symm (h : um.Renumbers π) :
    (um.renumber π).Renumbers fun s => (π s).symm := by
  intro s hs i
  rw [renumber_nSys] at hs
  rw [renumber_Fmat]
  show (π s).symm i < (um.Fmat s).nCols ↔ i < (um.Fmat s).nCols
  rw [← h s hs, Equiv.apply_symm_apply]

theorem renumber_sum {n : Nat} {σ : Equiv.Perm Nat} (h : ∀ i, σ i < n ↔ i < n) (f : Nat → ℝ) :
    ∑ i ∈ Finset.range n, f (σ i) = ∑ i ∈ Finset.range n, f i :=
  Finset.sum_equiv σ (fun i => by simp [h]) fun _ _ => rfl

theorem renumber_rhsStewart (h : um.Renumbers π) (row : Nat) (x z u p v : List ℝ) (θ : Nat → Nat → ℝ) :
    (um.renumber π).rhsStewart row x z u p v (fun s i => θ s (π s i))
      = um.rhsStewart row x z u p v θ := by
  unfold UserModel.rhsStewart
  rw [renumber_nSys]
  refine Finset.sum_congr rfl fun s hs => ?_
  rw [renumber_Fmat]
  exact renumber_sum (h s (Finset.mem_range.1 hs)) fun i => (um.Fmat s).entry row i x z u p v * θ s i

theorem renumber_rhsStep (h : um.Renumbers π) (row : Nat) (x z u p v : List ℝ) (α : Nat → Nat → ℝ) :
    (um.renumber π).rhsStep row x z u p v α = um.rhsStep row x z u p v α := by
  unfold UserModel.rhsStep
  rw [← renumber_rhsStewart h]
  congr 1
  funext s i
  rw [renumber_Smat]
  rfl

/-! ### Values at the renumbered point -/

theorem renumberEnv_other {t : Sym} (ht : ¬ t.IsMult) : renumberEnv π env t = env t := by
  cases t with
  | st2 => exact absurd trivial ht
  | lam00 => exact absurd trivial ht
  | _ => rfl

theorem renumberEnv_hVal (k e : Nat) : hVal o k e (renumberEnv π env) = hVal o k e env := by
  unfold hVal; split <;> rfl

theorem renumberEnv_sotVal (k : Nat) : sotVal o k (renumberEnv π env) = sotVal o k env := by
  unfold sotVal; split <;> rfl

theorem renumberEnv_endX (k e i : Nat) : renumberEnv π env (endX o k e i) = env (endX o k e i) := by
  unfold endX; split <;> rfl

theorem renumberEnv_startX (k e i : Nat) : renumberEnv π env (startX o k e i) = env (startX o k e i) := by
  unfold startX
  cases prevFe o k e with
  | none => rfl
  | some q => exact renumberEnv_endX q.1 q.2 i

theorem renumberEnv_xVal (k e j : Nat) : xVal o d k e j (renumberEnv π env) = xVal o d k e j env := by
  refine ext_getD (by rw [length_xVal, length_xVal]) fun i hi => ?_
  rw [length_xVal] at hi
  rw [xVal_get hi, xVal_get hi, renumberEnv_startX, renumberEnv_hVal]
  rfl

theorem renumberEnv_xEndVal (k e : Nat) : xEndVal o d k e (renumberEnv π env) = xEndVal o d k e env :=
  List.map_congr_left fun i _ => renumberEnv_endX k e i

/-- A pair under its new number corresponds to the old pair. -/
def oldPair (π : Nat → Equiv.Perm Nat) : Pair → Pair
  | .region s i => .region s (π s i)
  | q => q

theorem renumberEnv_theta (k e j : Nat) (q : Pair) :
    thetaAt k e j (renumberEnv π env) q = thetaAt k e j env (oldPair π q) := by cases q <;> rfl

theorem renumberEnv_lam (k e j : Nat) (q : Pair) :
    lamAt k e j (renumberEnv π env) q = lamAt k e j env (oldPair π q) := by cases q <;> rfl

theorem renumberEnv_lamStart (k e : Nat) (q : Pair) :
    lamStart o k e (renumberEnv π env) q = lamStart o k e env (oldPair π q) := by
  unfold lamStart
  cases prevFe o k e with
  | none => cases q <;> rfl
  | some r => exact renumberEnv_lam _ _ _ _

theorem renumberEnv_alphaVal (k e j : Nat) :
    alphaVal o d k e j (renumberEnv π env) = alphaVal o d k e j env := by
  unfold alphaVal
  refine List.map_congr_left fun t ht => ?_
  unfold rowSyms blk at ht
  simp only [List.mem_flatMap, List.mem_map] at ht
  obtain ⟨s, -, i, -, rfl⟩ := ht
  rfl

theorem renumber_stageRhs (h : um.Renumbers π) (k e j row : Nat) :
    (um.renumber π).stageRhs o d k e j row (renumberEnv π env) = um.stageRhs o d k e j row env := by
  unfold UserModel.stageRhs
  rw [renumberEnv_xVal, renumberEnv_alphaVal]
  cases o.pss with
  | stewart => exact renumber_rhsStewart h row _ _ _ _ _ fun s i => env (.st2 .theta k e j s i)
  | step =>
    cases hF : um.F with
    | some l =>
      have : (um.renumber π).F = some (l.mapIdx fun s M => M.renumber (π s)) := by
        unfold UserModel.renumber; simp [hF]
      rw [this]
      exact renumber_rhsStep h row _ _ _ _ _ _
    | none =>
      have : (um.renumber π).F = none := by unfold UserModel.renumber; simp [hF]
      rw [this]
      have hx : (um.renumber π).fx = um.fx := rfl
      rw [hx]
      cases um.fx <;> rfl

theorem renumber_switching (h : um.Renumbers π) {k e j : Nat} {x z p : List ℝ}
    (hs : um.Switching o k e j x z p env) :
    (um.renumber π).Switching o k e j x z p (renumberEnv π env) := by
  unfold UserModel.Switching at hs ⊢
  cases hp : o.pss with
  | stewart =>
    rw [hp] at hs
    intro s hs' i hi
    rw [renumber_nSys] at hs'
    rw [renumber_Fmat] at hi
    rw [renumber_gVal]
    exact hs s hs' (π s i) ((h s hs' i).2 hi)
  | step =>
    rw [hp] at hs
    intro s hs' i hi
    rw [renumber_nSys] at hs'
    exact hs s hs' i hi

/-- Dimensions belong to the model. -/
def RegionDims (o : PreOpts) (d : Dims) (um : UserModel) : Prop :=
  d.nSys = um.nSys ∧ (o.pss = .stewart → ∀ s < um.nSys, d.nF s = (um.Fmat s).nCols)

theorem oldPair_isPair (h : um.Renumbers π) (hd : RegionDims o d um) (q : Pair) :
    IsPair o d (oldPair π q) ↔ IsPair o d q := by
  cases q with
  | region s i =>
    show (o.pss = .stewart ∧ s < d.nSys ∧ π s i < d.nF s) ↔ (o.pss = .stewart ∧ s < d.nSys ∧ i < d.nF s)
    constructor
    · rintro ⟨hp, hs, hi⟩
      have hs' : s < um.nSys := by rw [← hd.1]; exact hs
      rw [hd.2 hp s hs', h s hs', ← hd.2 hp s hs'] at hi
      exact ⟨hp, hs, hi⟩
    · rintro ⟨hp, hs, hi⟩
      have hs' : s < um.nSys := by rw [← hd.1]; exact hs
      rw [hd.2 hp s hs', ← h s hs', ← hd.2 hp s hs'] at hi
      exact ⟨hp, hs, hi⟩
  | neg s i => exact Iff.rfl
  | pos s i => exact Iff.rfl

theorem oldPair_perm (h : um.Renumbers π) (hd : RegionDims o d um) :
    ((pairList o d).map (oldPair π)).Perm (pairList o d) := by
  unfold pairList
  cases hp : o.pss with
  | stewart =>
    simp only [List.map_flatMap]
    refine List.Perm.flatMap_left _ fun s hs => ?_
    have hs' : s < um.nSys := by rw [← hd.1]; exact List.mem_range.1 hs
    rw [hd.2 hp s hs']
    have hr : ((List.range (um.Fmat s).nCols).map (π s)).Perm (List.range (um.Fmat s).nCols) := by
      rw [List.perm_ext_iff_of_nodup (List.nodup_range.map (π s).injective) List.nodup_range]
      intro i
      simp only [List.mem_map, List.mem_range]
      constructor
      · rintro ⟨j, hj, rfl⟩
        exact (h s hs' j).2 hj
      · intro hi
        exact ⟨(π s).symm i, by rw [← h s hs', Equiv.apply_symm_apply]; exact hi, by simp⟩
    have := hr.map (Pair.region s)
    rw [List.map_map] at this
    rw [List.map_map]
    exact this
  | step =>
    simp only [List.map_append, List.map_flatMap, List.map_map]
    exact List.Perm.refl _

theorem renumberEnv_nuOf (h : um.Renumbers π) (hd : RegionDims o d um) (k e : Nat) :
    nuOf o d k e (renumberEnv π env) = nuOf o d k e env := by
  unfold nuOf
  have h1 : ∀ e q, sumLam o k e (renumberEnv π env) q = sumLam o k e env (oldPair π q) := by
    intro e q
    unfold sumLam
    rw [renumberEnv_lamStart]
    simp only [renumberEnv_lam]
  have h2 : ∀ e q, sumTheta o k e (renumberEnv π env) q = sumTheta o k e env (oldPair π q) := by
    intro e q
    unfold sumTheta
    simp only [renumberEnv_theta]
  simp only [h1, h2]
  have := ((oldPair_perm (π := π) h hd).map fun q => sumLam o k (e - 1) env q * sumLam o k e env q
    + sumTheta o k (e - 1) env q * sumTheta o k e env q).prod_eq
  rw [List.map_map] at this
  exact this

theorem renumber_objective (h : um.Renumbers π) (hd : RegionDims o d um) :
    objectiveSpec o d uo (renumberEnv π env) = objectiveSpec o d uo env := by
  have h1 : runningCost o d uo (renumberEnv π env) = runningCost o d uo env := by
    unfold runningCost
    simp only [renumberEnv_xVal, renumberEnv_hVal, renumberEnv_sotVal]
    rfl
  have h2 : stepCosts o d (renumberEnv π env) = stepCosts o d env := by
    unfold stepCosts stepCost stepDiff
    simp only [renumberEnv_hVal, renumberEnv_nuOf h hd]
  have h3 : terminalCost o d uo (renumberEnv π env) = terminalCost o d uo env := by
    unfold terminalCost
    rw [renumberEnv_xEndVal]
    rfl
  unfold objectiveSpec plainObjective
  rw [h1, h2, h3]
  rfl

theorem FeasibleSpec.renumber (hf : FeasibleSpec o d um uo env) (h : um.Renumbers π)
    (hd : RegionDims o d um) : FeasibleSpec o d (um.renumber π) uo (renumberEnv π env) where
  bounds := by
    intro s hs
    cases s with
    | st2 f k e j s i =>
      have old := oldPair_isPair (o := o) h hd (.region s i)
      cases f with
      | theta =>
        have := old.2 ⟨hs.1, hs.2.2.2⟩
        exact hf.bounds (.st2 .theta k e j s (π s i)) ⟨hs.1, hs.2.1, hs.2.2.1, this.2⟩
      | lam =>
        have := old.2 ⟨hs.1, hs.2.2.2⟩
        exact hf.bounds (.st2 .lam k e j s (π s i)) ⟨hs.1, hs.2.1, hs.2.2.1, this.2⟩
      | mu => exact hf.bounds (.st2 .mu k e j s i) hs
      | alpha => exact hf.bounds (.st2 .alpha k e j s i) hs
      | lamN => exact hf.bounds (.st2 .lamN k e j s i) hs
      | lamP => exact hf.bounds (.st2 .lamP k e j s i) hs
    | st1 f k e j i => cases f <;> exact hf.bounds (.st1 _ k e j i) hs
    | sElastic => exact hf.bounds .sElastic hs
    | vGlob i => exact hf.bounds (.vGlob i) hs
    | u k i => exact hf.bounds (.u k i) hs
    | sot k => exact hf.bounds (.sot k) hs
    | h k e => exact hf.bounds (.h k e) hs
    | xEnd k e i => exact hf.bounds (.xEnd k e i) hs
    | _ => exact absurd hs (by simp [IsVar])
  alg := by
    intro k e hk j hj
    rw [renumberEnv_xVal]
    obtain ⟨a1, a2, a3⟩ := hf.alg k e hk j hj
    refine ⟨renumber_switching h a1, fun hp s hs => ?_, a3⟩
    rw [renumber_nSys] at hs
    rw [renumber_Fmat]
    exact (renumber_sum (h s hs) fun i => env (.st2 .theta k e j s i)).trans (a2 hp s hs)
  rk := by
    intro k e hk j hj i hi
    have := hf.rk k e hk j hj i hi
    unfold RkEq at this ⊢
    rw [renumber_stageRhs h, renumberEnv_sotVal, renumberEnv_hVal, renumberEnv_startX]
    exact this
  lift := by
    intro hl k e hk j hj i hi
    have := hf.lift hl k e hk j hj i hi
    unfold LiftEq at this ⊢
    rw [renumberEnv_startX, renumberEnv_hVal]
    exact this
  cont := by
    intro hl k e hk i hi
    have := hf.cont hl k e hk i hi
    unfold EndEq at this ⊢
    rw [renumberEnv_startX, renumberEnv_hVal]
    exact this
  boundary := by
    intro h1 h2 k e hk
    rw [renumberEnv_xEndVal]
    exact renumber_switching h (hf.boundary h1 h2 k e hk)
  pathEnd := by
    intro k e hk he
    rw [renumberEnv_xEndVal, renumberEnv_xVal]
    exact hf.pathEnd k e hk he
  pathStage := by
    intro hg k e hk j hj
    rw [renumberEnv_xVal]
    exact hf.pathStage hg k e hk j hj
  stageComp := by
    intro k e hk j hj q hq
    rw [renumberEnv_xVal]
    exact hf.stageComp k e hk j hj q hq
  ctrlComp := fun k e hk he q hq => hf.ctrlComp k e hk he q hq
  globComp := fun q hq => hf.globComp q hq
  compStd := by
    intro hu k e hk j hj q hq
    rw [renumberEnv_lam, renumberEnv_theta]
    exact hf.compStd hu k e hk j hj _ ((oldPair_isPair h hd q).2 hq)
  compAll := by
    intro hu hc k e hk j hj q hq
    rw [renumberEnv_lamStart, renumberEnv_theta]
    simp only [renumberEnv_lam]
    exact hf.compAll hu hc k e hk j hj _ ((oldPair_isPair h hd q).2 hq)
  compSum := by
    intro hu hc k e hk j hj q hq
    rw [renumberEnv_lamStart, renumberEnv_theta]
    simp only [renumberEnv_lam]
    exact hf.compSum hu hc k e hk j hj _ ((oldPair_isPair h hd q).2 hq)
  stepDirect := by
    intro hu hs k e hk he
    rw [renumberEnv_nuOf h hd, renumberEnv_hVal, renumberEnv_hVal]
    exact hf.stepDirect hu hs k e hk he
  stepDirectComp := by
    intro hu hs k e hk he
    rw [renumberEnv_nuOf h hd, renumberEnv_hVal, renumberEnv_hVal]
    exact hf.stepDirectComp hu hs k e hk he
  stepHComp := by
    intro hu hs k e hk he
    rw [renumberEnv_hVal, renumberEnv_hVal]
    exact hf.stepHComp hu hs k e hk he
  equi := by
    intro hu he k hk
    simp only [renumberEnv_hVal]
    exact hf.equi hu he k hk
  time := by
    intro h1 h2 h3
    simp only [renumberEnv_hVal]
    exact hf.time h1 h2 h3
  freeze := by
    intro t ht h1 h2 k hk
    rw [renumberEnv_xEndVal]
    exact hf.freeze t ht h1 h2 k hk
  term := by
    intro i hi
    rw [renumberEnv_xEndVal]
    exact hf.term i hi

end
end Nosnoc
