import Verif.Spec.Objective
import Verif.Proofs.Master
/-
Helper lemmas: the objective in closed form.
-/
namespace Nosnoc
section
variable {o : PreOpts} {m : PreModel} {oc : PreOcp} {uo : UserOcp} {env : Env}

theorem cost_noCost {cs : List Cmd} (h : ∀ c ∈ cs, ∀ e, c ≠ .cost e) (env : Env) :
    (cs.map fun c => cmdCost c env).sum = 0 := by
  apply List.sum_eq_zero
  intro x hx
  obtain ⟨c, hc, rfl⟩ := List.mem_map.1 hx
  cases c with
  | con => rfl
  | compl => rfl
  | cost e => exact absurd rfl (h _ hc e)

theorem stepEqC_cost (k e : Nat) :
    ((stepEqC o m.dims k e).map fun c => cmdCost c env).sum = stepCost o m.dims k e env := by
  unfold stepEqC stepCost
  cases hu : o.useFesd with
  | false => simp
  | true =>
    simp only [Bool.true_eq_false, if_false, if_true]
    have hnom : o.terminalTime / ((o.nStages : ℝ) * (nfe o k : ℝ)) = nominalH o k := by
      unfold nominalH; rw [div_div]
    cases hs : o.stepEq <;> by_cases h0 : e = 0 <;>
      simp [h0, cmdCost, nuVal_eq, stepDiff, hnom]

theorem feCmds_cost (ho : OcpPre uo m oc) (k e : Nat) :
    ((feCmds o m oc k e).map fun c => cmdCost c env).sum
      = ∑ j ∈ Finset.range o.nS, quadWeight o j * hVal o k e env * (sotVal o k env *
          uo.fq (xVal o m.dims k e j env) (uVal m.dims k env) (pVal m.dims k env)
            (vVal m.dims env)) + stepCost o m.dims k e env := by
  unfold feCmds
  simp only [List.map_append, List.sum_append]
  rw [stepEqC_cost]
  have h1 : ((liftC o m.dims k e).map fun c => cmdCost c env).sum = 0 := by
    apply cost_noCost
    intro c hc e
    unfold liftC at hc
    split at hc
    · obtain ⟨j, _, rfl⟩ := List.mem_map.1 hc; simp
    · cases hc
  have h2 : ((contC o m.dims k e).map fun c => cmdCost c env).sum = 0 := by
    apply cost_noCost
    intro c hc e
    unfold contC at hc
    split at hc
    · rw [List.mem_singleton] at hc; subst hc; simp
    · cases hc
  have h3 : ((pathC o m oc k e).map fun c => cmdCost c env).sum = 0 := by
    apply cost_noCost
    intro c hc e
    simp only [pathC, List.mem_append] at hc
    rcases hc with hc | hc
    · split at hc
      · rw [List.mem_singleton] at hc; subst hc; simp
      · cases hc
    · split at hc
      · obtain ⟨j, _, rfl⟩ := List.mem_map.1 hc; simp
      · cases hc
  have h4 : ((boundC o m k e).map fun c => cmdCost c env).sum = 0 := by
    apply cost_noCost
    intro c hc e
    unfold boundC at hc
    split at hc
    · rw [List.mem_singleton] at hc; subst hc; simp
    · cases hc
  have h5 : ((pathCompC o m oc k e).map fun c => cmdCost c env).sum = 0 := by
    apply cost_noCost
    intro c hc e
    simp only [pathCompC, List.mem_append] at hc
    rcases hc with hc | hc
    · obtain ⟨j, _, rfl⟩ := List.mem_map.1 hc; simp
    · split at hc
      · rw [List.mem_singleton] at hc; subst hc; simp
      · cases hc
  have h6 : ((crossC o m.dims k e).map fun c => cmdCost c env).sum = 0 := by
    apply cost_noCost
    intro c hc e
    unfold crossC at hc
    split at hc
    · obtain ⟨j, _, rfl⟩ := List.mem_map.1 hc; simp
    · split at hc
      · obtain ⟨j, _, hc⟩ := List.mem_flatMap.1 hc
        rcases List.mem_cons.1 hc with rfl | hc
        · simp
        · obtain ⟨jj, _, rfl⟩ := List.mem_map.1 hc; simp
      · obtain ⟨j, _, rfl⟩ := List.mem_map.1 hc; simp
  rw [h1, h2, h3, h4, h5, h6]
  simp only [zero_add, add_zero]
  congr 1
  rw [List.map_flatMap, List.flatMap_def, List.sum_flatten, List.map_map, sum_map_range]
  apply Finset.sum_congr rfl
  intro j _
  simp only [Function.comp_def, stageC, List.map_cons, List.map_nil, List.sum_cons, List.sum_nil,
    cmdCost, zero_add, add_zero]
  rw [fqAt_eq ho]
  rfl

theorem primal_cost : (primalOf o m oc).form.cost env = 0 := by
  rfl

theorem feOf_cost (k e : Nat) : (feOf o m oc k e).form.cost env = 0 := by
  unfold feOf feInit
  have : (FE.blank o m.dims k e (prevRef o k e)).form.cost env = 0 := by
    unfold FE.blank
    by_cases h : o.useFesd = true <;> simp [h, Form.empty, const]
  exact this

theorem stageBlks_cost (ho : OcpPre uo m oc) (hx : FEDataOk m oc)
    (hf : FunsOk o m oc) (ha : NoAugSum o) (k : Nat) :
    ((stageBlks o m oc k).map fun b => b.cost env).sum
      = ∑ e ∈ Finset.range (nfe o k), (∑ j ∈ Finset.range o.nS,
          quadWeight o j * hVal o k e env * (sotVal o k env *
          uo.fq (xVal o m.dims k e j env) (uVal m.dims k env) (pVal m.dims k env)
            (vVal m.dims env)) + stepCost o m.dims k e env) := by
  unfold stageBlks
  simp only [List.map_append, List.sum_append, List.map_map]
  have h1 : ((if o.useFesd = true ∧ o.equidistant = true then [equiBlk o k] else []).map
      fun b => b.cost env).sum = 0 := by
    split <;> simp [equiBlk, const]
  have h2 : ((if o.timeFreezing = true ∧ o.equidistant = true then [tfBlk o m k] else []).map
      fun b => b.cost env).sum = 0 := by
    split <;> simp [tfBlk, const]
  rw [h1, h2, add_zero, add_zero, sum_map_range]
  apply Finset.sum_congr rfl
  intro e _
  show (feDone o m oc k e).form.cost env = _
  rw [(feDone_facts hx hf ha k e).cost, feOf_cost, zero_add, feCmds_cost ho]

theorem form5_cost (ho : OcpPre uo m oc) (hx : FEDataOk m oc)
    (hf : FunsOk o m oc) (ha : NoAugSum o) :
    (form5 o m oc).cost env = objectiveSpec o m.dims uo env := by
  have h0 : (form0 o m oc).cost env = runningCost o m.dims uo env + stepCosts o m.dims env := by
    unfold form0 allBlks
    rw [Form.addBs_cost, primal_cost, zero_add, List.map_flatMap, List.flatMap_def,
      List.sum_flatten, List.map_map, sum_map_range]
    unfold runningCost stepCosts
    rw [← Finset.sum_add_distrib]
    apply Finset.sum_congr rfl
    intro k _
    simp only [Function.comp_def]
    rw [stageBlks_cost ho hx hf ha, Finset.sum_add_distrib]
  have h1 : ((execForm o .boolGlob (form0 o m oc) (globC m oc)).addB (termBlk o m oc)).cost env
      = plainObjective o m.dims uo env := by
    show (form0 o m oc).cost env + 0 + (termBlk o m oc).cost env = _
    rw [h0, add_zero]
    unfold plainObjective terminalCost
    rw [← fqT_eq ho]
    rfl
  have h2 : (form5 o m oc).cost env = (elasticCost o
      ((execForm o .boolGlob (form0 o m oc) (globC m oc)).addB (termBlk o m oc))).cost env := by
    show (form4 o m oc).cost env = _
    unfold form4
    rw [Form.addBs_cost]
    have : ((timeBlks o).map fun b => b.cost env).sum = 0 := by
      unfold timeBlks; split <;> simp [const]
    rw [this, add_zero]
  rw [h2]
  unfold elasticCost objectiveSpec
  cases hm : o.mpcc <;> simp only [isElastic, reduceCtorEq, or_false, or_true, or_self, if_true,
    if_false, h1, Bool.false_eq_true]
  all_goals (split <;> simp only [h1])

end

section
variable {colloc : IrkScheme → Nat → List ℝ} {o : Opts} {um : UserModel} {uo : Option UserOcp}
  {po : PreOpts} {m : PreModel} {oc : PreOcp} {P : Problem} {env : Env}

theorem Built.cost (h : Built colloc o um uo po m oc P) (he : po.constraintHandling = .exact) :
    P.form.cost env = objectiveSpec po m.dims (uo.getD UserOcp.trivial) env := by
  rw [h.form he]
  exact form5_cost h.ocp (h.data.fe h.ok.primal) h.funs
    h.ok.aug

end
end Nosnoc
