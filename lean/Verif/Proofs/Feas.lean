import Verif.Proofs.Sat
import Verif.Proofs.Vars
/-
Helper lemmas: feasibility of the whole problem, as a list of conditions.
-/
namespace Nosnoc
section
variable {o : PreOpts} {m : PreModel} {oc : PreOcp} {um : UserModel} {uo : UserOcp}

/-- What a feasible point of the problem satisfies. -/
structure Conditions (o : PreOpts) (m : PreModel) (oc : PreOcp) (um : UserModel) (uo : UserOcp)
    (env : Env) : Prop where
  bounds : ∀ s ∈ (form5 o m oc).w, (varDoc o um uo s).lb ≤ ((env s : ℝ) : EReal) ∧
    ((env s : ℝ) : EReal) ≤ (varDoc o um uo s).ub
  fe : ∀ k e, FEIn o k e → ∀ c ∈ feCmds o m oc k e, CmdSat o env c
  equi : o.useFesd = true → o.equidistant = true → ∀ k < o.nStages,
    ∑ e ∈ Finset.range (nfe o k), hVal o k e env = o.terminalTime / o.nStages
  tf : o.timeFreezing = true → o.equidistant = true → ∀ k < o.nStages,
    -o.timeFreezingTol ≤ tAt m (endState o m.dims k (nfe o k - 1)) env
      - (o.terminalTime / o.nStages * ((k : ℝ) + 1) + tAt m (vars (blk m.dims.nX .x0)) env) ∧
    tAt m (endState o m.dims k (nfe o k - 1)) env
      - (o.terminalTime / o.nStages * ((k : ℝ) + 1) + tAt m (vars (blk m.dims.nX .x0)) env)
      ≤ o.timeFreezingTol
  glob : CmdSat o env (globC m oc)
  term : ∀ q ∈ oc.gTerminalFun.app (termArgs o m.dims), q env = 0
  time : 1 < o.nStages → o.useFesd = true → o.equidistant = false →
    totalTime o env = o.terminalTime

theorem feDone_rows (hx : FEDataOk m oc) (hf : FunsOk o m oc) (ha : NoAugSum o) (k e : Nat) :
    (feDone o m oc k e).form.rows
      = seqRows o (.boolFe k e) (feOf o m oc k e).form.w.length (feCmds o m oc k e) := by
  rw [(feDone_facts hx hf ha k e).rows]
  have : (feOf o m oc k e).form.rows = [] := by
    show mkRows (FE.blank o m.dims k e (prevRef o k e)).form.g _ _ = []
    unfold FE.blank
    by_cases h : o.useFesd = true <;> simp [h, Form.empty, mkRows]
  rw [this]
  rfl

theorem allBlks_ok (hx : FEDataOk m oc) (hf : FunsOk o m oc) (ha : NoAugSum o) :
    ∀ b ∈ allBlks o m oc, b.Ok := by
  intro b hb
  simp only [allBlks, List.mem_flatMap, stageBlks, List.mem_append, List.mem_map] at hb
  obtain ⟨k, _, (⟨e, _, rfl⟩ | hb) | hb⟩ := hb
  · exact FE.blk_ok (feDone_aligned hx hf ha k e)
  · split at hb
    · rw [List.mem_singleton] at hb; subst hb; exact ⟨rfl, rfl⟩
    · cases hb
  · split at hb
    · rw [List.mem_singleton] at hb; subst hb; exact ⟨rfl, rfl⟩
    · cases hb

theorem primal_aligned (hd : UData um uo o m oc) : (primalOf o m oc).form.Aligned := by
  obtain ⟨h1, h2, h3⟩ := primal_doc hd
  exact ⟨by rw [h1]; simp, by rw [h2]; simp, by rw [h3]; simp, rfl, rfl⟩

theorem form0_aligned (hd : UData um uo o m oc) (hx : FEDataOk m oc) (hf : FunsOk o m oc)
    (ha : NoAugSum o) : (form0 o m oc).Aligned :=
  Form.addBs_aligned (primal_aligned hd) (allBlks_ok hx hf ha)

theorem termBlk_ok : (termBlk o m oc).Ok := by simp [Blk.Ok, termBlk, CFun.app]

theorem timeBlks_ok : ∀ b ∈ timeBlks o, b.Ok := by
  intro b hb
  unfold timeBlks at hb
  split at hb
  · rw [List.mem_singleton] at hb; subst hb; exact ⟨rfl, rfl⟩
  · cases hb

theorem elasticCost_aligned {f : Form} (h : f.Aligned) : (elasticCost o f).Aligned := by
  obtain ⟨h1, h2, h3, h4, h5, h6, h7⟩ := elasticCost_same (o := o) f
  exact ⟨by rw [h1, h2]; exact h.lbw, by rw [h1, h3]; exact h.ubw, by rw [h1, h4]; exact h.w0,
    by rw [h5, h6]; exact h.lbg, by rw [h5, h7]; exact h.ubg⟩

theorem form4_aligned (hd : UData um uo o m oc) (hx : FEDataOk m oc) (hf : FunsOk o m oc)
    (ha : NoAugSum o) : (form4 o m oc).Aligned := by
  refine Form.addBs_aligned (elasticCost_aligned ?_) timeBlks_ok
  exact Form.addBs_aligned (bs := [termBlk o m oc])
    (execForm_aligned (form0_aligned hd hx hf ha) (globC_ok hf)) (by simp [termBlk_ok])

theorem form5_aligned (hd : UData um uo o m oc) (hx : FEDataOk m oc) (hf : FunsOk o m oc)
    (ha : NoAugSum o) : (form5 o m oc).Aligned := by
  have h4 := form4_aligned hd hx hf ha
  obtain ⟨h1, h2, h3⟩ := form5_doc hd hx hf ha
  exact ⟨by rw [h1]; simp, by rw [h2]; simp, by rw [h3]; simp, h4.lbg, h4.ubg⟩

theorem form5_rows (hd : UData um uo o m oc) (hx : FEDataOk m oc) (hf : FunsOk o m oc)
    (ha : NoAugSum o) :
    (form5 o m oc).rows = (allBlks o m oc).flatMap Blk.rows
      ++ cmdRows o (globBools o m oc) (globC m oc)
      ++ (termBlk o m oc).rows ++ (timeBlks o).flatMap Blk.rows := by
  show (form4 o m oc).rows = _
  have hA := form0_aligned hd hx hf ha
  have hB := execForm_aligned (o := o) (bs := .boolGlob) hA (globC_ok hf)
  have hC : ((execForm o .boolGlob (form0 o m oc) (globC m oc)).addB (termBlk o m oc)).Aligned :=
    Form.addBs_aligned (bs := [termBlk o m oc]) hB (by simp [termBlk_ok])
  unfold form4
  rw [Form.addBs_rows (elasticCost_aligned hC) timeBlks_ok]
  obtain ⟨h1, h2, h3, h4, h5, h6, h7⟩ := elasticCost_same (o := o)
    ((execForm o .boolGlob (form0 o m oc) (globC m oc)).addB (termBlk o m oc))
  have hE : (elasticCost o ((execForm o .boolGlob (form0 o m oc) (globC m oc)).addB
      (termBlk o m oc))).rows
      = ((execForm o .boolGlob (form0 o m oc) (globC m oc)).addB (termBlk o m oc)).rows := by
    unfold Form.rows; rw [h5, h6, h7]
  rw [hE]
  have hT := Form.addBs_rows (bs := [termBlk o m oc]) hB (by simp [termBlk_ok])
  have hT' : ((execForm o .boolGlob (form0 o m oc) (globC m oc)).addB (termBlk o m oc)).rows = _ := hT
  rw [hT', execForm_rows hA]
  have h0 : (form0 o m oc).rows = (allBlks o m oc).flatMap Blk.rows := by
    unfold form0
    rw [Form.addBs_rows (primal_aligned hd) (allBlks_ok hx hf ha)]
    have : (primalOf o m oc).form.rows = [] := rfl
    rw [this, List.nil_append]
  rw [h0]
  simp [globBools]

theorem equi_rows {k : Nat} {env : Env} : (∀ r ∈ (equiBlk o k).rows, Row.Sat env r) ↔
    ∑ e ∈ Finset.range (nfe o k), hVal o k e env = o.terminalTime / o.nStages := by
  have := vecSat_zero (env := env) (g := (equiBlk o k).g) (n := 1) rfl
  rw [show (∀ r ∈ (equiBlk o k).rows, Row.Sat env r) ↔ VecSat env (equiBlk o k).g
    (List.replicate 1 0) (List.replicate 1 0) from Iff.rfl, this]
  simp [equiBlk, sub_eq_zero]

theorem tf_rows {k : Nat} {env : Env} : (∀ r ∈ (tfBlk o m k).rows, Row.Sat env r) ↔
    -o.timeFreezingTol ≤ tAt m (endState o m.dims k (nfe o k - 1)) env
      - (o.terminalTime / o.nStages * ((k : ℝ) + 1) + tAt m (vars (blk m.dims.nX .x0)) env) ∧
    tAt m (endState o m.dims k (nfe o k - 1)) env
      - (o.terminalTime / o.nStages * ((k : ℝ) + 1) + tAt m (vars (blk m.dims.nX .x0)) env)
      ≤ o.timeFreezingTol := by
  have : (tfBlk o m k).rows = [(_, _, _)] := rfl
  rw [this]
  simp only [List.forall_mem_singleton, Row.Sat, EReal.coe_le_coe_iff]

theorem time_rows {env : Env} : (∀ r ∈ (timeBlks o).flatMap Blk.rows, Row.Sat env r) ↔
    (1 < o.nStages → o.useFesd = true → o.equidistant = false →
      totalTime o env = o.terminalTime) := by
  unfold timeBlks
  by_cases h : 1 < o.nStages ∧ o.useFesd = true ∧ o.equidistant = false
  · rw [if_pos h]
    have := vecSat_zero (env := env) (g := [fun env => totalTime o env - o.terminalTime]) (n := 1)
      rfl
    simp only [List.flatMap_cons, List.flatMap_nil, List.append_nil]
    rw [show (∀ r ∈ (Blk.rows ⟨[fun env => totalTime o env - o.terminalTime], [0], [0], const 0⟩),
      Row.Sat env r) ↔ VecSat env [fun env => totalTime o env - o.terminalTime]
      (List.replicate 1 0) (List.replicate 1 0) from Iff.rfl, this]
    simp [h, sub_eq_zero]
  · rw [if_neg h]
    constructor
    · intro _ h1 h2 h3; exact absurd ⟨h1, h2, h3⟩ h
    · intro _ r hr; cases hr

theorem term_rows {env : Env} : (∀ r ∈ (termBlk o m oc).rows, Row.Sat env r) ↔
    ∀ q ∈ oc.gTerminalFun.app (termArgs o m.dims), q env = 0 :=
  vecSat_zero (g := (termBlk o m oc).g) (by simp [CFun.app, termBlk])

/-- Rows of all constraint groups of the control stages. -/
theorem blks_rows (hx : FEDataOk m oc) (hf : FunsOk o m oc) (ha : NoAugSum o) {env : Env} :
    (∀ r ∈ (allBlks o m oc).flatMap Blk.rows, Row.Sat env r) ↔
      (∀ k e, FEIn o k e → ∀ r ∈ seqRows o (.boolFe k e) (feOf o m oc k e).form.w.length
        (feCmds o m oc k e), Row.Sat env r) ∧
      (o.useFesd = true → o.equidistant = true → ∀ k < o.nStages,
        ∀ r ∈ (equiBlk o k).rows, Row.Sat env r) ∧
      (o.timeFreezing = true → o.equidistant = true → ∀ k < o.nStages,
        ∀ r ∈ (tfBlk o m k).rows, Row.Sat env r) := by
  have hfe : ∀ k e, (feDone o m oc k e).blk.rows
      = seqRows o (.boolFe k e) (feOf o m oc k e).form.w.length (feCmds o m oc k e) :=
    fun k e => feDone_rows hx hf ha k e
  constructor
  · intro H
    refine ⟨fun k e h r hr => H r ?_, fun h1 h2 k hk r hr => H r ?_, fun h1 h2 k hk r hr => H r ?_⟩
    all_goals
      simp only [allBlks, List.mem_flatMap, stageBlks, List.mem_append, List.mem_map,
        List.mem_range]
    · exact ⟨_, ⟨k, h.1, .inl (.inl ⟨e, h.2, rfl⟩)⟩, by rw [hfe]; exact hr⟩
    · exact ⟨_, ⟨k, hk, .inl (.inr (by simp [h1, h2]))⟩, hr⟩
    · exact ⟨_, ⟨k, hk, .inr (by simp [h1, h2])⟩, hr⟩
  · rintro ⟨H1, H2, H3⟩ r hr
    simp only [allBlks, List.mem_flatMap, stageBlks, List.mem_append, List.mem_map,
      List.mem_range] at hr
    obtain ⟨b, ⟨k, hk, (⟨e, he, rfl⟩ | hb) | hb⟩, hr⟩ := hr
    · rw [hfe] at hr; exact H1 k e ⟨hk, he⟩ r hr
    · split at hb
      · rename_i h; rw [List.mem_singleton] at hb; subst hb; exact H2 h.1 h.2 k hk r hr
      · cases hb
    · split at hb
      · rename_i h; rw [List.mem_singleton] at hb; subst hb; exact H3 h.1 h.2 k hk r hr
      · cases hb

/-- Feasibility for all modes but BOOLEAN. -/
theorem feasible_iff (hb : o.mpcc ≠ .boolean) (hd : UData um uo o m oc) (hx : FEDataOk m oc)
    (hf : FunsOk o m oc) (ha : NoAugSum o) {env : Env} :
    (form5 o m oc).Feasible env ↔ Conditions o m oc um uo env := by
  rw [feasible_iff_rows, docL_bounds (form5_doc hd hx hf ha), form5_rows hd hx hf ha]
  simp only [List.forall_mem_append]
  rw [blks_rows hx hf ha, cmdRows_iff hb (globC_ok hf), term_rows, time_rows]
  simp only [equi_rows, tf_rows, seqRows_iff hb (feCmds_ok (o := o) hf ha _ _)]
  constructor
  · rintro ⟨h1, ⟨⟨⟨h2, h3, h4⟩, h5⟩, h6⟩, h7⟩
    exact ⟨h1, h2, h3, h4, h5, h6, h7⟩
  · rintro ⟨h1, h2, h3, h4, h5, h6, h7⟩
    exact ⟨h1, ⟨⟨⟨h2, h3, h4⟩, h5⟩, h6⟩, h7⟩

/-- Variables of an element are variables of the problem. -/
theorem mem_w_of_fe {k e : Nat} (h : FEIn o k e) {s : Sym} (hs : s ∈ (feDone o m oc k e).form.w) :
    s ∈ (form5 o m oc).w := by
  rw [form5_w]
  exact List.mem_append.2 (.inr (List.mem_flatMap.2 ⟨(k, e), mem_allFE.2 h, hs⟩))

/-- Necessary conditions for all modes. -/
theorem feasible_conditions (hd : UData um uo o m oc) (hx : FEDataOk m oc)
    (hf : FunsOk o m oc) (ha : NoAugSum o) {env : Env} (H : (form5 o m oc).Feasible env) :
    Conditions o m oc um uo env := by
  by_cases hb : o.mpcc = .boolean
  · rw [feasible_iff_rows, docL_bounds (form5_doc hd hx hf ha), form5_rows hd hx hf ha] at H
    simp only [List.forall_mem_append] at H
    rw [blks_rows hx hf ha, term_rows, time_rows] at H
    simp only [equi_rows, tf_rows] at H
    obtain ⟨h1, ⟨⟨⟨h2, h3, h4⟩, h5⟩, h6⟩, h7⟩ := H
    have h01 : ∀ {b : ℝ}, (0 : EReal) ≤ ((b : ℝ) : EReal) ∧ ((b : ℝ) : EReal) ≤ 1 → 0 ≤ b ∧ b ≤ 1 := by
      intro b ⟨p, q⟩
      rw [zero_le_ecoe] at p
      rw [← EReal.coe_one, EReal.coe_le_coe_iff] at q
      exact ⟨p, q⟩
    refine ⟨h1, fun k e h => seqRows_bool hb (h2 k e h) ?_, h3, h4, cmdRows_bool hb h5 ?_, h6, h7⟩
    · intro i hi1 hi2
      refine h01 (h1 (.boolFe k e i) (mem_w_of_fe h ?_))
      rw [(feDone_facts hx hf ha k e).w]
      exact List.mem_append.2 (.inr (List.mem_map.2 ⟨i, List.mem_range'_1.2 ⟨hi1, hi2⟩, rfl⟩))
    · intro i hi1 hi2
      refine h01 (h1 (.boolGlob i) ?_)
      rw [form5_w]
      refine List.mem_append.2 (.inl (List.mem_append.2 (.inr ?_)))
      unfold globBools
      rw [cmdVars_eq]
      exact List.mem_map.2 ⟨i, List.mem_range'_1.2 ⟨hi1, hi2⟩, rfl⟩
  · exact (feasible_iff hb hd hx hf ha).1 H

end
end Nosnoc
