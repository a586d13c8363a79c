import Verif.Proofs.Closed2
import Verif.Proofs.Cost
/-
Helper lemmas: the constraints, the objective and the complementarity residual of the whole problem
are determined by variables and parameters; choice of the binary variables in BOOLEAN mode.
-/
namespace Nosnoc
section
variable {um : UserModel} {o : PreOpts} {m : PreModel} {nC nF : List Nat} {g up : List Vec}
  {f0 : Vec} {acc : DcsAcc} {uo : UserOcp} {oc : PreOcp} {d : Dims} {env env' : Env} {k e j : Nat}

/-- Rows with equal values. -/
def RSame (env env' : Env) (l : List Row) : Prop := ∀ r ∈ l, r.1 env = r.1 env'

theorem mem_mkRows_left {g : Vec} {lb ub : List EReal} {r : Row} (h : r ∈ mkRows g lb ub) :
    r.1 ∈ g := (List.of_mem_zip h).1

theorem VSame.rows {g : Vec} (h : VSame env env' g) (lb ub : List EReal) :
    RSame env env' (mkRows g lb ub) := fun _ hr => h _ (mem_mkRows_left hr)

theorem RSame.vec {f : Form} (hf : f.Aligned) (h : RSame env env' f.rows) : VSame env env' f.g := by
  intro q hq
  obtain ⟨i, hi, rfl⟩ := List.mem_iff_getElem.1 hq
  have h1 := hf.lbg
  have h2 := hf.ubg
  exact h (f.g[i], f.lbg[i], f.ubg[i])
    (List.mem_iff_getElem.2 ⟨i, by simp [Form.rows, mkRows]; omega, by simp [Form.rows, mkRows]⟩)

theorem RSame.sat {l : List Row} (h : RSame env env' l) (hs : ∀ r ∈ l, Row.Sat env r) :
    ∀ r ∈ l, Row.Sat env' r := by
  intro r hr
  have := hs r hr
  unfold Row.Sat at *
  rwa [h r hr] at this

theorem seqRows_same {cs : List Cmd} (h : ∀ c ∈ cs, CmdSame env env' c) (ag : Agree o d env env')
    {bs : Nat → Sym} {pos : Nat}
    (hb : ∀ i, pos ≤ i → i < pos + seqNV o cs → env (bs i) = env' (bs i)) :
    RSame env env' (seqRows o bs pos cs) := by
  induction cs generalizing pos with
  | nil => intro r hr; cases hr
  | cons c cs ih =>
    have hnv : seqNV o (c :: cs) = cmdNV o c + seqNV o cs := by simp [seqNV]
    unfold seqRows RSame
    rw [List.forall_mem_append]
    refine ⟨VSame.rows (cmdG_same (h c (by simp)) ?_ ag) _ _,
      ih (fun c' h' => h c' (by simp [h'])) fun i h1 h2 => hb i (by omega) (by omega)⟩
    intro s hs
    rw [cmdVars_eq] at hs
    obtain ⟨i, hi, rfl⟩ := List.mem_map.1 hs
    have := List.mem_range'_1.1 hi
    exact hb i this.1 (by omega)

theorem Agree.tf (h : Pre um o m nC nF g up f0 acc) (hn : 0 < o.nS)
    (hpos : ∀ k < o.nStages, 0 < nfe o k) (ag : Agree o m.dims env env') (hk : k < o.nStages)
    (htf : o.timeFreezing = true) : VSame env env' (tfBlk o m k).g := by
  have h3 : um.tVar.isSome = true := by
    rcases h.tCheck with h3 | h3
    · exact h3
    · rw [htf] at h3; cases h3
  obtain ⟨t, ht⟩ := Option.isSome_iff_exists.1 h3
  intro q hq
  simp only [tfBlk, List.mem_singleton] at hq
  subst hq
  beta_reduce
  have hx : evalVec (vars (blk m.dims.nX .x0)) env = evalVec (vars (blk m.dims.nX .x0)) env' := by
    refine VSame.eval (vars_same fun s hs => ?_)
    obtain ⟨i, hi, rfl⟩ := mem_blk.1 hs
    exact ag _ (.inr hi)
  rw [tAt_eq h ht (by simp), tAt_eq h ht (by simp), tAt_eq h ht (by simp), tAt_eq h ht (by simp),
    evalVec_endState, evalVec_endState, hx,
    ag.xEndVal hn ⟨hk, by have := hpos k hk; omega⟩]

theorem Agree.equi (ag : Agree o d env env') (hk : k < o.nStages) :
    VSame env env' (equiBlk o k).g := by
  intro q hq
  simp only [equiBlk, List.mem_singleton] at hq
  subst hq
  beta_reduce
  rw [Finset.sum_congr rfl fun e he => ag.h ⟨hk, Finset.mem_range.1 he⟩]

theorem Agree.total (ag : Agree o d env env') : totalTime o env = totalTime o env' := by
  unfold totalTime
  congr 1
  exact List.map_congr_left fun q hq => ag.h (mem_allFE.1 hq)

theorem Agree.termRows (ho : OcpPre uo m oc) (hn : 0 < o.nS)
    (hpos : ∀ k < o.nStages, 0 < nfe o k) (ag : Agree o m.dims env env') (h0 : 0 < o.nStages) :
    VSame env env' (termBlk o m oc).g := by
  show VSame env env' (oc.gTerminalFun.app (termArgs o m.dims))
  rw [gT_eq ho]
  refine vec_same fun i _ => ?_
  have := hpos (o.nStages - 1) (by omega)
  rw [ag.xEndVal hn ⟨by omega, by omega⟩, ag.pVal (by omega), ag.vVal]

theorem Agree.timeRows (ag : Agree o d env env') :
    RSame env env' ((timeBlks o).flatMap Blk.rows) := by
  unfold timeBlks
  split
  · intro r hr
    simp only [List.flatMap_cons, List.flatMap_nil, List.append_nil] at hr
    have := mem_mkRows_left hr
    simp only [List.mem_singleton] at this
    rw [this]
    beta_reduce
    rw [ag.total]
  · intro r hr; cases hr

/-- All constraint rows of the problem (EXACT handling). -/
theorem Agree.formRows (h : Pre um o m nC nF g up f0 acc) (ho : OcpPre uo m oc) (hz : ZOk o m)
    (ha : AlphaOk um) (hs : ∀ r ∈ uo.gPathComp, r.Sound m.dims) (hx : FEDataOk m oc)
    (hf : FunsOk o m oc) (hA : NoAugSum o) (hn : 0 < o.nS) (h0 : 0 < o.nStages)
    (hpos : ∀ k < o.nStages, 0 < nfe o k) (ag : Agree o m.dims env env')
    (hb : ∀ s ∈ (form5 o m oc).w, IsBoolSym s → env s = env' s) :
    RSame env env' (form5 o m oc).rows := by
  rw [form5_rows (h.udata ho) hx hf hA]
  unfold RSame
  simp only [List.forall_mem_append]
  refine ⟨⟨⟨?_, ?_⟩, VSame.rows (ag.termRows ho hn hpos h0) _ _⟩, ag.timeRows⟩
  · intro r hr
    simp only [allBlks, List.mem_flatMap, stageBlks, List.mem_append, List.mem_map,
      List.mem_range] at hr
    obtain ⟨b, ⟨k, hk, (⟨e, he, rfl⟩ | hb') | hb'⟩, hr⟩ := hr
    · have hr' : r ∈ (feDone o m oc k e).form.rows := hr
      rw [feDone_rows hx hf hA] at hr'
      refine seqRows_same (ag.feCmds h ho hz ha hs hn hpos ⟨hk, he⟩) ag ?_ r hr'
      intro i hi1 hi2
      refine hb _ (mem_w_of_fe (k := k) (e := e) ⟨hk, he⟩ ?_) trivial
      rw [(feDone_facts hx hf hA k e).w]
      exact List.mem_append.2 (.inr (List.mem_map.2 ⟨i, List.mem_range'_1.2 ⟨hi1, hi2⟩, rfl⟩))
    · split at hb'
      · rw [List.mem_singleton] at hb'; subst hb'
        exact VSame.rows (ag.equi hk) _ _ r hr
      · cases hb'
    · split at hb'
      · rename_i htf
        rw [List.mem_singleton] at hb'; subst hb'
        exact VSame.rows (ag.tf h hn hpos hk htf.1) _ _ r hr
      · cases hb'
  · refine VSame.rows (cmdG_same (ag.globComp ho hs h0) ?_ ag) _ _
    intro s hs'
    refine hb s ?_ ?_
    · rw [form5_w]
      exact List.mem_append.2 (.inl (List.mem_append.2 (.inr hs')))
    · unfold globBools at hs'
      rw [cmdVars_eq] at hs'
      obtain ⟨i, hi, rfl⟩ := List.mem_map.1 hs'
      trivial

/-- The objective (EXACT handling). -/
theorem Agree.cost (ho : OcpPre uo m oc) (hx : FEDataOk m oc)
    (hf : FunsOk o m oc) (hA : NoAugSum o) (hn : 0 < o.nS) (h0 : 0 < o.nStages)
    (hpos : ∀ k < o.nStages, 0 < nfe o k) (ag : Agree o m.dims env env') :
    (form5 o m oc).cost env = (form5 o m oc).cost env' := by
  rw [form5_cost ho hx hf hA, form5_cost ho hx hf hA]
  have hterm : terminalCost o m.dims uo env = terminalCost o m.dims uo env' := by
    unfold terminalCost
    have := hpos (o.nStages - 1) (by omega)
    rw [ag.xEndVal hn ⟨by omega, by omega⟩, ag.pVal (by omega), ag.vVal]
  have hrun : runningCost o m.dims uo env = runningCost o m.dims uo env' := by
    unfold runningCost
    refine Finset.sum_congr rfl fun k hk => Finset.sum_congr rfl fun e he =>
      Finset.sum_congr rfl fun j hj => ?_
    have hk' : HasFE o k e := ⟨Finset.mem_range.1 hk, Finset.mem_range.1 he⟩
    rw [ag.h hk', ag.sot hk'.1, ag.xVal hn hpos hk' (Finset.mem_range.1 hj), ag.uVal hk'.1,
      ag.pVal hk'.1, ag.vVal]
  have hstep : stepCosts o m.dims env = stepCosts o m.dims env' := by
    unfold stepCosts
    refine Finset.sum_congr rfl fun k hk => Finset.sum_congr rfl fun e he => ?_
    have hk1 : HasFE o k e := ⟨Finset.mem_range.1 hk, Finset.mem_range.1 he⟩
    have hk2 : HasFE o k (e - 1) := ⟨hk1.1, by have := hk1.2; omega⟩
    unfold stepCost stepDiff
    rw [ag.h hk1, ag.h hk2, ag.nu hn hpos hk1 hk2]
  have hσ : env .sigma = env' .sigma := ag .sigma (.inr trivial)
  unfold objectiveSpec plainObjective
  rw [hterm, hrun, hstep, hσ]
  cases hm : o.mpcc with
  | elasticIneq => rw [ag .sElastic (.inl (.inl hm))]
  | elasticEq => rw [ag .sElastic (.inl (.inr (.inl hm)))]
  | elasticTwoSided => rw [ag .sElastic (.inl (.inr (.inr hm)))]
  | _ => simp

theorem vmul_same {a b : Vec} (ha : VSame env env' a) (hb : VSame env env' b) :
    VSame env env' (vmul a b) := by
  intro q hq
  unfold vmul at hq
  obtain ⟨i, hi, rfl⟩ := List.mem_iff_getElem.1 hq
  simp only [List.getElem_zipWith]
  rw [ha _ (List.getElem_mem _), hb _ (List.getElem_mem _)]

/-- The complementarity residual vector. -/
theorem Agree.compVec (hn : 0 < o.nS) (hpos : ∀ k < o.nStages, 0 < nfe o k)
    (ag : Agree o d env env') :
    VSame env env' ((allFE o).flatMap fun q => compVecOf o d q.1 q.2) := by
  intro q hq
  obtain ⟨⟨k, e⟩, hke, hq⟩ := List.mem_flatMap.1 hq
  have hk : HasFE o k e := mem_allFE.1 hke
  have hl : ∀ {j}, j < o.nS → j < nLamPts o k e := fun hj => by unfold nLamPts; omega
  simp only [compVecOf] at hq
  split at hq
  · obtain ⟨j, hj, hq⟩ := List.mem_flatMap.1 hq
    have hj := List.mem_range.1 hj
    rcases List.mem_append.1 hq with hq | hq
    · exact vmul_same (ag.thetaVec hk hj) (ag.startLam hn hpos hk) q hq
    · obtain ⟨jj, hjj, hq⟩ := List.mem_flatMap.1 hq
      exact vmul_same (ag.thetaVec hk hj) (ag.lamVec hk (hl (List.mem_range.1 hjj))) q hq
  · obtain ⟨j, hj, hq⟩ := List.mem_flatMap.1 hq
    have hj := List.mem_range.1 hj
    exact vmul_same (ag.thetaVec hk hj) (ag.lamVec hk (hl hj)) q hq

/-! ### Binary variables -/

theorem cmd_choose (hm : o.mpcc = .boolean) {c : Cmd} (bs : Nat → Sym) (pos : Nat)
    (hc : CmdSat o env c) : ∃ B : Nat → ℝ, (∀ i, 0 ≤ B i ∧ B i ≤ 1) ∧ ∀ env', CmdSame env env' c →
      (∀ i, pos ≤ i → i < pos + cmdNV o c → env' (bs i) = B i) →
      ∀ r ∈ cmdRows o (cmdVars o bs pos c) c, Row.Sat env' r := by
  cases c with
  | con g bnd =>
    refine ⟨fun _ => 0, by simp, fun env' hs _ => ?_⟩
    have hs' : RSame env env' (cmdRows o [] (.con g bnd)) := VSame.rows hs _ _
    refine RSame.sat hs' ?_
    cases bnd with
    | none => exact (vecSat_zero rfl).2 hc
    | some b => exact hc
  | cost q => exact ⟨fun _ => 0, by simp, fun _ _ _ r hr => by
      simp [cmdRows, cmdG, mkRows] at hr⟩
  | compl xs y =>
    simp only [CmdSat, CompSat, hm] at hc
    choose! b hb using hc
    refine ⟨fun i => if i - pos < y.length then b (i - pos) else 0, ?_, ?_⟩
    · intro i
      dsimp only
      split
      · rename_i hi; exact ⟨(hb _ hi).1, (hb _ hi).2.1⟩
      · simp
    · intro env' hs hB
      have hnv : cmdNV o (.compl xs y) = y.length := by simp [cmdNV, hm]
      rw [hnv] at hB
      obtain ⟨hx, hy⟩ := hs
      show VecSat env' (cmdG o (cmdVars o bs pos (.compl xs y)) (.compl xs y)) _ _
      simp only [cmdBnd, cmdG, cmdVars, hm, compBounds, if_true]
      rw [vecSat_replicate rfl]
      simp only [boolExpr, List.forall_mem_append, forall_map_range]
      have hz : ∀ j < y.length,
          at' (vars ((List.range' pos y.length).map bs)) j env' = b j := by
        intro j hj
        unfold at' vars var
        rw [List.getD_eq_getElem?_getD, List.getElem?_map, List.getElem?_map,
          List.getElem?_range' hj]
        have := hB (pos + j) (by omega) (by omega)
        simp only [Nat.add_sub_cancel_left, hj, if_true] at this
        simpa using this
      have hsum : ∀ j, (xs.map fun x => at' x j env).sum = sumAt xs j env' := by
        intro j
        rw [← sumAt_same hx j]
        rfl
      simp only [le_top, and_true]
      refine ⟨⟨⟨fun j hj => ?_, fun j hj => ?_⟩, fun j hj => ?_⟩, fun j hj => ?_⟩ <;>
      · obtain ⟨-, -, h1, h2, h3, h4⟩ := hb j hj
        rw [hsum] at h3 h4
        rw [hy.at j] at h1 h2
        rw [zero_le_ecoe, hz j hj]
        unfold bigM
        linarith

theorem seq_choose (hm : o.mpcc = .boolean) {cs : List Cmd} (bs : Nat → Sym) (pos : Nat)
    (hc : ∀ c ∈ cs, CmdSat o env c) : ∃ B : Nat → ℝ, (∀ i, 0 ≤ B i ∧ B i ≤ 1) ∧
      ∀ env', (∀ c ∈ cs, CmdSame env env' c) →
      (∀ i, pos ≤ i → i < pos + seqNV o cs → env' (bs i) = B i) →
      ∀ r ∈ seqRows o bs pos cs, Row.Sat env' r := by
  induction cs generalizing pos with
  | nil => exact ⟨fun _ => 0, by simp, fun _ _ _ r hr => by cases hr⟩
  | cons c cs ih =>
    have hnv : seqNV o (c :: cs) = cmdNV o c + seqNV o cs := by simp [seqNV]
    obtain ⟨B1, h1, h1'⟩ := cmd_choose hm bs pos (hc c (by simp))
    obtain ⟨B2, h2, h2'⟩ := ih (pos + cmdNV o c) fun c' h => hc c' (by simp [h])
    refine ⟨fun i => if i < pos + cmdNV o c then B1 i else B2 i, ?_, ?_⟩
    · intro i
      dsimp only
      split
      · exact h1 i
      · exact h2 i
    · intro env' hs hB
      unfold seqRows
      rw [List.forall_mem_append]
      constructor
      · refine h1' env' (hs c (by simp)) fun i a b => ?_
        have := hB i a (by omega)
        dsimp only at this
        rwa [if_pos b] at this
      · refine h2' env' (fun c' h => hs c' (by simp [h])) fun i a b => ?_
        have := hB i (by omega) (by omega)
        dsimp only at this
        rwa [if_neg (by omega)] at this

/-! ### The discretised problem depends on variables and parameters only -/

/-- The parts of `FeasibleSpec`, in terms of commands. -/
theorem spec_parts (h : Pre um o m nC nF g up f0 acc) (ho : OcpPre uo m oc) (hz : ZOk o m)
    (ha : AlphaOk um) (hs : ∀ r ∈ uo.gPathComp, r.Sound m.dims) :
    FeasibleSpec o m.dims um uo env ↔
      (∀ s, IsVar o m.dims s → (varDoc o um uo s).lb ≤ ((env s : ℝ) : EReal) ∧
        ((env s : ℝ) : EReal) ≤ (varDoc o um uo s).ub) ∧
      (∀ k e, FEIn o k e → ∀ c ∈ feCmds o m oc k e, CmdSat o env c) ∧
      (o.useFesd = true → o.equidistant = true → ∀ k < o.nStages,
        ∀ r ∈ (equiBlk o k).rows, Row.Sat env r) ∧
      (o.timeFreezing = true → o.equidistant = true → ∀ k < o.nStages,
        ∀ r ∈ (tfBlk o m k).rows, Row.Sat env r) ∧
      CmdSat o env (globC m oc) ∧
      (∀ r ∈ (termBlk o m oc).rows, Row.Sat env r) ∧
      (∀ r ∈ (timeBlks o).flatMap Blk.rows, Row.Sat env r) := by
  simp only [equi_rows, tf_rows, term_rows, time_rows]
  rw [tf_iff h, globComp_iff ho hs, gT_eq ho, forall_vec, totalTime_eq]
  constructor
  · intro S
    refine ⟨S.bounds, fun k e hk => (fe_iff h ho hz ha hs k e).2 ?_, S.equi, S.freeze, S.globComp,
      S.term, S.time⟩
    exact ⟨S.alg k e hk, S.rk k e hk, fun q => S.lift q k e hk, fun q => S.cont q k e hk,
      fun q q' => S.boundary q q' k e hk, S.pathEnd k e hk, fun q => S.pathStage q k e hk,
      S.stageComp k e hk, S.ctrlComp k e hk, fun q => S.compStd q k e hk,
      fun q q' => S.compAll q q' k e hk, fun q q' => S.compSum q q' k e hk,
      fun q q' => S.stepDirect q q' k e hk, fun q q' => S.stepDirectComp q q' k e hk,
      fun q q' => S.stepHComp q q' k e hk⟩
  · rintro ⟨c1, c2, c3, c4, c5, c6, c7⟩
    have F := fun k e hk => (fe_iff h ho hz ha hs k e).1 (c2 k e hk)
    exact ⟨c1, fun k e hk => (F k e hk).alg,
      fun k e hk => (F k e hk).rk, fun q k e hk => (F k e hk).lift q,
      fun q k e hk => (F k e hk).cont q, fun q q' k e hk => (F k e hk).boundary q q',
      fun k e hk => (F k e hk).pathEnd, fun q k e hk => (F k e hk).pathStage q,
      fun k e hk => (F k e hk).stageComp, fun k e hk => (F k e hk).ctrlComp, c5,
      fun q k e hk => (F k e hk).compStd q, fun q q' k e hk => (F k e hk).compAll q q',
      fun q q' k e hk => (F k e hk).compSum q q', fun q q' k e hk => (F k e hk).stepDirect q q',
      fun q q' k e hk => (F k e hk).stepDirectComp q q',
      fun q q' k e hk => (F k e hk).stepHComp q q', c3, c7, c4, c6⟩

theorem compSat_noElastic {o : Opts} {σ τ s s' : ℝ} {xs : List ℝ} {y : ℝ}
    (he : o.mpcc = .elasticIneq ∨ o.mpcc = .elasticEq ∨ o.mpcc = .elasticTwoSided → s = s')
    (h : CompSat o σ τ s xs y) : CompSat o σ τ s' xs y := by
  by_cases hm : o.mpcc = .elasticIneq ∨ o.mpcc = .elasticEq ∨ o.mpcc = .elasticTwoSided
  · rwa [← he hm]
  · unfold CompSat at h ⊢
    cases hm' : o.mpcc <;> simp_all

theorem CmdSame.sat (ag : Agree o d env env') {c : Cmd} (h : CmdSame env env' c)
    (hc : CmdSat o env c) : CmdSat o env' c := by
  cases c with
  | con g bnd =>
    cases bnd with
    | none => intro q hq; rw [← h q hq]; exact hc q hq
    | some b => exact RSame.sat (VSame.rows h b.1 b.2) hc
  | cost q => trivial
  | compl xs y =>
    intro j hj
    have := hc j hj
    rw [ag .sigma (.inr trivial), ag .tau (.inr trivial), h.2.at j,
      List.map_congr_left fun x hx => (h.1 x hx).at j] at this
    exact compSat_noElastic (fun hm => ag .sElastic (.inl hm)) this

theorem Agree.spec (h : Pre um o m nC nF g up f0 acc) (ho : OcpPre uo m oc) (hz : ZOk o m)
    (ha : AlphaOk um) (hs : ∀ r ∈ uo.gPathComp, r.Sound m.dims) (hn : 0 < o.nS)
    (h0 : 0 < o.nStages) (hpos : ∀ k < o.nStages, 0 < nfe o k) (ag : Agree o m.dims env env')
    (S : FeasibleSpec o m.dims um uo env) : FeasibleSpec o m.dims um uo env' := by
  rw [spec_parts h ho hz ha hs] at S ⊢
  obtain ⟨c1, c2, c3, c4, c5, c6, c7⟩ := S
  refine ⟨fun s hs' => by rw [← ag s (.inl hs')]; exact c1 s hs',
    fun k e hk c hc => (ag.feCmds h ho hz ha hs hn hpos hk c hc).sat ag (c2 k e hk c hc),
    fun a b k hk => RSame.sat (VSame.rows (ag.equi hk) _ _) (c3 a b k hk),
    fun a b k hk => RSame.sat (VSame.rows (ag.tf h hn hpos hk a) _ _) (c4 a b k hk),
    (ag.globComp ho hs h0).sat ag c5,
    RSame.sat (VSame.rows (ag.termRows ho hn hpos h0) _ _) c6,
    RSame.sat ag.timeRows c7⟩

/-- BOOLEAN mode: every point of the discretised problem extends to a feasible point. -/
theorem bool_extend (hm : o.mpcc = .boolean) (h : Pre um o m nC nF g up f0 acc)
    (ho : OcpPre uo m oc) (hz : ZOk o m)
    (ha : AlphaOk um) (hs : ∀ r ∈ uo.gPathComp, r.Sound m.dims) (hx : FEDataOk m oc)
    (hf : FunsOk o m oc) (hA : NoAugSum o) (hn : 0 < o.nS) (h0 : 0 < o.nStages)
    (hpos : ∀ k < o.nStages, 0 < nfe o k) (S : FeasibleSpec o m.dims um uo env) :
    ∃ env', (∀ s, ¬ IsBoolSym s → env' s = env s) ∧ (form5 o m oc).Feasible env' := by
  rw [spec_parts h ho hz ha hs] at S
  obtain ⟨c1, c2, c3, c4, c5, c6, c7⟩ := S
  have hB : ∀ k e, ∃ B : Nat → ℝ, (∀ i, 0 ≤ B i ∧ B i ≤ 1) ∧ (FEIn o k e →
      ∀ env', (∀ c ∈ feCmds o m oc k e, CmdSame env env' c) →
      (∀ i, (feOf o m oc k e).form.w.length ≤ i →
        i < (feOf o m oc k e).form.w.length + seqNV o (feCmds o m oc k e) →
        env' (.boolFe k e i) = B i) →
      ∀ r ∈ seqRows o (.boolFe k e) (feOf o m oc k e).form.w.length (feCmds o m oc k e),
        Row.Sat env' r) := by
    intro k e
    by_cases hk : FEIn o k e
    · obtain ⟨B, h1, h2⟩ := seq_choose hm (.boolFe k e) (feOf o m oc k e).form.w.length (c2 k e hk)
      exact ⟨B, h1, fun _ => h2⟩
    · exact ⟨fun _ => 0, by simp, fun h => absurd h hk⟩
  choose B hB1 hB2 using hB
  obtain ⟨G, hG1, hG2⟩ := cmd_choose hm .boolGlob (form0 o m oc).w.length c5
  let env' : Env := fun s => match s with
    | .boolFe k e i => B k e i
    | .boolGlob i => G i
    | s => env s
  have hoff : ∀ s, ¬ IsBoolSym s → env' s = env s := by
    intro s hs
    cases s <;> first | rfl | exact absurd trivial hs
  have ag : Agree o m.dims env env' := by
    intro s hs
    refine (hoff s fun hb => ?_).symm
    cases s <;> first | exact hb | (rcases hs with hs | hs <;> exact hs)
  have h01 : ∀ {b : ℝ}, 0 ≤ b ∧ b ≤ 1 → (0 : EReal) ≤ ((b : ℝ) : EReal) ∧ ((b : ℝ) : EReal) ≤ 1 := by
    intro b ⟨p, q⟩
    rw [zero_le_ecoe, ← EReal.coe_one, EReal.coe_le_coe_iff]
    exact ⟨p, q⟩
  refine ⟨env', hoff, ?_⟩
  rw [feasible_iff_rows, docL_bounds (form5_doc (h.udata ho) hx hf hA),
    form5_rows (h.udata ho) hx hf hA]
  simp only [List.forall_mem_append]
  rw [blks_rows hx hf hA]
  refine ⟨?_, ⟨⟨⟨fun k e hk => ?_, fun a b k hk => ?_, fun a b k hk => ?_⟩, ?_⟩, ?_⟩, ?_⟩
  · intro s hs'
    rcases isVar_of_form5 hx hf hA hs' with h' | h'
    · rw [← ag s (.inl h')]; exact c1 s h'
    · cases s <;> first | exact absurd h'.2 id | skip
      · exact h01 (hB1 _ _ _)
      · exact h01 (hG1 _)
  · exact hB2 k e hk env' (ag.feCmds h ho hz ha hs hn hpos hk) fun i _ _ => rfl
  · exact RSame.sat (VSame.rows (ag.equi hk) _ _) (c3 a b k hk)
  · exact RSame.sat (VSame.rows (ag.tf h hn hpos hk a) _ _) (c4 a b k hk)
  · exact hG2 env' (ag.globComp ho hs h0) fun i _ _ => rfl
  · exact RSame.sat (VSame.rows (ag.termRows ho hn hpos h0) _ _) c6
  · exact RSame.sat ag.timeRows c7

end

section
variable {colloc : IrkScheme → Nat → List ℝ} {o : Opts} {um : UserModel} {uo : Option UserOcp}
  {po : PreOpts} {m : PreModel} {oc : PreOcp} {P : Problem} {env env' : Env}

theorem Built.w (h : Built colloc o um uo po m oc P) : P.form.w = (form5 po m oc).w := by
  rw [h.eq]
  simp only [problemOf, lsqForm]
  split <;> rfl

theorem mem_p_of_isPar (h : Built colloc o um uo po m oc P) {s : Sym} (hs : IsPar po m.dims s) :
    s ∈ P.p := by
  rw [h.eq]
  show s ∈ pHead po m.dims ++ (lam00Row po m.dims .lam ++ lam00Row po m.dims .lamN
    ++ lam00Row po m.dims .lamP) ++ blk m.dims.nX .x0
  simp only [pHead, lam00Row, blk, List.mem_append, List.mem_flatMap, List.mem_map, List.mem_range,
    List.mem_cons, List.not_mem_nil, or_false]
  cases s with
  | sigma => simp
  | tau => simp
  | pStage k i => exact .inl (.inl (.inl ⟨k, hs.1, i, hs.2, rfl⟩))
  | x0 i => exact .inr ⟨i, hs, rfl⟩
  | lam00 f s i =>
    obtain ⟨hf, h1, h2⟩ := hs
    rcases hf with rfl | rfl | rfl
    · exact .inl (.inr (.inl (.inl ⟨s, h1, i, h2, rfl⟩)))
    · exact .inl (.inr (.inl (.inr ⟨s, h1, i, h2, rfl⟩)))
    · exact .inl (.inr (.inr ⟨s, h1, i, h2, rfl⟩))
  | _ => exact absurd hs id

theorem Built.agree (h : Built colloc o um uo po m oc P) (hw : ∀ s ∈ P.form.w, env s = env' s)
    (hp : ∀ s ∈ P.p, env s = env' s) : Agree po m.dims env env' := by
  intro s hs
  rcases hs with hs | hs
  · refine hw s ?_
    rw [h.w]
    exact mem_form5_of_isVar (h.data.fe h.ok.primal) h.funs h.ok.aug hs
  · exact hp s (mem_p_of_isPar h hs)

theorem Built.closed (h : Built colloc o um uo po m oc P) (ha : AlphaOk um)
    (hs : ∀ r ∈ (uo.getD UserOcp.trivial).gPathComp, r.Sound m.dims)
    (hw : ∀ s ∈ P.form.w, env s = env' s) (hp : ∀ s ∈ P.p, env s = env' s) :
    VSame env env' P.form.g ∧ P.form.cost env = P.form.cost env' ∧ VSame env env' P.compVec := by
  obtain ⟨nC, nF, g, up, f0, acc, hpre⟩ := h.pre
  have ag := h.agree hw hp
  have hx := h.data.fe h.ok.primal
  have h0 : 0 < po.nStages := Nat.pos_of_ne_zero h.ok.primal.stages
  have hpos : ∀ k < po.nStages, 0 < nfe po k := fun k hk => (h.ok.primal.nfe k hk).2
  have hg : VSame env env' (form5 po m oc).g :=
    RSame.vec (form5_aligned (hpre.udata h.ocp) hx h.funs h.ok.aug)
      (ag.formRows hpre h.ocp h.ok.z ha hs hx h.funs h.ok.aug h.nS h0 hpos
        fun s hs' _ => hw s (by rw [h.w]; exact hs'))
  have hc := ag.cost h.ocp hx h.funs h.ok.aug h.nS h0 hpos
  have hv := ag.compVec (d := m.dims) h.nS hpos
  rw [h.eq]
  refine ⟨?_, ?_, hv⟩
  · simp only [problemOf, lsqForm]
    split
    · intro q hq; cases hq
    · exact hg
  · simp only [problemOf, lsqForm]
    split
    · dsimp only
      rw [hc, List.map_congr_left fun q hq => by rw [hg q hq]]
    · exact hc

theorem Built.bool_iff (h : Built colloc o um uo po m oc P) (he : po.constraintHandling = .exact)
    (hm : po.mpcc = .boolean) (ha : AlphaOk um)
    (hs : ∀ r ∈ (uo.getD UserOcp.trivial).gPathComp, r.Sound m.dims) :
    (∃ env', (∀ s, ¬ IsBoolSym s → env' s = env s) ∧ P.form.Feasible env') ↔
      FeasibleSpec po m.dims um (uo.getD UserOcp.trivial) env := by
  obtain ⟨nC, nF, g, up, f0, acc, hpre⟩ := h.pre
  have hx := h.data.fe h.ok.primal
  have h0 : 0 < po.nStages := Nat.pos_of_ne_zero h.ok.primal.stages
  have hpos : ∀ k < po.nStages, 0 < nfe po k := fun k hk => (h.ok.primal.nfe k hk).2
  constructor
  · rintro ⟨env', hoff, hf⟩
    have ag : Agree po m.dims env' env := by
      intro s hs'
      refine hoff s fun hb => ?_
      cases s <;> first | exact hb | (rcases hs' with hs' | hs' <;> exact hs')
    exact ag.spec hpre h.ocp h.ok.z ha hs h.nS h0 hpos (master_spec h he ha hs hf)
  · intro S
    rw [h.form he]
    exact bool_extend hm hpre h.ocp h.ok.z ha hs hx h.funs h.ok.aug h.nS h0 hpos S

end
end Nosnoc
