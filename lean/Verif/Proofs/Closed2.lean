import Verif.Proofs.Closed
/-
Helper lemmas: every expression of the problem is determined by the optimisation variables and the
parameters (commands of the elements, then the whole problem).
-/
namespace Nosnoc
section
variable {um : UserModel} {o : PreOpts} {m : PreModel} {nC nF : List Nat} {g up : List Vec}
  {f0 : Vec} {acc : DcsAcc} {uo : UserOcp} {oc : PreOcp} {d : Dims} {env env' : Env} {k e j : Nat}

/-- All expressions of a vector have equal values. -/
def VSame (env env' : Env) (v : Vec) : Prop := ∀ q ∈ v, q env = q env'

theorem VSame.at {v : Vec} (h : VSame env env' v) (i : Nat) : at' v i env = at' v i env' := by
  unfold at'
  by_cases hi : i < v.length
  · have : v.getD i (const 0) = v[i] := by simp [hi]
    rw [this]
    exact h _ (List.getElem_mem hi)
  · have : v.getD i (const 0) = const 0 := by
      rw [List.getD_eq_getElem?_getD, List.getElem?_eq_none (by omega)]; rfl
    rw [this]
    rfl

theorem VSame.eval {v : Vec} (h : VSame env env' v) : evalVec v env = evalVec v env' :=
  List.map_congr_left h

/-- All expressions of a command have equal values. -/
def CmdSame (env env' : Env) : Cmd → Prop
  | .con g _ => VSame env env' g
  | .compl xs y => (∀ x ∈ xs, VSame env env' x) ∧ VSame env env' y
  | .cost q => q env = q env'

theorem Agree.liftC (hn : 0 < o.nS) (hpos : ∀ k < o.nStages, 0 < nfe o k)
    (ag : Agree o d env env') (hk : HasFE o k e) :
    ∀ c ∈ Nosnoc.liftC o d k e, CmdSame env env' c := by
  unfold Nosnoc.liftC
  split
  · rename_i hr
    intro c hc
    obtain ⟨j, hj, rfl⟩ := List.mem_map.1 hc
    have hj := List.mem_range.1 hj
    refine vec_same fun i hi => ?_
    rw [ag.rkX hn hpos hk (by rw [hr]; simp) hi,
      ag (.st1 .x k e j i) (.inl ⟨by rw [hr]; simp, hk, hj, hi⟩)]
  · simp

theorem Agree.rkRes (h : Pre um o m nC nF g up f0 acc) (hz : ZOk o m) (ha : AlphaOk um)
    (hn : 0 < o.nS) (hpos : ∀ k < o.nStages, 0 < nfe o k)
    (ag : Agree o m.dims env env') (hk : HasFE o k e) (hj : j < o.nS) {i : Nat}
    (hi : i < m.dims.nX) : Nosnoc.rkRes o m k e j i env = Nosnoc.rkRes o m k e j i env' := by
  unfold Nosnoc.rkRes
  split
  · rename_i hr
    beta_reduce
    rw [ag.h hk, ag.sot hk.1, ag.fx h hz ha hn hpos hk hj hi, ag.startX hn hpos hk hi]
    congr 2
    refine Finset.sum_congr rfl fun r hr' => ?_
    rw [ag (.st1 .x k e r i) (.inl ⟨by rw [hr]; simp, hk, Finset.mem_range.1 hr', hi⟩)]
  · rename_i hr
    beta_reduce
    rw [ag.sot hk.1, ag.fx h hz ha hn hpos hk hj hi, ag (.st1 .v k e j i) (.inl ⟨hr, hk, hj, hi⟩)]

theorem Agree.fq (ho : OcpPre uo m oc) (hn : 0 < o.nS) (hpos : ∀ k < o.nStages, 0 < nfe o k)
    (ag : Agree o m.dims env env') (hk : HasFE o k e) (hj : j < o.nS) :
    fqAt o m oc k e j env = fqAt o m oc k e j env' := by
  rw [fqAt_eq ho, fqAt_eq ho, ag.xVal hn hpos hk hj, ag.uVal hk.1, ag.pVal hk.1, ag.vVal]

theorem Agree.stageC (h : Pre um o m nC nF g up f0 acc) (ho : OcpPre uo m oc) (hz : ZOk o m)
    (ha : AlphaOk um) (hn : 0 < o.nS) (hpos : ∀ k < o.nStages, 0 < nfe o k)
    (ag : Agree o m.dims env env') (hk : HasFE o k e) (hj : j < o.nS) :
    ∀ c ∈ Nosnoc.stageC o m oc k e j, CmdSame env env' c := by
  unfold Nosnoc.stageC
  simp only [List.forall_mem_cons, List.not_mem_nil, false_imp_iff, implies_true, and_true]
  refine ⟨ag.gz h hz hn hpos hk hj, vec_same fun i hi => ag.rkRes h hz ha hn hpos hk hj hi, ?_⟩
  show _ * _ * (_ * _) = _ * _ * (_ * _)
  rw [ag.h hk, ag.sot hk.1, ag.fq ho hn hpos hk hj]

theorem Agree.contC (hn : 0 < o.nS) (hpos : ∀ k < o.nStages, 0 < nfe o k)
    (ag : Agree o d env env') (hk : HasFE o k e) :
    ∀ c ∈ Nosnoc.contC o d k e, CmdSame env env' c := by
  unfold Nosnoc.contC
  split
  · rename_i hx
    intro c hc
    rw [List.mem_singleton] at hc
    subst hc
    refine vec_same fun i hi => ?_
    have he : env (.xEnd k e i) = env' (.xEnd k e i) := ag _ (.inl ⟨hx, hk, hi⟩)
    rw [he]
    congr 1
    unfold xkEndC
    split
    · rename_i hr
      beta_reduce
      rw [ag.startX hn hpos hk hi]
      congr 1
      refine Finset.sum_congr rfl fun r hr' => ?_
      rw [ag (.st1 .x k e r i) (.inl ⟨by rw [hr]; simp, hk, Finset.mem_range.1 hr', hi⟩)]
    · rename_i hr
      beta_reduce
      rw [ag.startX hn hpos hk hi]
      congr 1
      refine Finset.sum_congr rfl fun r hr' => ?_
      rw [ag (.st1 .v k e r i) (.inl ⟨hr, hk, Finset.mem_range.1 hr', hi⟩), ag.h hk]
  · simp

theorem Agree.gPath (ho : OcpPre uo m oc) (ag : Agree o m.dims env env') (hk : k < o.nStages)
    {X : Vec} (hX : X.length = m.dims.nX) (he : evalVec X env = evalVec X env') :
    VSame env env' (gPathAt m oc k X) := by
  rw [gPathAt_eq ho hX]
  refine vec_same fun i _ => ?_
  rw [he, ag.uVal hk, ag.pVal hk, ag.vVal]

theorem Agree.pathC (ho : OcpPre uo m oc) (hn : 0 < o.nS) (hpos : ∀ k < o.nStages, 0 < nfe o k)
    (ag : Agree o m.dims env env') (hk : HasFE o k e) :
    ∀ c ∈ Nosnoc.pathC o m oc k e, CmdSame env env' c := by
  unfold Nosnoc.pathC
  rw [List.forall_mem_append]
  constructor
  · split
    · intro c hc
      rw [List.mem_singleton] at hc
      subst hc
      unfold pathX
      split
      · exact ag.gPath ho hk.1 (length_stageX _ _ _ _) (ag.xVal hn hpos hk (by omega))
      · refine ag.gPath ho hk.1 (length_endState _ _ _) ?_
        rw [evalVec_endState, evalVec_endState]
        exact ag.xEndVal hn hk
    · simp
  · split
    · intro c hc
      obtain ⟨j, hj, rfl⟩ := List.mem_map.1 hc
      have hj := List.mem_range.1 hj
      exact ag.gPath ho hk.1 (length_stageX _ _ _ _)
        (ag.xVal hn hpos hk (by split at hj <;> omega))
    · simp

theorem Agree.boundC (h : Pre um o m nC nF g up f0 acc) (hz : ZOk o m) (hn : 0 < o.nS)
    (ag : Agree o m.dims env env') (hk : HasFE o k e) :
    ∀ c ∈ Nosnoc.boundC o m k e, CmdSame env env' c := by
  unfold Nosnoc.boundC
  split
  · intro c hc
    rw [List.mem_singleton] at hc
    subst hc
    exact ag.sw h hz hn hk
  · simp

theorem Agree.rkComp (h : Pre um o m nC nF g up f0 acc) (ho : OcpPre uo m oc) (hz : ZOk o m)
    (hn : 0 < o.nS) (hpos : ∀ k < o.nStages, 0 < nfe o k) (ag : Agree o m.dims env env')
    (hk : HasFE o k e) (hj : j < o.nS) :
    VSame env env' (rkCompAt o m oc.gRkFun.1 k e j) ∧
      VSame env env' (rkCompAt o m oc.gRkFun.2 k e j) := by
  have hb := bindRk h hz (length_stageX (o := o) m.dims k e j) k e j j env
  have hb' := bindRk h hz (length_stageX (o := o) m.dims k e j) k e j j env'
  unfold rkCompAt
  rw [ho.gRk, splitComps_eq]
  unfold stageZ
  simp only at hb hb'
  have hx := ag.xVal hn hpos hk hj
  unfold Nosnoc.xVal at hx
  constructor <;>
  · refine app_same fun q hq => ?_
    simp only [compCol, List.mem_map] at hq
    obtain ⟨r, _, rfl⟩ := hq
    beta_reduce
    simp only
    rw [hb.1.x, hb.1.u, hb.1.z.z, hb.1.p, hb.2, hb'.1.x, hb'.1.u, hb'.1.z.z, hb'.1.p, hb'.2,
      hx, ag.uVal hk.1, ag.zVal hk hj, ag.pVal hk.1, ag.vVal]

theorem Agree.ctrlComp (ho : OcpPre uo m oc) (hs : ∀ r ∈ uo.gPathComp, r.Sound m.dims)
    (ag : Agree o m.dims env env') (hk : k < o.nStages) :
    VSame env env' (ctrlCompAt m oc.gCtrlFun.1 k) ∧
      VSame env env' (ctrlCompAt m oc.gCtrlFun.2 k) := by
  obtain ⟨h1, h2, h3⟩ := bindUPV (m := m) k env
  obtain ⟨h1', h2', h3'⟩ := bindUPV (m := m) k env'
  unfold ctrlCompAt
  rw [ho.gCtrl, splitComps_eq]
  constructor <;>
  · refine app_same fun q hq => ?_
    simp only [compCol, List.mem_map] at hq
    obtain ⟨r, hr, rfl⟩ := hq
    simp only [List.mem_filter, Bool.and_eq_true, Bool.not_eq_eq_eq_not, Bool.not_true] at hr
    beta_reduce
    simp only
    rw [h1, h2, h3, h1', h2', h3', ag.uVal hk, ag.pVal hk, ag.vVal]
    first
    | exact ((hs r hr.1).stage hr.2.1 _ _ _ _ _ _ _).1
    | exact ((hs r hr.1).stage hr.2.1 _ _ _ _ _ _ _).2

theorem Agree.globComp (ho : OcpPre uo m oc) (hs : ∀ r ∈ uo.gPathComp, r.Sound m.dims)
    (ag : Agree o m.dims env env') (h0 : 0 < o.nStages) : CmdSame env env' (globC m oc) := by
  obtain ⟨h1, h3⟩ := bindGlob (m := m) env
  obtain ⟨h1', h3'⟩ := bindGlob (m := m) env'
  have hp : pGlobVal m.dims 0 env = pGlobVal m.dims 0 env' := by
    unfold pGlobVal
    refine List.map_congr_left fun i hi => ?_
    have hi := List.mem_range.1 hi
    exact ag _ (.inr ⟨h0, by omega⟩)
  have key : ∀ r ∈ (uo.gPathComp.filter fun r => !r.dependsRk && !r.dependsCtrl), ∀ (E E' : Env),
      (blk m.dims.nPgl .mPgl).map E = (blk m.dims.nPgl .mPgl).map E' →
      m.dims.mV.map E = m.dims.mV.map E' →
      r.a (m.dims.mX.map E) (m.dims.mU.map E) (m.dims.mZ.map E) (m.dims.mP.map E) (m.dims.mV.map E)
        = r.a (m.dims.mX.map E') (m.dims.mU.map E') (m.dims.mZ.map E') (m.dims.mP.map E')
          (m.dims.mV.map E') ∧
      r.b (m.dims.mX.map E) (m.dims.mU.map E) (m.dims.mZ.map E) (m.dims.mP.map E) (m.dims.mV.map E)
        = r.b (m.dims.mX.map E') (m.dims.mU.map E') (m.dims.mZ.map E') (m.dims.mP.map E')
          (m.dims.mV.map E') := by
    intro r hr E E' hE hV
    simp only [List.mem_filter, Bool.and_eq_true, Bool.not_eq_eq_eq_not, Bool.not_true] at hr
    have hS := hs r hr.1
    have hd := hS.ctrl hr.2.1 hr.2.2 (m.dims.mX.map E) (m.dims.mU.map E) (m.dims.mU.map E')
      (m.dims.mZ.map E) (m.dims.mP.map E) (m.dims.mP.map E')
      (m.dims.mV.map E) (by
        unfold Dims.mP
        rw [List.map_append, List.map_append, List.drop_left' (by simp),
          List.drop_left' (by simp), hE]) (by simp)
    have hst := hS.stage hr.2.1 (m.dims.mX.map E) (m.dims.mX.map E') (m.dims.mU.map E')
      (m.dims.mZ.map E) (m.dims.mZ.map E') (m.dims.mP.map E') (m.dims.mV.map E)
    rw [hV] at hst hd ⊢
    exact ⟨hd.1.trans hst.1, hd.2.trans hst.2⟩
  unfold globC
  rw [ho.gGlob, splitComps_eq]
  refine ⟨fun x hx => ?_, ?_⟩
  · rw [List.mem_singleton] at hx
    subst hx
    refine app_same fun q hq => ?_
    simp only [compCol, List.mem_map] at hq
    obtain ⟨r, hr, rfl⟩ := hq
    exact (key r hr _ _ (by rw [h1, h1', hp]) (by rw [h3, h3', ag.vVal])).1
  · refine app_same fun q hq => ?_
    simp only [compCol, List.mem_map] at hq
    obtain ⟨r, hr, rfl⟩ := hq
    exact (key r hr _ _ (by rw [h1, h1', hp]) (by rw [h3, h3', ag.vVal])).2

theorem Agree.crossC (hn : 0 < o.nS) (hpos : ∀ k < o.nStages, 0 < nfe o k)
    (ag : Agree o d env env') (hk : HasFE o k e) :
    ∀ c ∈ Nosnoc.crossC o d k e, CmdSame env env' c := by
  have hl : ∀ {j}, j < o.nS → j < nLamPts o k e := fun hj => by unfold nLamPts; omega
  unfold Nosnoc.crossC
  split
  · intro c hc
    obtain ⟨j, hj, rfl⟩ := List.mem_map.1 hc
    have hj := List.mem_range.1 hj
    exact ⟨by simpa [VSame] using ag.lamVec hk (hl hj), ag.thetaVec hk hj⟩
  · split
    · intro c hc
      obtain ⟨j, hj, hc⟩ := List.mem_flatMap.1 hc
      have hj := List.mem_range.1 hj
      rcases List.mem_cons.1 hc with rfl | hc
      · exact ⟨by simpa [VSame] using ag.thetaVec hk hj, ag.startLam hn hpos hk⟩
      · obtain ⟨jj, hjj, rfl⟩ := List.mem_map.1 hc
        exact ⟨by simpa [VSame] using ag.thetaVec hk hj, ag.lamVec hk (hl (List.mem_range.1 hjj))⟩
    · intro c hc
      obtain ⟨j, hj, rfl⟩ := List.mem_map.1 hc
      exact ⟨ag.allLam hn hpos hk, ag.thetaVec hk (List.mem_range.1 hj)⟩

theorem Agree.stepEqC (hn : 0 < o.nS) (hpos : ∀ k < o.nStages, 0 < nfe o k)
    (ag : Agree o d env env') (hk : HasFE o k e) :
    ∀ c ∈ Nosnoc.stepEqC o d k e, CmdSame env env' c := by
  have hk' : HasFE o k (e - 1) := ⟨hk.1, by have := hk.2; omega⟩
  have hν : nuVal o d k e env = nuVal o d k e env' := by
    rw [nuVal_eq, nuVal_eq]
    exact ag.nu hn hpos hk hk'
  have hh := ag.h hk
  have hh' := ag.h hk'
  unfold Nosnoc.stepEqC
  split
  · simp
  split
  · simp only [List.forall_mem_cons, List.not_mem_nil, false_imp_iff, implies_true, and_true,
      CmdSame]
    rw [hh]
  split
  · simp
  cases o.stepEq <;>
    simp only [List.forall_mem_cons, List.not_mem_nil, false_imp_iff, implies_true, and_true,
      CmdSame, VSame, hh, hh', hν, const]

theorem Agree.feCmds (h : Pre um o m nC nF g up f0 acc) (ho : OcpPre uo m oc) (hz : ZOk o m)
    (ha : AlphaOk um) (hs : ∀ r ∈ uo.gPathComp, r.Sound m.dims)
    (hn : 0 < o.nS) (hpos : ∀ k < o.nStages, 0 < nfe o k)
    (ag : Agree o m.dims env env') (hk : HasFE o k e) :
    ∀ c ∈ Nosnoc.feCmds o m oc k e, CmdSame env env' c := by
  unfold Nosnoc.feCmds
  simp only [List.forall_mem_append]
  refine ⟨⟨⟨⟨⟨⟨⟨ag.liftC hn hpos hk, ?_⟩, ag.contC hn hpos hk⟩, ag.pathC ho hn hpos hk⟩,
    ag.boundC h hz hn hk⟩, ?_⟩, ag.crossC hn hpos hk⟩, ag.stepEqC hn hpos hk⟩
  · intro c hc
    obtain ⟨j, hj, hc⟩ := List.mem_flatMap.1 hc
    exact ag.stageC h ho hz ha hn hpos hk (List.mem_range.1 hj) c hc
  · unfold pathCompC
    rw [List.forall_mem_append]
    constructor
    · intro c hc
      obtain ⟨j, hj, rfl⟩ := List.mem_map.1 hc
      have := ag.rkComp h ho hz hn hpos hk (List.mem_range.1 hj)
      exact ⟨by simpa using this.1, this.2⟩
    · split
      · intro c hc
        rw [List.mem_singleton] at hc
        subst hc
        have := ag.ctrlComp ho hs hk.1
        exact ⟨by simpa using this.1, this.2⟩
      · simp

/-! ### Expressions of commands -/

theorem sumAt_same {xs : List Vec} (h : ∀ x ∈ xs, VSame env env' x) (i : Nat) :
    sumAt xs i env = sumAt xs i env' := by
  unfold sumAt
  congr 1
  exact List.map_congr_left fun x hx => (h x hx).at i

theorem fbAt_same {xs : List Vec} {y : Vec} (h : ∀ x ∈ xs, VSame env env' x) (hy : VSame env env' y)
    (hσ : env .sigma = env' .sigma) (i : Nat) : fbAt xs y i env = fbAt xs y i env' := by
  unfold fbAt
  congr 1
  refine List.map_congr_left fun x hx => ?_
  unfold fbTerm
  simp only [(h x hx).at i, hy.at i, hσ]

theorem cmdG_same {c : Cmd} (h : CmdSame env env' c) {z : List Sym} (hz : ∀ s ∈ z, env s = env' s)
    (ag : Agree o d env env') : VSame env env' (cmdG o z c) := by
  have hσ : env .sigma = env' .sigma := ag .sigma (.inr trivial)
  have hτ : env .tau = env' .tau := ag .tau (.inr trivial)
  cases c with
  | con g b => exact h
  | cost q => intro q hq; cases hq
  | compl xs y =>
    obtain ⟨hx, hy⟩ := h
    by_cases hb : o.mpcc = .boolean
    · simp only [cmdG, if_pos hb]
      unfold boolExpr
      simp only [VSame, List.forall_mem_append, forall_map_range]
      have hz' : VSame env env' (vars z) := vars_same hz
      refine ⟨⟨⟨fun j _ => ?_, fun j _ => ?_⟩, fun j _ => ?_⟩, fun j _ => ?_⟩ <;>
        simp only [hz'.at j, hy.at j, sumAt_same hx j]
    · simp only [cmdG, if_neg hb]
      cases hm : o.mpcc with
      | boolean => exact absurd hm hb
      | fischerBurmeisterIpAug =>
        simp only [compExpr, hm]
        cases xs with
        | nil => intro q hq; cases hq
        | cons x xs =>
          cases xs with
          | cons => intro q hq; cases hq
          | nil =>
            have hx' : VSame env env' x := hx x (by simp)
            simp only [VSame, List.forall_mem_append, forall_map_range]
            refine ⟨⟨⟨fun j _ => ?_, fun j _ => ?_⟩, fun j _ => ?_⟩, fun j _ => ?_⟩ <;>
              simp only [hx'.at j, hy.at j, fbAt_same hx hy hσ j, hσ, hτ]
      | elasticIneq =>
        have hs : env .sElastic = env' .sElastic := ag .sElastic (.inl (.inl hm))
        simp only [compExpr, hm, VSame, forall_map_range]
        intro j _
        rw [sumAt_same hx j, hy.at j, hs]
      | elasticEq =>
        have hs : env .sElastic = env' .sElastic := ag .sElastic (.inl (.inr (.inl hm)))
        simp only [compExpr, hm, VSame, forall_map_range]
        intro j _
        rw [sumAt_same hx j, hy.at j, hs]
      | elasticTwoSided =>
        have hs : env .sElastic = env' .sElastic := ag .sElastic (.inl (.inr (.inr hm)))
        simp only [compExpr, hm, VSame, List.forall_mem_append, forall_map_range]
        refine ⟨fun j _ => ?_, fun j _ => ?_⟩ <;> rw [sumAt_same hx j, hy.at j, hs]
      | fischerBurmeister =>
        simp only [compExpr, hm, VSame, forall_map_range]
        intro j _
        rw [fbAt_same hx hy hσ j]
      | scholtesEq =>
        simp only [compExpr, hm, VSame, forall_map_range]
        intro j _
        rw [sumAt_same hx j, hy.at j, hσ]
      | scholtesIneq =>
        simp only [compExpr, hm, VSame, forall_map_range]
        intro j _
        rw [sumAt_same hx j, hy.at j, hσ]

theorem cmdCost_same {c : Cmd} (h : CmdSame env env' c) : cmdCost c env = cmdCost c env' := by
  cases c with
  | cost q => exact h
  | con => rfl
  | compl => rfl

end
end Nosnoc
