import Verif.Proofs.ModelPre
/-
Helper lemmas: a successful construction yields the closed form of `Proofs/Assemble`, and the model
functions applied to the discretised quantities are the user's expressions.
-/
namespace Nosnoc

/-! ### Options -/

/-- What a successful `preprocess` of the options yields. -/
structure OptsPre (colloc : IrkScheme → Nat → List ℝ) (o : Opts) (po : PreOpts) : Prop where
  toOpts : po.toOpts = { o with maxIterHomotopy := po.maxIterHomotopy, nfeList := o.nfeAfter }
  iter : o.maxIter = .ok po.maxIterHomotopy
  integral : o.irkRep = .integral →
    po.BIrk = (generateButcherIntegral (colloc o.scheme o.nS)).B ∧
    po.CIrk = (generateButcherIntegral (colloc o.scheme o.nS)).C ∧
    po.DIrk = (generateButcherIntegral (colloc o.scheme o.nS)).D ∧
    po.timePts = 0 :: colloc o.scheme o.nS
  diff : o.irkRep ≠ .integral → ∃ t, generateButcher o.nS o.scheme = .ok t ∧
    po.aIrk = matFun t.A ∧ po.bIrk = vecFun t.b ∧ po.timePts = t.c.map (fun q : ℚ => (q : ℝ))
  rbe : ∃ t, po.timePts.getLast? = some t ∧ po.rbe = decide (|t - 1| < 1 / 10 ^ 9)

theorem preprocess_opts {colloc : IrkScheme → Nat → List ℝ} {o : Opts} {po : PreOpts}
    (h : o.preprocess colloc = .ok po) : OptsPre colloc o po := by
  unfold Opts.preprocess at h
  rw [bind_eq_ok] at h
  obtain ⟨mi, hmi, h⟩ := h
  cases hr : o.irkRep
  · simp only [hr, ok_bind] at h
    cases hl : (generateButcherIntegral (colloc o.scheme o.nS)).tau.getLast? with
    | none => rw [hl] at h; cases h
    | some t =>
      rw [hl] at h
      simp only at h
      injection h with h
      subst h
      exact ⟨by simp [hr], hmi, fun _ => ⟨rfl, rfl, rfl, rfl⟩, fun h => absurd hr h, t, hl, rfl⟩
  all_goals
    simp only [hr, bind_eq_ok] at h
    obtain ⟨t, ht, _, h1, h⟩ := h
    injection h1 with h1
    subst h1
    simp only at h
    cases hl : (t.c.map (fun q : ℚ => (q : ℝ))).getLast? with
    | none => rw [hl] at h; cases h
    | some t' =>
      rw [hl] at h
      simp only at h
      injection h with h
      subst h
      exact ⟨by simp [hr], hmi, fun h => absurd h (by simp [hr]),
        fun _ => ⟨t, ht, rfl, rfl, rfl⟩, t', hl, rfl⟩

/-! ### Model and ocp -/

section
variable {um : UserModel} {o : PreOpts} {m : PreModel} {nC nF : List Nat} {g up : List Vec}
  {f0 : Vec} {acc : DcsAcc} {uo : UserOcp} {oc : PreOcp}

theorem Pre.accFx (h : Pre um o m nC nF g up f0 acc) : acc.fx.length = um.nX := by
  have hd : m.dims.nX = um.nX := by rw [h.dims]; rfl
  have h0 := fx0_length h.hf0
  cases hp : o.pss with
  | stewart =>
    obtain ⟨_, rfl⟩ := stewartFold (by rw [h0, hd]) (h.stewart hp)
    simp [stewartAcc, hd]
  | step =>
    have hu := h.hup
    rw [hp] at hu
    have := h.step hp
    rw [hp] at this
    obtain ⟨_, rfl⟩ := stepFold (upsilon_ok hu) (by rw [h0, hd]) le_rfl this
    simp [stepAcc, hd]

/-- What a successful `preprocess_ocp` computed. -/
structure OcpPre (uo : UserOcp) (m : PreModel) (oc : PreOcp) : Prop where
  width : uo.gPathCompWidth = 2
  lbg : orDefault uo.lbg uo.nGPath 0 = .ok oc.lbg
  ubg : orDefault uo.ubg uo.nGPath 0 = .ok oc.ubg
  lbx : orDefault uo.lbx m.dims.nX ⊥ = .ok oc.lbx
  ubx : orDefault uo.ubx m.dims.nX ⊤ = .ok oc.ubx
  lbu : orDefault uo.lbu m.dims.nU ⊥ = .ok oc.lbu
  ubu : orDefault uo.ubu m.dims.nU ⊤ = .ok oc.ubu
  uGuess : orDefault uo.uGuess m.dims.nU 0 = .ok oc.uGuess
  lbv : orDefaultE uo.lbv m.dims.nV ⊥ = .ok oc.lbv
  ubv : orDefaultE uo.ubv m.dims.nV ⊤ = .ok oc.ubv
  vGuess : orDefaultE uo.vGuess m.dims.nV 0 = .ok oc.vGuess
  gT : oc.gTerminalFun = ⟨[m.dims.mX, m.dims.mP, m.dims.mV], vec uo.nGTerminal fun i env =>
      uo.gTerminal i (m.dims.mX.map env) (m.dims.mP.map env) (m.dims.mV.map env)⟩
  fqT : oc.fqTFun = ⟨[m.dims.mX, m.dims.mP, m.dims.mV],
      [fun env => uo.fTerminal (m.dims.mX.map env) (m.dims.mP.map env) (m.dims.mV.map env)]⟩
  fq : oc.fqFun = ⟨[m.dims.mX, m.dims.mU, m.dims.mP, m.dims.mV],
      [fun env => uo.fq (m.dims.mX.map env) (m.dims.mU.map env) (m.dims.mP.map env)
        (m.dims.mV.map env)]⟩
  gPath : oc.gPathFun = ⟨[m.dims.mX, m.dims.mU, m.dims.mP, m.dims.mV], vec uo.nGPath fun i env =>
      uo.gPath i (m.dims.mX.map env) (m.dims.mU.map env) (m.dims.mP.map env) (m.dims.mV.map env)⟩
  gGlob : oc.gGlobalFun =
    (⟨[blk m.dims.nPgl .mPgl, m.dims.mV], compCol m.dims PathComp.a (splitComps uo.gPathComp).global⟩,
     ⟨[blk m.dims.nPgl .mPgl, m.dims.mV], compCol m.dims PathComp.b (splitComps uo.gPathComp).global⟩)
  gCtrl : oc.gCtrlFun =
    (⟨[m.dims.mU, m.dims.mP, m.dims.mV], compCol m.dims PathComp.a (splitComps uo.gPathComp).ctrl⟩,
     ⟨[m.dims.mU, m.dims.mP, m.dims.mV], compCol m.dims PathComp.b (splitComps uo.gPathComp).ctrl⟩)
  gRk : oc.gRkFun =
    (⟨[m.dims.mX, m.dims.mU, m.zAll, m.dims.mP, m.dims.mV],
        compCol m.dims PathComp.a (splitComps uo.gPathComp).stage⟩,
     ⟨[m.dims.mX, m.dims.mU, m.zAll, m.dims.mP, m.dims.mV],
        compCol m.dims PathComp.b (splitComps uo.gPathComp).stage⟩)

theorem preprocess_ocp (h : uo.preprocess m = .ok oc) : OcpPre uo m oc := by
  unfold UserOcp.preprocess at h
  simp only [bind_eq_ok, check_eq_ok] at h
  obtain ⟨_, hw, lbg, h1, ubg, h2, lbx, h3, ubx, h4, lbu, h5, ubu, h6, ug, h7, lbv, h8, ubv, h9,
    vg, h10, h⟩ := h
  injection h with h
  subst h
  exact ⟨hw, h1, h2, h3, h4, h5, h6, h7, h8, h9, h10, rfl, rfl, rfl, rfl, rfl, rfl, rfl⟩

theorem length_compCol (d : Dims) (sel : PathComp → (x u z p v : List ℝ) → ℝ)
    (rows : List PathComp) : (compCol d sel rows).length = rows.length := by simp [compCol]

theorem Pre.dataOk (h : Pre um o m nC nF g up f0 acc) (ho : OcpPre uo m oc) : DataOk m oc := by
  have hd : m.dims.nZ = um.nZ := by rw [h.dims]; rfl
  exact ⟨orDefault_length ho.lbx, orDefault_length ho.ubx, by rw [hd]; exact orDefault_length h.z0,
    by rw [hd]; exact orDefault_length h.lbz, by rw [hd]; exact orDefault_length h.ubz,
    ⟨orDefault_length ho.lbu, orDefault_length ho.ubu, orDefault_length ho.uGuess⟩,
    ⟨orDefaultE_length ho.lbv, orDefaultE_length ho.ubv, orDefaultE_length ho.vGuess⟩⟩

theorem Pre.funsOk (h : Pre um o m nC nF g up f0 acc) (ho : OcpPre uo m oc) : FunsOk o m oc where
  fxIns := by rw [h.fx]
  fxOuts := by rw [h.fx, h.dims]; exact h.accFx
  gzIns := by rw [h.gz]
  swIns := by rw [h.sw]
  tFun := by
    intro t ht
    rw [h.t, Option.map_eq_some_iff] at ht
    obtain ⟨_, _, rfl⟩ := ht
    exact ⟨rfl, rfl⟩
  tSome := by
    intro ht
    rw [h.t, Option.isSome_map]
    rcases h.tCheck with h1 | h1
    · exact h1
    · rw [ht] at h1; cases h1
  fqIns := by rw [ho.fq]
  fqOuts := by rw [ho.fq]; rfl
  gPathIns := by rw [ho.gPath]
  gPathLb := by rw [ho.gPath, orDefault_length ho.lbg]; simp
  gPathUb := by rw [ho.gPath, orDefault_length ho.ubg]; simp
  fqTIns := by rw [ho.fqT]
  fqTOuts := by rw [ho.fqT]; rfl
  gTIns := by rw [ho.gT]
  rkIns1 := by rw [ho.gRk]
  rkIns2 := by rw [ho.gRk]
  rkOuts := by rw [ho.gRk]; simp [length_compCol]
  ctrlIns1 := by rw [ho.gCtrl]
  ctrlIns2 := by rw [ho.gCtrl]
  ctrlOuts := by rw [ho.gCtrl]; simp [length_compCol]
  globIns1 := by rw [ho.gGlob]
  globIns2 := by rw [ho.gGlob]
  globOuts := by rw [ho.gGlob]; simp [length_compCol]

end

/-- Everything known about a successful construction. -/
structure Built (colloc : IrkScheme → Nat → List ℝ) (o : Opts) (um : UserModel)
    (uo : Option UserOcp) (po : PreOpts) (m : PreModel) (oc : PreOcp) (P : Problem) : Prop where
  opts : OptsPre colloc o po
  init : um.initCheck = .ok ()
  pre : ∃ nC nF g up f0 acc, Pre um po m nC nF g up f0 acc
  ocp : OcpPre (uo.getD UserOcp.trivial) m oc
  data : DataOk m oc
  funs : FunsOk po m oc
  nS : 0 < po.nS
  ok : BuildOk po m oc
  eq : P = problemOf po m oc uo.isNone

theorem construct_built {colloc : IrkScheme → Nat → List ℝ} {o : Opts} {um : UserModel}
    {uo : Option UserOcp} {po : PreOpts} {m : PreModel} {oc : PreOcp} {P : Problem}
    (h : construct colloc o um uo = .ok (po, m, oc, P)) (hn : 0 < o.nS) :
    Built colloc o um uo po m oc P := by
  unfold construct at h
  simp only [bind_eq_ok] at h
  obtain ⟨_, hi, po', hpo, m', hm, oc', hoc, P', hP, h⟩ := h
  cases h
  have h1 := preprocess_opts hpo
  obtain ⟨nC, nF, g, up, f0, acc, h2⟩ := preprocess_pre hm
  have h3 := preprocess_ocp hoc
  have hn' : 0 < po.nS := by rw [h1.toOpts]; exact hn
  have h4 := (build_iff hn' (h2.dataOk h3) (h2.funsOk h3) _ _).1 hP
  exact ⟨h1, hi, ⟨nC, nF, g, up, f0, acc, h2⟩, h3, h2.dataOk h3, h2.funsOk h3, hn', h4.1, h4.2⟩

end Nosnoc
