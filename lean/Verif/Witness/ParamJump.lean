import Verif.Witness.Jump
/-
A switching function that is a time-varying parameter: `ẋ = 1` for `p > 0`, `ẋ = -1` for `p < 0`, with
`p = 1` on the first and `p = -1` on the second control stage; one implicit Euler step per control stage,
Stewart mode, with and without FESD.
-/
namespace Nosnoc

noncomputable def pjModel : UserModel where
  nX := 1
  nU := 0
  nZ := 0
  nPtv := 1
  nPgl := 0
  nV := 0
  x0 := [0]
  F := some [⟨2, fun _ i _ _ _ _ _ => if i = 0 then 1 else -1⟩]
  c := some [⟨1, fun _ _ _ p => p.getD 0 0⟩]
  S := some [signMat]
  gStewart := none
  alpha := none
  fx := none
  gz := ⟨0, fun _ _ _ _ _ => 0⟩
  z0 := none
  lbz := none
  ubz := none
  pTimeVarVal := some [[1], [-1]]
  pGlobalVal := []
  tVar := none

noncomputable def pjOpts (fesd : Bool) : Opts :=
  { Opts.default with
    useFesd := fesd, irkRep := .differentialLiftX, nS := 1, nFe := 1, nStages := 2 }

theorem pj_setup (fesd : Bool) :
    ∃ po m oc P, SetupEx oneColloc (pjOpts fesd) pjModel (some UserOcp.trivial) po m oc P ∧
      po.rbe = true ∧ po.aIrk 0 0 = 1 ∧ m.pVal = [[1], [-1]] := by
  obtain ⟨po, hpo⟩ : ∃ po, (pjOpts fesd).preprocess oneColloc = .ok po :=
    flex_preOpts (by norm_num [pjOpts, Opts.default]) (.inr ⟨radau1, rfl, by simp [radau1]⟩)
  have h1 := preprocess_opts hpo
  have e := h1.toOpts
  have e2 : po.timeFreezing = false := by rw [e]; rfl
  have e3 : po.nStages = 2 := by rw [e]; rfl
  obtain ⟨m, hm⟩ : ∃ m, pjModel.preprocess po = .ok m := by
    refine switched_ok (Fs := [⟨2, fun _ i _ _ _ _ _ => if i = 0 then 1 else -1⟩])
      (cs := [⟨1, fun _ _ _ p => p.getD 0 0⟩])
      (Ss := [signMat]) ⟨?_, ?_, ?_, rfl, ?_, .inr e2⟩
      ⟨rfl, rfl, rfl, rfl, ?_, rfl, le_rfl, ?_, ?_, ?_, ?_⟩ rfl
    · intro l h; cases h
    · intro l h; cases h
    · intro l h; cases h
    · intro V h
      cases h
      rw [e3]
      simp [pjModel]
    · intro f hf
      simp only [List.mem_singleton] at hf
      rw [hf]
      simp
    · intro s hs
      obtain rfl : s = 0 := by simpa using hs
      rfl
    · intro _ s hs
      obtain rfl : s = 0 := by simpa using hs
      rfl
    · intro _ s hs i hi k hk _
      obtain rfl : s = 0 := by simpa using hs
      exact hk
    · intro _ s hs
      obtain rfl : s = 0 := by simpa using hs
      rfl
  obtain ⟨oc, hoc⟩ : ∃ oc, UserOcp.trivial.preprocess m = .ok oc := by
    obtain ⟨nC, nF, g, up, f0, acc, hp⟩ := preprocess_pre hm
    unfold UserOcp.preprocess
    rw [hp.dims]
    exact ⟨_, rfl⟩
  obtain ⟨P, hP⟩ := (C06_construct_iff (uo := some UserOcp.trivial) rfl hpo hm hoc
    (by simp [pjOpts]) (fun _ => rfl) rfl).2 ⟨by simp [pjOpts, Opts.default], rfl,
      by simp [pjOpts, Opts.default], fun k hk => by
        have hk0 : k = 0 ∨ k = 1 := by
          have : k < 2 := hk
          omega
        rcases hk0 with rfl | rfl
        · exact ⟨1, rfl, Nat.one_pos⟩
        · exact ⟨1, rfl, Nat.one_pos⟩, by simp [pjOpts, Opts.default]⟩
  refine ⟨po, m, oc, P, ⟨⟨hP, by simp [pjOpts], fun _ => rfl⟩, rfl, by simp [UserOcp.trivial]⟩,
    ?_, ?_, ?_⟩
  · exact (h1.rbe_iff (by simp [pjOpts])).2 rfl
  · obtain ⟨t, ht, hA, -, -⟩ := h1.diff (by simp [pjOpts])
    have : t = radau1 := by
      have h2 : generateButcher (pjOpts fesd).nS (pjOpts fesd).scheme = .ok radau1 := rfl
      rw [h2] at ht; cases ht; rfl
    subst this
    rw [hA]; norm_num [matFun, radau1]
  · obtain ⟨nC, nF, g, up, f0, acc, hp⟩ := preprocess_pre hm
    have := hp.pVal
    simp [UserModel.pValCtrl, pjModel, check, UserModel.ptv, e3] at this
    exact this.symm

/-- The solution without FESD. -/
noncomputable def pjEnv : Env
  | .pStage k _ => if k = 0 then 1 else -1
  | .st1 .x k _ _ _ => if k = 0 then 1 / 2 else 0
  | .st1 .v k _ _ _ => if k = 0 then 1 else -1
  | .st2 .theta k _ _ _ i => if i = k then 1 else 0
  | .st2 .lam k _ _ _ i => if i = k then 0 else 2
  | .st2 .mu _ _ _ _ _ => 1
  | _ => 0

section
variable {po : PreOpts} {m : PreModel} {oc : PreOcp} {P : Problem} {fesd : Bool}

theorem pj_sys {s : Nat} (h : s < pjModel.nSys) : s = 0 := by
  simpa [pjModel, UserModel.nSys] using h

theorem pj_g (x z p : List ℝ) (i : Nat) (hi : i < 2) :
    pjModel.gVal 0 i x z p = if i = 0 then -p.getD 0 0 else p.getD 0 0 := by
  obtain rfl | rfl : i = 0 ∨ i = 1 := by omega
  · simp [UserModel.gVal, pjModel, UserModel.gStewartTruthy, UserModel.Smat, UserModel.cVec,
      signMat]
  · simp [UserModel.gVal, pjModel, UserModel.gStewartTruthy, UserModel.Smat, UserModel.cVec,
      signMat]

structure PjData (fesd : Bool) (po : PreOpts) (d : Dims) : Prop where
  rep : po.irkRep = .differentialLiftX
  stages : po.nStages = 2
  fesd : po.useFesd = fesd
  pss : po.pss = .stewart
  nS : po.nS = 1
  time : po.terminalTime = 1
  sot : po.sot = .none
  mpcc : po.mpcc = .scholtesIneq
  cross : po.crossComp = .sumLambdas
  freeze : po.timeFreezing = false
  nfe0 : nfe po 0 = 1
  nfe1 : nfe po 1 = 1
  sys : d.nSys = 1
  nF : d.nF 0 = 2
  nX : d.nX = 1
  nPtv : d.nPtv = 1
  nPgl : d.nPgl = 0

theorem pj_data (h : SetupEx oneColloc (pjOpts fesd) pjModel (some UserOcp.trivial) po m oc P) :
    PjData fesd po m.dims := by
  have e4 : po.pss = .stewart := h.e_pss
  obtain ⟨d0, -, -, -, d4, d5, d1, d2, -⟩ := h.toSetup.dims
  have := h.e_nfeList
  refine ⟨h.e_irkRep, h.e_nStages, h.e_useFesd, e4, h.e_nS, h.e_terminalTime, h.e_sot, h.e_mpcc,
    h.e_crossComp, h.e_timeFreezing, ?_, ?_, d1, d2 e4 0 Nat.one_pos, d0, d4, d5⟩ <;>
  · unfold nfe
    rw [this]
    rfl

theorem PjData.fe {d : Dims} (D : PjData fesd po d) {k e : Nat} (hk : HasFE po k e) :
    (k = 0 ∨ k = 1) ∧ e = 0 := by
  have h1 := hk.1
  rw [D.stages] at h1
  have h2 := hk.2
  obtain rfl | rfl : k = 0 ∨ k = 1 := by omega
  · rw [D.nfe0] at h2; exact ⟨.inl rfl, by omega⟩
  · rw [D.nfe1] at h2; exact ⟨.inr rfl, by omega⟩

theorem pj_feasible (h : SetupEx oneColloc (pjOpts false) pjModel (some UserOcp.trivial) po m oc P)
    (hrbe : po.rbe = true) (hA : po.aIrk 0 0 = 1) : P.form.Feasible pjEnv := by
  have D := pj_data h
  have hown : ownEnd po = false := by simp [ownEnd, D.rep, hrbe]
  have nf : po.useFesd = true → False := fun hc => absurd (D.fesd.symm.trans hc) (by decide)
  have hrhs : ∀ k e j i, k = 0 ∨ k = 1 →
      pjModel.stageRhs po m.dims k e j i pjEnv = if k = 0 then 1 else -1 := by
    intro k e j i hk
    unfold UserModel.stageRhs
    rw [D.pss]
    rcases hk with rfl | rfl <;>
      simp [UserModel.rhsStewart, UserModel.nSys, pjModel, UserModel.Fmat, pjEnv,
        Finset.sum_range_succ]
  have hpv : ∀ k, pVal m.dims k pjEnv = [if k = 0 then 1 else -1] := by
    intro k
    unfold pVal
    rw [D.nPtv, D.nPgl]
    rfl
  rw [h.iff (by simp [pjOpts, Opts.default])]
  show FeasibleSpec po m.dims pjModel UserOcp.trivial _
  have hdual : ∀ {v : ℝ}, 0 ≤ v → dualLb po.mpcc ≤ ((v : ℝ) : EReal) := by
    intro v hv
    have : dualLb po.mpcc ≤ 0 := by unfold dualLb; split <;> simp
    exact this.trans (by rw [← EReal.coe_zero]; exact EReal.coe_le_coe_iff.2 hv)
  constructor
  · intro s hs
    cases s with
    | xEnd k e i => exact ⟨bot_le, le_top⟩
    | st1 f k e j i => cases f <;> exact ⟨bot_le, le_top⟩
    | st2 f k e j s i =>
      cases f with
      | theta =>
        refine ⟨hdual ?_, le_top⟩
        show (0 : ℝ) ≤ if i = k then 1 else 0
        split <;> norm_num
      | lam =>
        refine ⟨hdual ?_, le_top⟩
        show (0 : ℝ) ≤ if i = k then 0 else 2
        split <;> norm_num
      | mu => exact ⟨bot_le, le_top⟩
      | _ => exact absurd (D.pss.symm.trans hs.1) (by decide)
    | h k e => exact (nf hs.1).elim
    | u k i => exact ⟨bot_le, le_top⟩
    | vGlob i => exact ⟨bot_le, le_top⟩
    | sot k => exact absurd (D.sot.symm.trans hs.1) (by decide)
    | sElastic => rw [IsVar, D.mpcc] at hs; simp at hs
    | _ => exact hs.elim
  · intro k e hk j hj
    obtain ⟨hk0, rfl⟩ := D.fe hk
    refine ⟨?_, ?_, ?_⟩
    · unfold UserModel.Switching
      rw [D.pss, hpv]
      intro s hs i hi
      obtain rfl := pj_sys hs
      have hi2 : i < 2 := hi
      rw [pj_g _ _ _ i hi2]
      rcases hk0 with rfl | rfl <;> obtain rfl | rfl : i = 0 ∨ i = 1 := by omega
      all_goals simp [pjEnv]
      all_goals norm_num
    · intro _ s hs
      obtain rfl := pj_sys hs
      rcases hk0 with rfl | rfl <;>
        simp [UserModel.Fmat, pjModel, pjEnv, Finset.sum_range_succ]
    · intro i hi; simp [pjModel] at hi
  · intro k e hk j hj i hi
    unfold RkEq
    rw [if_neg (by rw [D.rep]; decide), hrhs _ _ _ _ (D.fe hk).1]
    simp [sotVal, D.sot, const, pjEnv]
  · intro _ k e hk j hj i hi
    obtain ⟨hk0, rfl⟩ := D.fe hk
    have hj0 : j = 0 := by rw [D.nS] at hj; omega
    have hi0 : i = 0 := by rw [D.nX] at hi; omega
    subst hj0 hi0
    unfold LiftEq
    rw [D.nS, Finset.sum_range_one, hA]
    rcases hk0 with rfl | rfl
    · have hs0 : startX po 0 0 0 = .x0 0 := by simp [startX, prevFe]
      rw [hs0]
      simp [hVal, D.fesd, const, nominalH, D.time, D.stages, D.nfe0, pjEnv]
    · have hs0 : startX po 1 0 0 = .st1 .x 0 0 0 0 := by
        simp [startX, prevFe, endX, hown, D.nfe0, D.nS]
      rw [hs0]
      simp [hVal, D.fesd, const, nominalH, D.time, D.stages, D.nfe1, pjEnv]
  · intro hc; rw [hown] at hc; cases hc
  · intro hc; rw [hrbe] at hc; cases hc
  · intro k e _ _ i hi; simp [UserOcp.trivial] at hi
  · intro _ k e _ j _ i hi; simp [UserOcp.trivial] at hi
  · intro k e _ j _ r hr; simp [stageComps, UserOcp.trivial] at hr
  · intro k e _ _ r hr; simp [ctrlComps, UserOcp.trivial] at hr
  · intro r hr; simp [globComps, UserOcp.trivial] at hr
  · intro _ k e hk j hj q hq
    obtain ⟨hk0, rfl⟩ := D.fe hk
    cases q with
    | neg s i => exact absurd (D.pss.symm.trans hq.1) (by decide)
    | pos s i => exact absurd (D.pss.symm.trans hq.1) (by decide)
    | region s i =>
      unfold Compl CompSat
      simp only [D.mpcc, lamAt, thetaAt, pjEnv, List.sum_singleton]
      split <;> norm_num
  · intro hc; exact (nf hc).elim
  · intro hc; exact (nf hc).elim
  · intro hc; exact (nf hc).elim
  · intro hc; exact (nf hc).elim
  · intro hc; exact (nf hc).elim
  · intro hc; exact (nf hc).elim
  · intro _ hc; exact (nf hc).elim
  · intro t ht; simp [pjModel] at ht
  · intro i hi; simp [UserOcp.trivial] at hi

/-- With FESD no point with these parameters satisfies the constraints for `σ < 1`. -/
theorem pj_infeasible (h : SetupEx oneColloc (pjOpts true) pjModel (some UserOcp.trivial) po m oc P)
    (hrbe : po.rbe = true) {env : Env} (hp0 : env (.pStage 0 0) = 1) (hp1 : env (.pStage 1 0) = -1)
    (hf : P.form.Feasible env) : 1 ≤ env .sigma := by
  have D := pj_data h
  have hsp : FeasibleSpec po m.dims pjModel UserOcp.trivial env := h.spec hf
  have hk0 : HasFE po 0 0 := ⟨by rw [D.stages]; omega, by rw [D.nfe0]; omega⟩
  have hk1 : HasFE po 1 0 := ⟨by rw [D.stages]; omega, by rw [D.nfe1]; omega⟩
  have hj : 0 < po.nS := by rw [D.nS]; omega
  have hpv : ∀ k, pVal m.dims k env = [env (.pStage k 0)] := by
    intro k
    unfold pVal
    rw [D.nPtv, D.nPgl]
    rfl
  have sw : ∀ k, HasFE po k 0 → -env (.pStage k 0) = env (.st2 .lam k 0 0 0 0) - env (.st2 .mu k 0 0 0 0)
      ∧ env (.pStage k 0) = env (.st2 .lam k 0 0 0 1) - env (.st2 .mu k 0 0 0 0) := by
    intro k hk
    have a1 := (hsp.alg k 0 hk 0 hj).1
    unfold UserModel.Switching at a1
    rw [D.pss, hpv] at a1
    have g0 := a1 0 (by simp [pjModel, UserModel.nSys]) 0 (by simp [pjModel, UserModel.Fmat])
    have g1 := a1 0 (by simp [pjModel, UserModel.nSys]) 1 (by simp [pjModel, UserModel.Fmat])
    rw [pj_g _ _ _ _ (by omega)] at g0 g1
    simpa using And.intro g0 g1
  have nn : ∀ k, HasFE po k 0 → ∀ i < 2, 0 ≤ env (.st2 .lam k 0 0 0 i) := by
    intro k hk i hi
    have := (hsp.bounds (.st2 .lam k 0 0 0 i) ⟨D.pss, hk, by unfold nLamPts; omega,
      by rw [D.sys]; omega, by rw [D.nF]; omega⟩).1
    simp [varDoc, D.mpcc, dualLb] at this
    exact_mod_cast this
  have nt : ∀ i < 2, 0 ≤ env (.st2 .theta 1 0 0 0 i) := by
    intro i hi
    have := (hsp.bounds (.st2 .theta 1 0 0 0 i) ⟨D.pss, hk1, hj,
      by rw [D.sys]; omega, by rw [D.nF]; omega⟩).1
    simp [varDoc, D.mpcc, dualLb] at this
    exact_mod_cast this
  have hsum : env (.st2 .theta 1 0 0 0 0) + env (.st2 .theta 1 0 0 0 1) = 1 := by
    have hs := (hsp.alg 1 0 hk1 0 hj).2.1 D.pss 0 (by simp [pjModel, UserModel.nSys])
    simpa [UserModel.Fmat, pjModel, Finset.sum_range_succ] using hs
  have cc : ∀ i < 2, (env (.st2 .lam 1 0 0 0 i) + env (.st2 .lam 0 0 0 0 i))
      * env (.st2 .theta 1 0 0 0 i) ≤ env .sigma := by
    intro i hi
    have := hsp.compSum D.fesd D.cross 1 0 hk1 0 hj (.region 0 i)
      ⟨D.pss, by rw [D.sys]; omega, by rw [D.nF]; omega⟩
    have hn : nLamPts po 1 0 = 1 := by simp [nLamPts, extraPt, hrbe, D.nS]
    have hl : lamStart po 1 0 env (.region 0 i) = env (.st2 .lam 0 0 0 0 i) := by
      simp [lamStart, prevFe, D.nfe0, lastLam, extraPt, hrbe, D.nS, lamAt]
    rw [hn, hl] at this
    simpa [Compl, CompSat, D.mpcc, lamAt, thetaAt] using this
  obtain ⟨a0, a1⟩ := sw 0 hk0
  obtain ⟨b0, b1⟩ := sw 1 hk1
  rw [hp0] at a0 a1
  rw [hp1] at b0 b1
  have n00 := nn 0 hk0 0 (by omega)
  have n01 := nn 0 hk0 1 (by omega)
  have n10 := nn 1 hk1 0 (by omega)
  have n11 := nn 1 hk1 1 (by omega)
  have t0 := nt 0 (by omega)
  have t1 := nt 1 (by omega)
  have c0 := cc 0 (by omega)
  have c1 := cc 1 (by omega)
  have l0 : 2 ≤ env (.st2 .lam 1 0 0 0 0) + env (.st2 .lam 0 0 0 0 0) := by linarith
  have l1 : 2 ≤ env (.st2 .lam 1 0 0 0 1) + env (.st2 .lam 0 0 0 0 1) := by linarith
  have m0 := mul_le_mul_of_nonneg_right l0 t0
  have m1 := mul_le_mul_of_nonneg_right l1 t1
  linarith

end
end Nosnoc
