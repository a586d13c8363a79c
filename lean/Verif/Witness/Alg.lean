import Verif.Witness.TwoSys
import Verif.Proofs.OptsEq
/-
A problem with an algebraic variable: `z = x` by the user's equation, switching function `z - 1/2`,
right-hand side 0, start at 1, no guess for `z`.  The trajectory stays at 1, in the first region.
Stewart mode, one implicit Euler step, FESD.
-/
namespace Nosnoc

noncomputable def algModel : UserModel where
  nX := 1
  nU := 0
  nZ := 1
  nPtv := 0
  nPgl := 0
  nV := 0
  x0 := [1]
  F := some [⟨2, fun _ _ _ _ _ _ _ => 0⟩]
  c := some [⟨1, fun _ _ z _ => z.getD 0 0 - 1 / 2⟩]
  S := some [signMat]
  gStewart := none
  alpha := none
  fx := none
  gz := ⟨1, fun _ x z _ _ => z.getD 0 0 - x.getD 0 0⟩
  z0 := none
  lbz := none
  ubz := none
  pTimeVarVal := none
  pGlobalVal := []
  tVar := none

noncomputable def algOpts : Opts :=
  { Opts.default with irkRep := .differentialLiftX, nS := 1, nFe := 1 }

theorem alg_setup :
    ∃ po m oc P, SetupEx oneColloc algOpts algModel (some UserOcp.trivial) po m oc P ∧
      po.rbe = true ∧ po.aIrk 0 0 = 1 := by
  obtain ⟨po, hpo⟩ : ∃ po, algOpts.preprocess oneColloc = .ok po :=
    flex_preOpts (by norm_num [algOpts, Opts.default]) (.inr ⟨radau1, rfl, by simp [radau1]⟩)
  have h1 := preprocess_opts hpo
  have e := h1.toOpts
  have e2 : po.timeFreezing = false := by rw [e]; rfl
  obtain ⟨m, hm⟩ : ∃ m, algModel.preprocess po = .ok m := by
    refine switched_ok (Fs := [⟨2, fun _ _ _ _ _ _ _ => 0⟩])
      (cs := [⟨1, fun _ _ z _ => z.getD 0 0 - 1 / 2⟩])
      (Ss := [signMat]) ⟨?_, ?_, ?_, rfl, ?_, .inr e2⟩
      ⟨rfl, rfl, rfl, rfl, ?_, rfl, le_rfl, ?_, ?_, ?_, ?_⟩ rfl
    · intro l h; cases h
    · intro l h; cases h
    · intro l h; cases h
    · intro V h; cases h
    · intro f hf
      simp only [List.mem_singleton] at hf
      rw [hf]
      simp
    · intro s hs
      obtain rfl : s = 0 := by simpa using hs
      rfl
    · intro _ s hs
      obtain rfl : s = 0 := by simpa using hs
      rfl
    · intro _ s hs i hi k hk _
      obtain rfl : s = 0 := by simpa using hs
      exact hk
    · intro _ s hs
      obtain rfl : s = 0 := by simpa using hs
      rfl
  obtain ⟨oc, hoc⟩ : ∃ oc, UserOcp.trivial.preprocess m = .ok oc := by
    obtain ⟨nC, nF, g, up, f0, acc, hp⟩ := preprocess_pre hm
    unfold UserOcp.preprocess
    rw [hp.dims]
    exact ⟨_, rfl⟩
  obtain ⟨P, hP⟩ := (C06_construct_iff (uo := some UserOcp.trivial) rfl hpo hm hoc
    (by simp [algOpts]) (fun _ => rfl) rfl).2 ⟨by simp [algOpts, Opts.default], rfl,
      by simp [algOpts, Opts.default], fun k hk => by
        have hk0 : k = 0 := by simpa [algOpts, Opts.default] using hk
        subst hk0
        exact ⟨1, rfl, Nat.one_pos⟩, by simp [algOpts, Opts.default]⟩
  refine ⟨po, m, oc, P, ⟨⟨hP, by simp [algOpts], fun _ => rfl⟩, rfl, by simp [UserOcp.trivial]⟩,
    ?_, ?_⟩
  · exact (h1.rbe_iff (by simp [algOpts])).2 rfl
  · obtain ⟨t, ht, hA, -, -⟩ := h1.diff (by simp [algOpts])
    have : t = radau1 := by
      have h2 : generateButcher algOpts.nS algOpts.scheme = .ok radau1 := rfl
      rw [h2] at ht; cases ht; rfl
    subst this
    rw [hA]; norm_num [matFun, radau1]

/-- The solution: `x = z = 1`, first region; parameters `q`. -/
noncomputable def algEnv (q : Sym → ℝ) : Env
  | .st1 .x _ _ _ _ => 1
  | .st1 .v _ _ _ _ => 0
  | .st1 .z _ _ _ _ => 1
  | .st2 .theta _ _ _ _ i => if i = 0 then 1 else 0
  | .st2 .lam _ _ _ _ i => if i = 0 then 0 else 1
  | .st2 .mu _ _ _ _ _ => 1 / 2
  | .h _ _ => 1
  | s => q s

section
variable {po : PreOpts} {m : PreModel} {oc : PreOcp} {P : Problem}

theorem alg_sys {s : Nat} (h : s < algModel.nSys) : s = 0 := by
  simpa [algModel, UserModel.nSys] using h

theorem alg_g (x z p : List ℝ) (i : Nat) (hi : i < 2) :
    algModel.gVal 0 i x z p = if i = 0 then 1 / 2 - z.getD 0 0 else z.getD 0 0 - 1 / 2 := by
  obtain rfl | rfl : i = 0 ∨ i = 1 := by omega
  · simp [UserModel.gVal, algModel, UserModel.gStewartTruthy, UserModel.Smat, UserModel.cVec,
      signMat]
  · simp [UserModel.gVal, algModel, UserModel.gStewartTruthy, UserModel.Smat, UserModel.cVec,
      signMat]

structure AlgData (po : PreOpts) (d : Dims) : Prop where
  rep : po.irkRep = .differentialLiftX
  stages : po.nStages = 1
  fesd : po.useFesd = true
  pss : po.pss = .stewart
  nS : po.nS = 1
  time : po.terminalTime = 1
  gamma : po.gammaH = 1
  sot : po.sot = .none
  mpcc : po.mpcc = .scholtesIneq
  cross : po.crossComp = .sumLambdas
  freeze : po.timeFreezing = false
  nfe : nfe po 0 = 1
  sys : d.nSys = 1
  nF : d.nF 0 = 2
  nX : d.nX = 1
  nZ : d.nZ = 1

theorem alg_data (h : SetupEx oneColloc algOpts algModel (some UserOcp.trivial) po m oc P) :
    AlgData po m.dims := by
  have e4 : po.pss = .stewart := h.e_pss
  obtain ⟨d0, -, d3, -, -, -, d1, d2, -⟩ := h.toSetup.dims
  refine ⟨h.e_irkRep, h.e_nStages, h.e_useFesd, e4, h.e_nS, h.e_terminalTime, h.e_gammaH, h.e_sot,
    h.e_mpcc, by rw [h.opts]; rfl, h.e_timeFreezing, ?_, d1, d2 e4 0 Nat.one_pos, d0, d3⟩
  have := h.e_nfeList
  unfold nfe
  rw [this]
  rfl

theorem alg_feasible (h : SetupEx oneColloc algOpts algModel (some UserOcp.trivial) po m oc P)
    (hrbe : po.rbe = true) (hA : po.aIrk 0 0 = 1) {q : Sym → ℝ} (hq : q (.x0 0) = 1)
    (hσ : 0 ≤ q .sigma) (h0 : q (.lam00 .lam 0 0) = 0) :
    P.form.Feasible (algEnv q) := by
  have D := alg_data h
  have hown : ownEnd po = false := by simp [ownEnd, D.rep, hrbe]
  have hfe : ∀ {k e}, HasFE po k e → k = 0 ∧ e = 0 := by
    intro k e hk
    have h1 := hk.1
    rw [D.stages] at h1
    have hk0 : k = 0 := by omega
    subst hk0
    have h2 := hk.2
    rw [D.nfe] at h2
    exact ⟨rfl, by omega⟩
  have hrhs : ∀ k e j i, algModel.stageRhs po m.dims k e j i (algEnv q) = 0 := by
    intro k e j i
    unfold UserModel.stageRhs
    rw [D.pss]
    simp [UserModel.rhsStewart, UserModel.nSys, algModel, UserModel.Fmat]
  have hxv : ∀ k e j, xVal po m.dims k e j (algEnv q) = [1] := by
    intro k e j
    unfold xVal stageX
    rw [if_neg (by rw [D.rep]; decide), D.nX]
    rfl
  have hzv : ∀ k e j, zVal m.dims k e j (algEnv q) = [1] := by
    intro k e j
    unfold zVal
    rw [D.nZ]
    rfl
  rw [h.iff (by simp [algOpts, Opts.default])]
  show FeasibleSpec po m.dims algModel UserOcp.trivial _
  have hdual : ∀ {v : ℝ}, 0 ≤ v → dualLb po.mpcc ≤ ((v : ℝ) : EReal) := by
    intro v hv
    have : dualLb po.mpcc ≤ 0 := by unfold dualLb; split <;> simp
    exact this.trans (by rw [← EReal.coe_zero]; exact EReal.coe_le_coe_iff.2 hv)
  constructor
  · intro s hs
    cases s with
    | xEnd k e i => exact ⟨bot_le, le_top⟩
    | st1 f k e j i => cases f <;> exact ⟨bot_le, le_top⟩
    | st2 f k e j s i =>
      cases f with
      | theta =>
        refine ⟨hdual ?_, le_top⟩
        show (0 : ℝ) ≤ if i = 0 then 1 else 0
        split <;> norm_num
      | lam =>
        refine ⟨hdual ?_, le_top⟩
        show (0 : ℝ) ≤ if i = 0 then 0 else 1
        split <;> norm_num
      | mu => exact ⟨bot_le, le_top⟩
      | _ => exact absurd (D.pss.symm.trans hs.1) (by decide)
    | h k e =>
      obtain ⟨rfl, rfl⟩ := hfe hs.2
      have : (1 : EReal) ≤ 1 + 1 := by
        rw [← EReal.coe_one, ← EReal.coe_add]
        exact EReal.coe_le_coe_iff.2 (by norm_num)
      simpa [varDoc, algEnv, nominalH, D.gamma, D.time, D.stages, D.nfe] using this
    | u k i => exact ⟨bot_le, le_top⟩
    | vGlob i => exact ⟨bot_le, le_top⟩
    | sot k => exact absurd (D.sot.symm.trans hs.1) (by decide)
    | sElastic => rw [IsVar, D.mpcc] at hs; simp at hs
    | _ => exact hs.elim
  · intro k e hk j hj
    refine ⟨?_, ?_, ?_⟩
    · unfold UserModel.Switching
      rw [D.pss, hxv, hzv]
      intro s hs i hi
      obtain rfl := alg_sys hs
      have hi2 : i < 2 := hi
      rw [alg_g _ _ _ i hi2]
      obtain rfl | rfl : i = 0 ∨ i = 1 := by omega
      · norm_num [algEnv]
      · norm_num [algEnv]
    · intro _ s hs
      obtain rfl := alg_sys hs
      simp [UserModel.Fmat, algModel, algEnv, Finset.sum_range_succ]
    · intro i hi
      rw [hxv, hzv]
      simp [algModel]
  · intro k e hk j hj i hi
    unfold RkEq
    rw [if_neg (by rw [D.rep]; decide), hrhs]
    simp [sotVal, D.sot, const, algEnv]
  · intro _ k e hk j hj i hi
    obtain ⟨rfl, rfl⟩ := hfe hk
    have hj0 : j = 0 := by rw [D.nS] at hj; omega
    have hi0 : i = 0 := by rw [D.nX] at hi; omega
    subst hj0 hi0
    unfold LiftEq
    have hs0 : startX po 0 0 0 = .x0 0 := by simp [startX, prevFe]
    rw [D.nS, Finset.sum_range_one, hA, hs0]
    simp only [algEnv, hq]
    simp
  · intro hc; exact absurd (hown.symm.trans hc) (by decide)
  · intro hc; exact absurd (hrbe.symm.trans hc) (by decide)
  · intro k e hk he i hi; simp [UserOcp.trivial] at hi
  · intro _ k e _ j _ i hi; simp [UserOcp.trivial] at hi
  · intro k e _ j _ q hq; simp [stageComps, UserOcp.trivial] at hq
  · intro k e _ _ q hq; simp [ctrlComps, UserOcp.trivial] at hq
  · intro q hq; simp [globComps, UserOcp.trivial] at hq
  · intro hc; exact absurd (D.fesd.symm.trans hc) (by decide)
  · intro _ hc; exact absurd (D.cross.symm.trans hc) (by decide)
  · intro _ _ k e hk j hj pr hpr
    obtain ⟨rfl, rfl⟩ := hfe hk
    unfold Compl CompSat
    rw [D.mpcc]
    have hn : nLamPts po 0 0 = 1 := by simp [nLamPts, extraPt, hrbe, D.nS]
    cases pr with
    | region s i =>
      obtain ⟨-, hs, hi⟩ := hpr
      rw [D.sys] at hs
      obtain rfl : s = 0 := by omega
      rw [D.nF] at hi
      obtain rfl | rfl : i = 0 ∨ i = 1 := by omega
      · simp [hn, lamAt, lamStart, prevFe, lam00At, thetaAt, algEnv, h0, hσ]
      · simp [hn, lamAt, lamStart, prevFe, lam00At, thetaAt, algEnv, hσ]
    | neg s i => exact absurd (D.pss.symm.trans hpr.1) (by decide)
    | pos s i => exact absurd (D.pss.symm.trans hpr.1) (by decide)
  · intro _ _ k e hk he
    obtain ⟨rfl, rfl⟩ := hfe hk
    exact absurd he (lt_irrefl _)
  · intro _ _ k e hk he
    obtain ⟨rfl, rfl⟩ := hfe hk
    exact absurd he (lt_irrefl _)
  · intro _ _ k e hk he
    obtain ⟨rfl, rfl⟩ := hfe hk
    exact absurd he (lt_irrefl _)
  · intro _ _ k hk
    have hk0 : k = 0 := by rw [D.stages] at hk; omega
    subst hk0
    simp [D.nfe, hVal, D.fesd, D.time, D.stages]
    rfl
  · intro h1; rw [D.stages] at h1; omega
  · intro _ _ hc; exact absurd (D.freeze.symm.trans hc) (by decide)
  · intro i hi; simp [UserOcp.trivial] at hi

/-- With initial multiplier 1 for the first region there is no feasible point below `σ = 1/2`. -/
theorem alg_infeasible (h : SetupEx oneColloc algOpts algModel (some UserOcp.trivial) po m oc P)
    (hrbe : po.rbe = true) (hA : po.aIrk 0 0 = 1) {env : Env} (hx : env (.x0 0) = 1)
    (h0 : env (.lam00 .lam 0 0) = 1) (h1 : env (.lam00 .lam 0 1) = 0)
    (hf : P.form.Feasible env) : 1 / 2 ≤ env .sigma := by
  have D := alg_data h
  have hsp : FeasibleSpec po m.dims algModel UserOcp.trivial env := h.spec hf
  have hk : HasFE po 0 0 := ⟨by rw [D.stages]; omega, by rw [D.nfe]; omega⟩
  have hj : 0 < po.nS := by rw [D.nS]; omega
  obtain ⟨a1, a2, a3⟩ := hsp.alg 0 0 hk 0 hj
  have hs := a2 D.pss 0 (by simp [algModel, UserModel.nSys])
  have hsum : env (.st2 .theta 0 0 0 0 0) + env (.st2 .theta 0 0 0 0 1) = 1 := by
    simpa [UserModel.Fmat, algModel, Finset.sum_range_succ] using hs
  have hxv : xVal po m.dims 0 0 0 env = [env (.st1 .x 0 0 0 0)] := by
    unfold xVal stageX
    rw [if_neg (by rw [D.rep]; decide), D.nX]
    rfl
  have hzv : zVal m.dims 0 0 0 env = [env (.st1 .z 0 0 0 0)] := by
    unfold zVal
    rw [D.nZ]
    rfl
  have hz := a3 0 (by simp [algModel])
  rw [hxv, hzv] at hz
  simp [algModel] at hz
  have hrk := hsp.rk 0 0 hk 0 hj 0 (by rw [D.nX]; omega)
  have hl := hsp.lift D.rep 0 0 hk 0 hj 0 (by rw [D.nX]; omega)
  have hrhs : algModel.stageRhs po m.dims 0 0 0 0 env = 0 := by
    unfold UserModel.stageRhs
    rw [D.pss]
    simp [UserModel.rhsStewart, UserModel.nSys, algModel, UserModel.Fmat]
  unfold RkEq at hrk
  rw [if_neg (by rw [D.rep]; decide), hrhs] at hrk
  simp [sotVal, D.sot, const] at hrk
  unfold LiftEq at hl
  have hs0 : startX po 0 0 0 = .x0 0 := by simp [startX, prevFe]
  rw [D.nS, Finset.sum_range_one, hA, hs0, hx, hrk] at hl
  simp at hl
  unfold UserModel.Switching at a1
  rw [D.pss, hxv, hzv] at a1
  have g0 := a1 0 (by simp [algModel, UserModel.nSys]) 0 (by simp [algModel, UserModel.Fmat])
  have g1 := a1 0 (by simp [algModel, UserModel.nSys]) 1 (by simp [algModel, UserModel.Fmat])
  rw [alg_g _ _ _ _ (by omega)] at g0 g1
  simp at g0 g1
  have b : ∀ i < 2, 0 ≤ env (.st2 .lam 0 0 0 0 i) ∧ 0 ≤ env (.st2 .theta 0 0 0 0 i) := by
    intro i hi
    have b1 := (hsp.bounds (.st2 .lam 0 0 0 0 i) ⟨D.pss, hk, by unfold nLamPts; omega,
      by rw [D.sys]; omega, by rw [D.nF]; omega⟩).1
    have b2 := (hsp.bounds (.st2 .theta 0 0 0 0 i) ⟨D.pss, hk, hj,
      by rw [D.sys]; omega, by rw [D.nF]; omega⟩).1
    simp [varDoc, D.mpcc, dualLb] at b1 b2
    exact ⟨by exact_mod_cast b1, by exact_mod_cast b2⟩
  obtain ⟨b1, b2⟩ := b 0 (by omega)
  obtain ⟨b3, b4⟩ := b 1 (by omega)
  have hn : nLamPts po 0 0 = 1 := by simp [nLamPts, extraPt, hrbe, D.nS]
  have c0 := hsp.compSum D.fesd D.cross 0 0 hk 0 hj (.region 0 0)
    ⟨D.pss, by rw [D.sys]; omega, by rw [D.nF]; omega⟩
  have c1 := hsp.compSum D.fesd D.cross 0 0 hk 0 hj (.region 0 1)
    ⟨D.pss, by rw [D.sys]; omega, by rw [D.nF]; omega⟩
  simp [Compl, CompSat, D.mpcc, lamAt, thetaAt, hn, lamStart, prevFe, lam00At, h0, h1] at c0 c1
  nlinarith

end
end Nosnoc
