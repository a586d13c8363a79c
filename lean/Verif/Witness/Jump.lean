import Verif.Witness.TwoSys
import Verif.Proofs.OptsEq
/-
A problem whose only solution crosses a switching surface within the first element: `ẋ = -2` in both
regions of `c = x`, start at 1, one implicit Euler step of length 1 without FESD, Stewart mode, with
`fix_active_set_fe0`.
-/
namespace Nosnoc

def jumpModel : UserModel where
  nX := 1
  nU := 0
  nZ := 0
  nPtv := 0
  nPgl := 0
  nV := 0
  x0 := [1]
  F := some [⟨2, fun _ _ _ _ _ _ _ => -2⟩]
  c := some [⟨1, fun _ x _ _ => x.getD 0 0⟩]
  S := some [signMat]
  gStewart := none
  alpha := none
  fx := none
  gz := ⟨0, fun _ _ _ _ _ => 0⟩
  z0 := none
  lbz := none
  ubz := none
  pTimeVarVal := none
  pGlobalVal := []
  tVar := none

noncomputable def jumpOpts : Opts :=
  { Opts.default with
    useFesd := false, irkRep := .differentialLiftX, nS := 1, nFe := 1, fixActiveSetFe0 := true }

theorem jump_setup :
    ∃ po m oc P, SetupEx oneColloc jumpOpts jumpModel (some UserOcp.trivial) po m oc P ∧
      po.rbe = true ∧ po.aIrk 0 0 = 1 := by
  obtain ⟨po, hpo⟩ : ∃ po, jumpOpts.preprocess oneColloc = .ok po :=
    flex_preOpts (by norm_num [jumpOpts, Opts.default]) (.inr ⟨radau1, rfl, by simp [radau1]⟩)
  have h1 := preprocess_opts hpo
  have e := h1.toOpts
  have e2 : po.timeFreezing = false := by rw [e]; rfl
  obtain ⟨m, hm⟩ : ∃ m, jumpModel.preprocess po = .ok m := by
    refine switched_ok (Fs := [⟨2, fun _ _ _ _ _ _ _ => -2⟩])
      (cs := [⟨1, fun _ x _ _ => x.getD 0 0⟩])
      (Ss := [signMat]) ⟨?_, ?_, ?_, rfl, ?_, .inr e2⟩
      ⟨rfl, rfl, rfl, rfl, ?_, rfl, le_rfl, ?_, ?_, ?_, ?_⟩ rfl
    · intro l h; cases h
    · intro l h; cases h
    · intro l h; cases h
    · intro V h; cases h
    · intro f hf
      simp only [List.mem_singleton] at hf
      rw [hf]
      simp
    · intro s hs
      obtain rfl : s = 0 := by simpa using hs
      rfl
    · intro _ s hs
      obtain rfl : s = 0 := by simpa using hs
      rfl
    · intro _ s hs i hi k hk _
      obtain rfl : s = 0 := by simpa using hs
      exact hk
    · intro _ s hs
      obtain rfl : s = 0 := by simpa using hs
      rfl
  obtain ⟨oc, hoc⟩ : ∃ oc, UserOcp.trivial.preprocess m = .ok oc := by
    obtain ⟨nC, nF, g, up, f0, acc, hp⟩ := preprocess_pre hm
    unfold UserOcp.preprocess
    rw [hp.dims]
    exact ⟨_, rfl⟩
  obtain ⟨P, hP⟩ := (C06_construct_iff (uo := some UserOcp.trivial) rfl hpo hm hoc
    (by simp [jumpOpts]) (fun _ => rfl) rfl).2 ⟨by simp [jumpOpts, Opts.default], rfl,
      by simp [jumpOpts, Opts.default], fun k hk => by
        have hk0 : k = 0 := by simpa [jumpOpts, Opts.default] using hk
        subst hk0
        exact ⟨1, rfl, Nat.one_pos⟩, by simp [jumpOpts, Opts.default]⟩
  refine ⟨po, m, oc, P, ⟨⟨hP, by simp [jumpOpts], fun _ => rfl⟩, rfl, by simp [UserOcp.trivial]⟩,
    ?_, ?_⟩
  · exact (h1.rbe_iff (by simp [jumpOpts])).2 rfl
  · obtain ⟨t, ht, hA, -, -⟩ := h1.diff (by simp [jumpOpts])
    have : t = radau1 := by
      have h2 : generateButcher jumpOpts.nS jumpOpts.scheme = .ok radau1 := rfl
      rw [h2] at ht; cases ht; rfl
    subst this
    rw [hA]; norm_num [matFun, radau1]

/-- The solution: `x = -1`, second region; parameters `q`. -/
noncomputable def jumpEnv (q : Sym → ℝ) : Env
  | .st1 .x _ _ _ _ => -1
  | .st1 .v _ _ _ _ => -2
  | .st2 .theta _ _ _ _ i => if i = 1 then 1 else 0
  | .st2 .lam _ _ _ _ i => if i = 1 then 0 else 2
  | .st2 .mu _ _ _ _ _ => 1
  | s => q s

section
variable {po : PreOpts} {m : PreModel} {oc : PreOcp} {P : Problem}

theorem jump_sys {s : Nat} (h : s < jumpModel.nSys) : s = 0 := by
  simpa [jumpModel, UserModel.nSys] using h

theorem jump_g (x z p : List ℝ) (i : Nat) (hi : i < 2) :
    jumpModel.gVal 0 i x z p = if i = 0 then -x.getD 0 0 else x.getD 0 0 := by
  obtain rfl | rfl : i = 0 ∨ i = 1 := by omega
  · simp [UserModel.gVal, jumpModel, UserModel.gStewartTruthy, UserModel.Smat, UserModel.cVec,
      signMat]
  · simp [UserModel.gVal, jumpModel, UserModel.gStewartTruthy, UserModel.Smat, UserModel.cVec,
      signMat]

structure JumpData (po : PreOpts) (d : Dims) : Prop where
  rep : po.irkRep = .differentialLiftX
  stages : po.nStages = 1
  fesd : po.useFesd = false
  pss : po.pss = .stewart
  nS : po.nS = 1
  time : po.terminalTime = 1
  sot : po.sot = .none
  mpcc : po.mpcc = .scholtesIneq
  freeze : po.timeFreezing = false
  nfe : nfe po 0 = 1
  sys : d.nSys = 1
  nF : d.nF 0 = 2
  nX : d.nX = 1

theorem jump_data (h : SetupEx oneColloc jumpOpts jumpModel (some UserOcp.trivial) po m oc P) :
    JumpData po m.dims := by
  have e4 : po.pss = .stewart := h.e_pss
  obtain ⟨d0, -, -, -, -, -, d1, d2, -⟩ := h.toSetup.dims
  refine ⟨h.e_irkRep, h.e_nStages, h.e_useFesd, e4, h.e_nS, h.e_terminalTime, h.e_sot, h.e_mpcc,
    h.e_timeFreezing, ?_, d1, d2 e4 0 Nat.one_pos, d0⟩
  have := h.e_nfeList
  unfold nfe
  rw [this]
  rfl

theorem jump_feasible (h : SetupEx oneColloc jumpOpts jumpModel (some UserOcp.trivial) po m oc P)
    (hrbe : po.rbe = true) (hA : po.aIrk 0 0 = 1) {q : Sym → ℝ} (hq : q (.x0 0) = 1)
    (hσ : 0 ≤ q .sigma) : P.form.Feasible (jumpEnv q) := by
  have D := jump_data h
  have hown : ownEnd po = false := by simp [ownEnd, D.rep, hrbe]
  have hfe : ∀ {k e}, HasFE po k e → k = 0 ∧ e = 0 := by
    intro k e hk
    have h1 := hk.1
    rw [D.stages] at h1
    have hk0 : k = 0 := by omega
    subst hk0
    have h2 := hk.2
    rw [D.nfe] at h2
    exact ⟨rfl, by omega⟩
  have nf : po.useFesd = true → False := fun hc => absurd (D.fesd.symm.trans hc) (by decide)
  have hrhs : ∀ k e j i, jumpModel.stageRhs po m.dims k e j i (jumpEnv q) = -2 := by
    intro k e j i
    unfold UserModel.stageRhs
    rw [D.pss]
    simp [UserModel.rhsStewart, UserModel.nSys, jumpModel, UserModel.Fmat, jumpEnv]
  have hxv : ∀ k e j, xVal po m.dims k e j (jumpEnv q) = [-1] := by
    intro k e j
    unfold xVal stageX
    rw [if_neg (by rw [D.rep]; decide), D.nX]
    rfl
  rw [h.iff (by simp [jumpOpts, Opts.default])]
  show FeasibleSpec po m.dims jumpModel UserOcp.trivial _
  have hdual : ∀ {v : ℝ}, 0 ≤ v → dualLb po.mpcc ≤ ((v : ℝ) : EReal) := by
    intro v hv
    have : dualLb po.mpcc ≤ 0 := by unfold dualLb; split <;> simp
    exact this.trans (by rw [← EReal.coe_zero]; exact EReal.coe_le_coe_iff.2 hv)
  constructor
  · intro s hs
    cases s with
    | xEnd k e i => exact ⟨bot_le, le_top⟩
    | st1 f k e j i => cases f <;> exact ⟨bot_le, le_top⟩
    | st2 f k e j s i =>
      cases f with
      | theta =>
        refine ⟨hdual ?_, le_top⟩
        show (0 : ℝ) ≤ if i = 1 then 1 else 0
        split <;> norm_num
      | lam =>
        refine ⟨hdual ?_, le_top⟩
        show (0 : ℝ) ≤ if i = 1 then 0 else 2
        split <;> norm_num
      | mu => exact ⟨bot_le, le_top⟩
      | _ => exact absurd (D.pss.symm.trans hs.1) (by decide)
    | h k e => exact (nf hs.1).elim
    | u k i => exact ⟨bot_le, le_top⟩
    | vGlob i => exact ⟨bot_le, le_top⟩
    | sot k => exact absurd (D.sot.symm.trans hs.1) (by decide)
    | sElastic => rw [IsVar, D.mpcc] at hs; simp at hs
    | _ => exact hs.elim
  · intro k e hk j hj
    refine ⟨?_, ?_, ?_⟩
    · unfold UserModel.Switching
      rw [D.pss, hxv]
      intro s hs i hi
      obtain rfl := jump_sys hs
      have hi2 : i < 2 := hi
      rw [jump_g _ _ _ i hi2]
      obtain rfl | rfl : i = 0 ∨ i = 1 := by omega
      · simp [jumpEnv]; norm_num
      · simp [jumpEnv]
    · intro _ s hs
      obtain rfl := jump_sys hs
      simp [UserModel.Fmat, jumpModel, jumpEnv, Finset.sum_range_succ]
    · intro i hi; simp [jumpModel] at hi
  · intro k e hk j hj i hi
    unfold RkEq
    rw [if_neg (by rw [D.rep]; decide), hrhs]
    simp [sotVal, D.sot, const, jumpEnv]
  · intro _ k e hk j hj i hi
    obtain ⟨rfl, rfl⟩ := hfe hk
    have hj0 : j = 0 := by rw [D.nS] at hj; omega
    have hi0 : i = 0 := by rw [D.nX] at hi; omega
    subst hj0 hi0
    unfold LiftEq
    have hs0 : startX po 0 0 0 = .x0 0 := by simp [startX, prevFe]
    rw [D.nS, Finset.sum_range_one, hA, hs0]
    simp only [jumpEnv, hq]
    simp [hVal, D.fesd, const, nominalH, D.time, D.stages, D.nfe]
    norm_num
  · intro hc; exact absurd (hown.symm.trans hc) (by decide)
  · intro hc; exact absurd (hrbe.symm.trans hc) (by decide)
  · intro k e hk he i hi; simp [UserOcp.trivial] at hi
  · intro _ k e _ j _ i hi; simp [UserOcp.trivial] at hi
  · intro k e _ j _ q hq; simp [stageComps, UserOcp.trivial] at hq
  · intro k e _ _ q hq; simp [ctrlComps, UserOcp.trivial] at hq
  · intro q hq; simp [globComps, UserOcp.trivial] at hq
  · intro _ k e _ j _ pr hpr
    unfold Compl CompSat
    rw [D.mpcc]
    cases pr with
    | region s i =>
      show ([if i = 1 then (0 : ℝ) else 2].sum) * (if i = 1 then 1 else 0) ≤ q .sigma
      split <;> simpa using hσ
    | neg s i => exact absurd (D.pss.symm.trans hpr.1) (by decide)
    | pos s i => exact absurd (D.pss.symm.trans hpr.1) (by decide)
  · intro hc; exact (nf hc).elim
  · intro hc; exact (nf hc).elim
  · intro hc; exact (nf hc).elim
  · intro hc; exact (nf hc).elim
  · intro hc; exact (nf hc).elim
  · intro hc; exact (nf hc).elim
  · intro h1; rw [D.stages] at h1; omega
  · intro _ _ hc; exact absurd (D.freeze.symm.trans hc) (by decide)
  · intro i hi; simp [UserOcp.trivial] at hi

/-- With the second multiplier fixed to 0 there is no feasible point below `σ = 2`. -/
theorem jump_infeasible (h : SetupEx oneColloc jumpOpts jumpModel (some UserOcp.trivial) po m oc P)
    (hA : po.aIrk 0 0 = 1) {env : Env} (hx : env (.x0 0) = 1)
    (hθ : env (.st2 .theta 0 0 0 0 1) = 0) (hf : P.form.Feasible env) : 2 ≤ env .sigma := by
  have D := jump_data h
  have hsp : FeasibleSpec po m.dims jumpModel UserOcp.trivial env := h.spec hf
  have hk : HasFE po 0 0 := ⟨by rw [D.stages]; omega, by rw [D.nfe]; omega⟩
  have hj : 0 < po.nS := by rw [D.nS]; omega
  obtain ⟨a1, a2, -⟩ := hsp.alg 0 0 hk 0 hj
  have hs := a2 D.pss 0 (by simp [jumpModel, UserModel.nSys])
  have hsum : env (.st2 .theta 0 0 0 0 0) + env (.st2 .theta 0 0 0 0 1) = 1 := by
    simpa [UserModel.Fmat, jumpModel, Finset.sum_range_succ] using hs
  have hxv : xVal po m.dims 0 0 0 env = [env (.st1 .x 0 0 0 0)] := by
    unfold xVal stageX
    rw [if_neg (by rw [D.rep]; decide), D.nX]
    rfl
  have hrk := hsp.rk 0 0 hk 0 hj 0 (by rw [D.nX]; omega)
  have hl := hsp.lift D.rep 0 0 hk 0 hj 0 (by rw [D.nX]; omega)
  have hrhs : jumpModel.stageRhs po m.dims 0 0 0 0 env = -2 := by
    unfold UserModel.stageRhs
    rw [D.pss]
    simp [UserModel.rhsStewart, UserModel.nSys, jumpModel, UserModel.Fmat, Finset.sum_range_succ]
    linarith
  unfold RkEq at hrk
  rw [if_neg (by rw [D.rep]; decide), hrhs] at hrk
  simp [sotVal, D.sot, const] at hrk
  unfold LiftEq at hl
  have hs0 : startX po 0 0 0 = .x0 0 := by simp [startX, prevFe]
  rw [D.nS, Finset.sum_range_one, hA, hs0, hx] at hl
  simp [hVal, D.fesd, const, nominalH, D.time, D.stages, D.nfe] at hl
  unfold UserModel.Switching at a1
  rw [D.pss, hxv] at a1
  have g0 := a1 0 (by simp [jumpModel, UserModel.nSys]) 0 (by simp [jumpModel, UserModel.Fmat])
  have g1 := a1 0 (by simp [jumpModel, UserModel.nSys]) 1 (by simp [jumpModel, UserModel.Fmat])
  rw [jump_g _ _ _ _ (by omega)] at g0 g1
  simp at g0 g1
  have b1 : 0 ≤ env (.st2 .lam 0 0 0 0 1) := by
    have := (hsp.bounds (.st2 .lam 0 0 0 0 1) ⟨D.pss, hk, by unfold nLamPts; omega,
      by rw [D.sys]; omega, by rw [D.nF]; omega⟩).1
    simp [varDoc, D.mpcc, dualLb] at this
    exact_mod_cast this
  have c0 := hsp.compStd D.fesd 0 0 hk 0 hj (.region 0 0)
    ⟨D.pss, by rw [D.sys]; omega, by rw [D.nF]; omega⟩
  simp [Compl, CompSat, D.mpcc, lamAt, thetaAt] at c0
  have h1 : env (.st2 .theta 0 0 0 0 0) = 1 := by linarith
  rw [h1] at c0
  linarith

end
end Nosnoc
