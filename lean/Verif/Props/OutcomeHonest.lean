import Verif.Witness.Wish
import Verif.Witness.Slide
/-
C51 with an NLP solver that keeps its promises: an optimal control problem that has no solution is reported
as solved.
-/
namespace Nosnoc

/-- The state must end at 1/2. -/
noncomputable def halfOcp : UserOcp :=
  { UserOcp.trivial with nGTerminal := 1, gTerminal := fun _ x _ _ => x.getD 0 0 - 1 / 2 }

/-- `ẋ = 0` for `c > 0` and `ẋ = 1` for `c < 0` with `c = 1`, from 0: the state stays at 0. -/
def stayModel : UserModel := constModel signMat fun _ => 1

/-- One implicit Euler step, no FESD. -/
noncomputable def halfOpts (md : MpccMode) : Opts := { constOpts .stewart with mpcc := md }

theorem half_setup {md : MpccMode} :
    ∃ po m oc P, SetupEx oneColloc (halfOpts md) stayModel (some halfOcp) po m oc P ∧
      po.rbe = true ∧ po.aIrk 0 0 = 1 := by
  obtain ⟨po, hpo⟩ : ∃ po, (halfOpts md).preprocess oneColloc = .ok po :=
    flex_preOpts (by norm_num [halfOpts, constOpts, Opts.default]) (.inr ⟨radau1, rfl, by simp [radau1]⟩)
  have h1 := preprocess_opts hpo
  have e := h1.toOpts
  have e1 : po.pss = .stewart := by rw [e]; rfl
  have e2 : po.timeFreezing = false := by rw [e]; rfl
  obtain ⟨m, hm⟩ : ∃ m, stayModel.preprocess po = .ok m := by
    refine switched_ok (Fs := [⟨2, fun _ i _ _ _ _ _ => i⟩]) (cs := [⟨1, fun k _ _ _ => 1⟩])
      (Ss := [signMat]) ⟨?_, ?_, ?_, rfl, ?_, .inr e2⟩
      ⟨rfl, rfl, rfl, rfl, ?_, rfl, le_rfl, ?_, ?_, ?_, ?_⟩ rfl
    · intro l h; cases h
    · intro l h; cases h
    · intro l h; cases h
    · intro V h; cases h
    · intro f hf
      simp only [List.mem_singleton] at hf
      rw [hf]
      simp
    · intro s hs
      obtain rfl : s = 0 := by simpa using hs
      rfl
    · intro _ s hs
      obtain rfl : s = 0 := by simpa using hs
      rfl
    · intro _ s hs i hi k hk _
      obtain rfl : s = 0 := by simpa using hs
      exact hk
    · intro _ s hs
      obtain rfl : s = 0 := by simpa using hs
      rfl
  obtain ⟨oc, hoc⟩ : ∃ oc, halfOcp.preprocess m = .ok oc := by
    obtain ⟨nC, nF, g, up, f0, acc, hp⟩ := preprocess_pre hm
    unfold UserOcp.preprocess
    rw [hp.dims]
    exact ⟨_, rfl⟩
  obtain ⟨P, hP⟩ := (C06_construct_iff (uo := some halfOcp) rfl hpo hm hoc
    (by simp [halfOpts, constOpts]) (fun _ => rfl) rfl).2 ⟨by simp [halfOpts, constOpts, Opts.default], rfl,
      by simp [halfOpts, constOpts, Opts.default], fun k hk => by
        have hk0 : k = 0 := by simpa [halfOpts, constOpts, Opts.default] using hk
        subst hk0
        exact ⟨1, rfl, Nat.one_pos⟩, by simp [halfOpts, constOpts, Opts.default]⟩
  refine ⟨po, m, oc, P, ⟨⟨hP, by simp [halfOpts, constOpts], fun _ => rfl⟩, rfl,
    by simp [halfOcp, UserOcp.trivial]⟩, ?_, ?_⟩
  · exact (h1.rbe_iff (by simp [halfOpts, constOpts])).2 rfl
  · obtain ⟨t, ht, hA, -, -⟩ := h1.diff (by simp [halfOpts, constOpts])
    have : t = radau1 := by
      have h2 : generateButcher (halfOpts md).nS (halfOpts md).scheme = .ok radau1 := rfl
      rw [h2] at ht; cases ht; rfl
    subst this
    rw [hA]; norm_num [matFun, radau1]

/-- Half of each region's right-hand side; slack 1. -/
noncomputable def halfEnv (q : Sym → ℝ) : Env
  | .st1 .x _ _ _ _ => 1 / 2
  | .st1 .v _ _ _ _ => 1 / 2
  | .st2 .theta _ _ _ _ _ => 1 / 2
  | .st2 .lam _ _ _ _ i => if i = 0 then 0 else 2
  | .st2 .mu _ _ _ _ _ => 1
  | .sElastic => 1
  | .x0 _ => 0
  | t => q t

section
variable {md : MpccMode} {po : PreOpts} {m : PreModel} {oc : PreOcp} {P : Problem}

theorem stay_g (i : Nat) (hi : i < 2) (x z p : List ℝ) :
    stayModel.gVal 0 i x z p = if i = 0 then -1 else 1 := by
  simp [UserModel.gVal, UserModel.gStewartTruthy, UserModel.Smat, UserModel.cVec, stayModel, constModel,
    signMat]
  split <;> simp

theorem half_feasible (h : SetupEx oneColloc (halfOpts md) stayModel (some halfOcp) po m oc P)
    (hmd : md = .elasticIneq) (hrbe : po.rbe = true) (hA : po.aIrk 0 0 = 1) (q : Sym → ℝ) : P.form.Feasible (halfEnv q) := by
  have e1 : po.irkRep = .differentialLiftX := h.e_irkRep
  have e2 : po.nStages = 1 := h.e_nStages
  have e3 : po.useFesd = false := h.e_useFesd
  have e4 : po.pss = .stewart := h.e_pss
  have e6 : po.nS = 1 := h.e_nS
  have e7 : po.terminalTime = 1 := h.e_terminalTime
  have e8 : po.sot = .none := h.e_sot
  have e9 : po.mpcc = md := h.e_mpcc
  have e11 : po.timeFreezing = false := h.e_timeFreezing
  have hown : ownEnd po = false := by simp [ownEnd, e1, hrbe]
  have hnfe : nfe po 0 = 1 := by
    have := h.e_nfeList
    unfold nfe
    rw [this]
    rfl
  obtain ⟨d0, -, -, -, -, -, d1, d2, d3⟩ := h.toSetup.dims
  have hFE : ∀ k e, HasFE po k e → k = 0 ∧ e = 0 := by
    intro k e hk
    have hk0 : k = 0 := by have := hk.1; omega
    subst hk0
    exact ⟨rfl, by have := hk.2; omega⟩
  have hh : ∀ e, hVal po 0 e (halfEnv q) = 1 := by
    intro e
    unfold hVal
    rw [e3]
    simp [const, nominalH, e7, e2, hnfe]
  have hrhs : ∀ k e j i, stayModel.stageRhs po m.dims k e j i (halfEnv q) = 1 / 2 := by
    intro k e j i
    unfold UserModel.stageRhs
    rw [e4]
    simp [UserModel.rhsStewart, UserModel.nSys, stayModel, constModel, UserModel.Fmat, halfEnv, signMat,
      Finset.sum_range_succ]
  have hsys : ∀ {s : Nat}, s < stayModel.nSys → s = 0 := fun hs => const_sys hs
  rw [h.iff (by subst hmd; simp [halfOpts])]
  show FeasibleSpec po m.dims stayModel halfOcp _
  have hlb : dualLb po.mpcc = 0 := by
    rw [e9, hmd]; rfl
  have hs1 : varDoc po stayModel halfOcp .sElastic = ⟨((0 : ℝ) : EReal), ((10 : ℝ) : EReal), 1⟩ := by
    show (⟨_, _, _⟩ : VarDoc) = _
    rw [h.opts]
    rfl
  constructor
  · intro s hs
    cases s with
    | xEnd k e i => exact ⟨bot_le, le_top⟩
    | st1 f k e j i => cases f <;> exact ⟨bot_le, le_top⟩
    | st2 f k e j s i =>
      cases f with
      | theta =>
        refine ⟨?_, le_top⟩
        show dualLb po.mpcc ≤ (((1 / 2 : ℝ) : ℝ) : EReal)
        rw [hlb]
        exact_mod_cast (by norm_num : (0 : ℝ) ≤ 1 / 2)
      | lam =>
        refine ⟨?_, le_top⟩
        show dualLb po.mpcc ≤ (((if i = 0 then 0 else 2 : ℝ) : ℝ) : EReal)
        rw [hlb]
        have : (0 : ℝ) ≤ if i = 0 then 0 else 2 := by split <;> norm_num
        exact_mod_cast this
      | mu => exact ⟨bot_le, le_top⟩
      | alpha => exact absurd (e4.symm.trans hs.1) (by decide)
      | lamN => exact absurd (e4.symm.trans hs.1) (by decide)
      | lamP => exact absurd (e4.symm.trans hs.1) (by decide)
    | h k e => exact absurd (e3.symm.trans hs.1) (by decide)
    | u k i => exact ⟨bot_le, le_top⟩
    | vGlob i => exact ⟨bot_le, le_top⟩
    | sot k => exact absurd (e8.symm.trans hs.1) (by decide)
    | sElastic =>
      rw [hs1]
      constructor
      · show ((0 : ℝ) : EReal) ≤ ((1 : ℝ) : EReal)
        exact_mod_cast zero_le_one
      · show ((1 : ℝ) : EReal) ≤ ((10 : ℝ) : EReal)
        exact_mod_cast (by norm_num : (1 : ℝ) ≤ 10)
    | _ => exact hs.elim
  · intro k e hk j hj
    refine ⟨?_, ?_, ?_⟩
    · unfold UserModel.Switching
      rw [e4]
      intro s hs i hi
      obtain rfl := hsys hs
      have hi2 : i < 2 := by simpa [stayModel, constModel, UserModel.Fmat, signMat] using hi
      rw [stay_g i hi2]
      show (if i = 0 then (-1 : ℝ) else 1) = (if i = 0 then 0 else 2) - 1
      split <;> norm_num
    · intro _ s hs
      obtain rfl := hsys hs
      show ∑ i ∈ Finset.range 2, (1 / 2 : ℝ) = 1
      simp
    · intro i hi; simp [stayModel, constModel] at hi
  · intro k e hk j hj i hi
    unfold RkEq
    rw [if_neg (by rw [e1]; decide), hrhs]
    simp [sotVal, e8, const, halfEnv]
  · intro _ k e hk j hj i hi
    obtain ⟨rfl, rfl⟩ := hFE k e hk
    have hj0 : j = 0 := by omega
    subst hj0
    unfold LiftEq
    have hs0 : startX po 0 0 i = .x0 i := by simp [startX, prevFe]
    rw [e6, Finset.sum_range_one, hA, hs0, hh]
    simp [halfEnv]
  · intro hc; exact absurd (hown.symm.trans hc) (by decide)
  · intro hc; exact absurd (hrbe.symm.trans hc) (by decide)
  · intro k e hk he i hi; simp [halfOcp, UserOcp.trivial] at hi
  · intro _ k e _ j _ i hi; simp [halfOcp, UserOcp.trivial] at hi
  · intro k e _ j _ q hq; simp [stageComps, halfOcp, UserOcp.trivial] at hq
  · intro k e _ _ q hq; simp [ctrlComps, halfOcp, UserOcp.trivial] at hq
  · intro q hq; simp [globComps, halfOcp, UserOcp.trivial] at hq
  · intro _ k e _ j _ p hp
    have hle : 0 ≤ lamAt k e j (halfEnv q) p * thetaAt k e j (halfEnv q) p ∧
        lamAt k e j (halfEnv q) p * thetaAt k e j (halfEnv q) p ≤ 1 := by
      cases p with
      | region s i =>
        show 0 ≤ (if i = 0 then (0 : ℝ) else 2) * (1 / 2) ∧ (if i = 0 then (0 : ℝ) else 2) * (1 / 2) ≤ 1
        split <;> norm_num
      | neg s i => exact absurd (e4.symm.trans hp.1) (by decide)
      | pos s i => exact absurd (e4.symm.trans hp.1) (by decide)
    unfold Compl CompSat
    rw [e9]
    have hs : halfEnv q .sElastic = 1 := rfl
    rw [hs]
    subst hmd
    simpa using hle.2
  · intro hu; exact absurd (e3.symm.trans hu) (by decide)
  · intro hu; exact absurd (e3.symm.trans hu) (by decide)
  · intro hu; exact absurd (e3.symm.trans hu) (by decide)
  · intro hu; exact absurd (e3.symm.trans hu) (by decide)
  · intro hu; exact absurd (e3.symm.trans hu) (by decide)
  · intro hu; exact absurd (e3.symm.trans hu) (by decide)
  · intro h1; omega
  · intro _ _ hc; exact absurd (e11.symm.trans hc) (by decide)
  · intro i hi
    show (xEndVal po m.dims (po.nStages - 1) (nfe po (po.nStages - 1) - 1) (halfEnv q)).getD 0 0 - 1 / 2 = 0
    unfold xEndVal
    rw [d0]
    show (List.map _ (List.range 1)).getD 0 0 - 1 / 2 = 0
    simp [endX, hown, halfEnv]

/-- Every feasible point has a complementarity residual of at least one. -/
theorem half_residual (h : SetupEx oneColloc (halfOpts md) stayModel (some halfOcp) po m oc P)
    (hmd : SignedMode md) (hrbe : po.rbe = true) (hA : po.aIrk 0 0 = 1) {env : Env}
    (F : FeasibleSpec po m.dims stayModel halfOcp env) (h0 : env (.x0 0) = 0) : 1 ≤ P.compRes env := by
  have e1 : po.irkRep = .differentialLiftX := h.e_irkRep
  have e2 : po.nStages = 1 := h.e_nStages
  have e3 : po.useFesd = false := h.e_useFesd
  have e4 : po.pss = .stewart := h.e_pss
  have e6 : po.nS = 1 := h.e_nS
  have e7 : po.terminalTime = 1 := h.e_terminalTime
  have e8 : po.sot = .none := h.e_sot
  have e9 : po.mpcc = md := h.e_mpcc
  have hown : ownEnd po = false := by simp [ownEnd, e1, hrbe]
  have hnfe : nfe po 0 = 1 := by
    have := h.e_nfeList
    unfold nfe
    rw [this]
    rfl
  have hfe : HasFE po 0 0 := ⟨by omega, by omega⟩
  obtain ⟨d0, -, -, -, -, -, d1, d2, d3⟩ := h.toSetup.dims
  have hsys : m.dims.nSys = 1 := d1
  have hnf : m.dims.nF 0 = 2 := d2 e4 0 Nat.one_pos
  have hdx : 0 < m.dims.nX := by rw [d0]; exact Nat.one_pos
  -- the state at the end
  have t1 := F.term 0 Nat.one_pos
  have hx : env (.st1 .x 0 0 0 0) = 1 / 2 := by
    have : (xEndVal po m.dims (po.nStages - 1) (nfe po (po.nStages - 1) - 1) env).getD 0 0 - 1 / 2 = 0 := t1
    unfold xEndVal at this
    rw [d0, e2, Nat.sub_self, hnfe] at this
    have h2 : (List.map (fun i => env (endX po 0 0 i)) (List.range 1)).getD 0 0 - 1 / 2 = 0 := this
    simp [endX, hown, e6] at h2
    linarith
  -- the dynamics
  have hl := F.lift e1 0 0 hfe 0 (by omega) 0 hdx
  have hr := F.rk 0 0 hfe 0 (by omega) 0 hdx
  have hv : env (.st1 .v 0 0 0 0) = 1 / 2 := by
    unfold LiftEq at hl
    have hs0 : startX po 0 0 0 = .x0 0 := by simp [startX, prevFe]
    have hh : hVal po 0 0 env = 1 := by
      unfold hVal
      rw [e3]
      simp [const, nominalH, e7, e2, hnfe]
    rw [e6, Finset.sum_range_one, hA, hs0, hh, h0, hx] at hl
    linarith
  have hth : env (.st2 .theta 0 0 0 0 1) = 1 / 2 := by
    unfold RkEq at hr
    rw [if_neg (by rw [e1]; decide), hv] at hr
    unfold UserModel.stageRhs at hr
    rw [e4] at hr
    simp [UserModel.rhsStewart, UserModel.nSys, stayModel, constModel, UserModel.Fmat, signMat,
      Finset.sum_range_succ, sotVal, e8, const] at hr
    linarith
  -- the multipliers
  obtain ⟨hsw, -, -⟩ := F.alg 0 0 hfe 0 (by omega)
  unfold UserModel.Switching at hsw
  rw [e4] at hsw
  have s0 := hsw 0 Nat.one_pos 0 (by simp [stayModel, constModel, UserModel.Fmat, signMat])
  have s1 := hsw 0 Nat.one_pos 1 (by simp [stayModel, constModel, UserModel.Fmat, signMat])
  rw [stay_g 0 (by norm_num)] at s0
  rw [stay_g 1 (by norm_num)] at s1
  have hlam : 0 ≤ env (.st2 .lam 0 0 0 0 0) := by
    have hb := (F.bounds (.st2 .lam 0 0 0 0 0) ⟨e4, hfe, by unfold nLamPts; omega, by omega, by omega⟩).1
    have : dualLb po.mpcc = 0 := by
      rw [e9]; revert hmd; cases md <;> simp [SignedMode, dualLb]
    have hb' : dualLb po.mpcc ≤ ((env (.st2 .lam 0 0 0 0 0) : ℝ) : EReal) := hb
    rw [this] at hb'
    exact_mod_cast hb'
  by_contra hc
  push Not at hc
  have hq : IsPair po m.dims (.region 0 1) := ⟨e4, by omega, by omega⟩
  have := (C34_residual_bounds h.toSetup 1 hc hfe (j := 0) (by simp [halfOpts, constOpts]) hq).2 rfl
  simp only [thetaAt, lamAt, hth] at this
  simp at s0 s1
  nlinarith

/-- The property fails, also with an NLP solver that only accepts points that satisfy all constraints of the
NLP and finds one whenever there is one: in mode ELASTIC_INEQ a problem whose terminal condition cannot be
met (no point satisfies all constraints with a complementarity residual below 1) is reported as SUCCESS. -/
theorem C51_unsolvable_violated :
    ∃ (po : PreOpts) (m : PreModel) (oc : PreOcp) (P : Problem),
      SetupEx oneColloc (halfOpts .elasticIneq) stayModel (some halfOcp) po m oc P ∧
      (∀ env, P.form.Feasible env → env (.x0 0) = 0 → 1 ≤ P.compRes env) ∧
      (∃ orc : Oracle, orc.Exact P ∧ orc.Complete P) ∧
      ∀ orc : Oracle, orc.Exact P → orc.Complete P →
        ∃ (S : Solver) (r : SolveResult) (c : NlpCall),
          Solver.create oneColloc (halfOpts .elasticIneq) stayModel (some halfOcp) = .ok S ∧
          (S.solve orc).2 = .ok r ∧ r.status = .success ∧ (S.solve orc).1.log.getLast? = some c ∧
          1 ≤ P.compRes (P.point r.wSol c.p) := by
  obtain ⟨po, m, oc, P, h, hrbe, hA⟩ := half_setup (md := .elasticIneq)
  refine ⟨po, m, oc, P, h, fun env hf h0 => half_residual h (by simp [SignedMode]) hrbe hA (h.spec hf) h0,
    ⟨exactOracle P, exactOracle_exact P, exactOracle_complete P⟩, fun orc hex hco => ?_⟩
  have h' := h.toSetup
  obtain ⟨h1, h2, h3⟩ := h'.create orc (by simp [halfOpts, constOpts, Opts.default])
  obtain ⟨w0, lam00, h4, -⟩ := C54_initialise_writes_x0 h' h2 h3 Nat.one_pos (.inl rfl)
  obtain ⟨r, hr⟩ := C49_solve_succeeds orc h' h2 h3 rfl h4 Nat.one_pos
    (by simp [halfOpts, constOpts, Opts.default, Opts.nfeAfter]) (by
      intro _ s hs s' hs'
      rw [const_sys hs, const_sys hs'])
  have hi := h2.inv h'
  have hx0 : m.x0 = [0] := by
    obtain ⟨nC, nF, g, up, f0, acc, hpre⟩ := h'.built.pre
    exact hpre.x0
  have hpx : Sym.x0 0 ∈ P.p := by
    rw [p_eq h', h'.dims.1]
    exact List.mem_append_right _ (List.mem_map.2 ⟨0, List.mem_range.2 Nat.one_pos, rfl⟩)
  have hsucc : r.status = .success := by
    refine C100_feasible_succeeds_partial h h2 hco hr rfl (.inl rfl) fun k => ?_
    let q := paramVal stayModel ⟨po, m, P, none, []⟩ (sigmaAt (halfOpts .elasticIneq) k)
      (min (sigmaAt (halfOpts .elasticIneq) k ^ (3 / 2 : ℝ)) (sigmaAt (halfOpts .elasticIneq) k))
    refine ⟨halfEnv q, half_feasible h rfl hrbe hA q, fun t ht => ?_, fun t ht hfix => ?_⟩
    · rw [p_eq h'] at ht
      unfold pHead at ht
      simp only [List.mem_append, List.mem_flatMap, blk, List.mem_map] at ht
      rcases ht with ((⟨k, -, i, -, rfl⟩ | ht) | ((hb | hb) | hb)) | ⟨i, hi', rfl⟩
      · rfl
      · simp at ht
        rcases ht with rfl | rfl <;> rfl
      · obtain ⟨s, i, rfl⟩ := mem_lam00Row hb; rfl
      · obtain ⟨s, i, rfl⟩ := mem_lam00Row hb; rfl
      · obtain ⟨s, i, rfl⟩ := mem_lam00Row hb; rfl
      · rw [h'.dims.1] at hi'
        have : i = 0 := by simpa [stayModel, constModel] using hi'
        subst this
        show (0 : ℝ) = m.x0.getD 0 0
        rw [hx0]; rfl
    · have := hfix.1
      have e : po.fixActiveSetFe0 = false := by rw [h.opts]; rfl
      exact absurd (e.symm.trans this) (by decide)
  obtain ⟨S1, lam00', hini⟩ := (ready_of_ok h' hi hr).2
  obtain ⟨sigma, tau, log, c, hlog, hlg, hug, hp, hb, -, -, hwl⟩ := last_call h' h2 h3 hr hini
  obtain ⟨hw, hst⟩ := C51_status orc h' h2 h3 hr
  obtain ⟨w1, w2⟩ := hex log c (by rw [← hlog]; exact hst.1 hsucc)
  rw [← hlog, ← hw] at w1 w2
  obtain ⟨p0, -, -, hv⟩ := initialize_val h' hi h3.x0 hini
  have hll := lam00List_length h' m.x0 m.z0 p0
  rw [← hv] at hll
  have hpl : c.p.length = P.p.length := by
    rw [hp, pValues_length h' hi h3.x0 hll, hi.p]
  have hpm := h'.point_p hwl hpl
  refine ⟨_, r, c, h1, hr, hsucc, by rw [hlog]; simp, ?_⟩
  refine half_residual h (by simp [SignedMode]) hrbe hA (h.spec (within_feasible h' hwl hb hlg hug w1 w2)) ?_
  rw [h'.pValues_symbols hi h3.x0 hll (hpm.trans hp) hpx fun hc => hc]
  show m.x0.getD 0 0 = 0
  rw [hx0]; rfl

end
end Nosnoc
