import Verif.Props.Cross
import Verif.Witness.Flex
/-
C32-C34: concrete points at which the claims fail without the hypotheses of Verif/Props/Cross.lean.
-/
namespace Nosnoc

/-- Options of the witness: ELASTIC_TWO_SIDED, one element, Radau with two stages. -/
noncomputable def freeSignOpts : Opts :=
  { Opts.default with mpcc := .elasticTwoSided, irkRep := .differential, nFe := 1 }

theorem freeSign_setup : ∃ po m oc P,
    SetupEx demoColloc freeSignOpts flexModel (some UserOcp.trivial) po m oc P ∧ m.dims = flexDims := by
  refine flex_setup ?_ (demo_preOpts ?_) (by simp [UserOcp.trivial]) trivial_pre
  · constructor <;> simp [freeSignOpts, Opts.default, Opts.nfeAfter]
  · constructor <;> simp [freeSignOpts, Opts.default, Opts.nfeAfter]

/-- Stay at `x = 0`, with multipliers `L j` of both regions at stage `j` and slack `s`. -/
noncomputable def freeSignPt (L : Nat → ℝ) (s : ℝ) : FlexPt where
  v _ _ _ := 0
  z _ _ _ := 0
  x _ _ _ := 0
  xEnd _ _ := 0
  h _ _ := 1
  theta _ _ _ _ := 1 / 2
  lam _ _ j _ := L j
  mu _ _ j := L j
  lam00 _ := 0
  u _ := 0
  vGlob := 0
  sigma := 0
  slack := s

theorem freeSign_feasible {po m oc P}
    (h : SetupEx demoColloc freeSignOpts flexModel (some UserOcp.trivial) po m oc P)
    (hd : m.dims = flexDims) (L : Nat → ℝ) (s : ℝ) (hs : 0 ≤ s ∧ s ≤ 10)
    (hL : |(L 0 + L 1) / 2| ≤ s) : P.form.Feasible (freeSignPt L s).env := by
  have e1 : po.irkRep = .differential := h.e_irkRep
  have e2 : po.nStages = 1 := h.e_nStages
  have e3 : po.useFesd = true := h.e_useFesd
  have e4 : po.pss = .stewart := h.e_pss
  have e5 : po.nfeList = [1] := h.e_nfeList
  have e6 : po.nS = 2 := h.e_nS
  have e7 : po.terminalTime = 1 := h.e_terminalTime
  have e8 : po.sot = .none := h.e_sot
  have e9 : po.mpcc = .elasticTwoSided := h.e_mpcc
  have e10 : po.gPathAtStg = false := h.e_gPathAtStg
  have e11 : po.timeFreezing = false := h.e_timeFreezing
  have e12 : po.crossComp = .sumLambdas := h.e_crossComp
  have e13 : po.stepEq = .heuristicDelta := h.e_stepEq
  have e14 : po.gammaH = 1 := h.e_gammaH
  have e15 : po.equidistant = true := h.e_equidistant
  have e16 : po.sElasticMin = 0 := h.e_sElasticMin
  have e17 : po.sElasticMax = 10 := h.e_sElasticMax
  have hrbe : po.rbe = true := (h.toSetup.built.opts.rbe_iff (by simp [freeSignOpts])).2 rfl
  have hown : ownEnd po = true := by simp [ownEnd, e1]
  have hFE : ∀ k e, HasFE po k e → k = 0 ∧ e = 0 := by
    intro k e hk
    have h1 : k = 0 := by have := hk.1; omega
    subst h1
    have := hk.2
    simp [nfe, e5] at this
    exact ⟨rfl, this⟩
  set p := freeSignPt L s with hp
  have hstart : ∀ k e i, p.env (startX po k e i) = 0 := by
    intro k e i
    unfold startX endX
    simp only [hown, if_true]
    cases prevFe po k e <;> rfl
  have hx : ∀ k e j, xVal po flexDims k e j p.env = [0] := by
    intro k e j
    have hv : ∀ k e r i, p.env (.st1 .v k e r i) = 0 := fun _ _ _ _ => rfl
    simp [xVal, stageX, e1, evalVec, hstart, hv, dimsOf, flexModel]
  rw [h.iff (by simp [freeSignOpts]), hd]
  show FeasibleSpec po flexDims flexModel UserOcp.trivial p.env
  constructor
  · refine flex_bounds e4 e8 p rfl rfl rfl rfl rfl rfl ?_ ?_ (.inl ?_)
    · rw [e16, e17]; exact hs
    · intro _ k e hk
      obtain ⟨rfl, rfl⟩ := hFE k e hk
      simp [nominalH, e14, e7, e2, nfe, e5, hp, freeSignPt]
    · simp [dualLb, e9]
  · intro k e _ j _
    rw [hx]
    exact flex_algebraic e4 p k e j _ (by simp [hp, freeSignPt]) (by simp [hp, freeSignPt])
      (by simp [hp, freeSignPt]; norm_num)
  · intro k e _ j _ i _
    unfold RkEq
    rw [if_neg (by rw [e1]; decide), flex_rhs e4 p _ _ _ _ (by simp [hp, freeSignPt]; norm_num)]
    simp [hp, freeSignPt, FlexPt.env]
  · intro hc; exact absurd (e1.symm.trans hc) (by decide)
  · intro _ k e _ i _
    unfold EndEq
    rw [if_neg (by rw [e1]; decide), hstart]
    simp [hp, freeSignPt, FlexPt.env]
  · intro hc; exact absurd (hrbe.symm.trans hc) (by decide)
  · intro k e _ _ i hi; simp [UserOcp.trivial] at hi
  · intro hc; exact absurd (e10.symm.trans hc) (by decide)
  · intro k e _ j _ r hr; simp [stageComps, UserOcp.trivial] at hr
  · intro k e _ _ r hr; simp [ctrlComps, UserOcp.trivial] at hr
  · intro r hr; simp [globComps, UserOcp.trivial] at hr
  · intro hc; exact absurd (e3.symm.trans hc) (by decide)
  · intro _ hc; exact absurd (e12.symm.trans hc) (by decide)
  · intro _ _ k e hk j _ q hq
    obtain ⟨rfl, rfl⟩ := hFE k e hk
    cases q with
    | neg s i => exact absurd (e4.symm.trans hq.1) (by decide)
    | pos s i => exact absurd (e4.symm.trans hq.1) (by decide)
    | region s' i =>
      have hn : nLamPts po 0 0 = 2 := by simp [nLamPts, extraPt, hrbe, e6]
      unfold Compl CompSat
      have h0 : lamStart po 0 0 p.env (.region s' i) = 0 := rfl
      have hsl : p.env .sElastic = s := rfl
      simp only [e9, hn, h0, hsl]
      have := abs_le.1 hL
      simp [List.range_succ, lamAt, thetaAt, FlexPt.env, hp, freeSignPt]
      constructor <;> linarith [this.1, this.2]
  · intro _ hc; exact absurd (e13.symm.trans hc) (by decide)
  · intro _ hc; exact absurd (e13.symm.trans hc) (by decide)
  · intro _ hc; exact absurd (e13.symm.trans hc) (by decide)
  · intro _ _ k hk
    have : k = 0 := by omega
    subst this
    simp [nfe, e5, hVal, e3, e2, e7, var, hp, freeSignPt, FlexPt.env]
  · intro hc; omega
  · intro _ _ hc; exact absurd (e11.symm.trans hc) (by decide)
  · intro i hi; simp [UserOcp.trivial] at hi

/-- C32 fails without sign conditions: in mode ELASTIC_TWO_SIDED (the multipliers have no lower bound)
with SUM_LAMBDAS there are feasible points with `σ = 0` and slack 0 where `θ > 0` and `λ ≠ 0` at the
same stage. -/
theorem C32_free_multipliers_violated : ∃ po m oc P env,
    SetupEx demoColloc freeSignOpts flexModel (some UserOcp.trivial) po m oc P ∧
    P.form.Feasible env ∧ env .sigma = 0 ∧ env .sElastic = 0 ∧
    (∀ q, IsPair po m.dims q → 0 ≤ lam00At env q) ∧
    ∃ q, IsPair po m.dims q ∧ HasFE po 0 0 ∧ 0 < thetaAt 0 0 0 env q ∧ lamAt 0 0 0 env q ≠ 0 := by
  obtain ⟨po, m, oc, P, h, hd⟩ := freeSign_setup
  have e2 : po.nStages = 1 := h.e_nStages
  have e5 : po.nfeList = [1] := h.e_nfeList
  have e4 : po.pss = .stewart := h.e_pss
  refine ⟨po, m, oc, P, (freeSignPt (fun j => if j = 0 then 1 else -1) 0).env, h,
    freeSign_feasible h hd _ 0 (by norm_num) (by simp), rfl, rfl, ?_, .region 0 0, ?_, ?_, ?_, ?_⟩
  · intro q _
    cases q <;> exact le_refl _
  · rw [hd]; exact ⟨e4, by decide, by decide⟩
  · exact ⟨by omega, by simp [nfe, e5]⟩
  · show (0 : ℝ) < 1 / 2; norm_num
  · show (if 0 = 0 then (1 : ℝ) else -1) ≠ 0; norm_num

/-- C34 fails in the modes without lower bounds on the multipliers: a feasible point of the
ELASTIC_TWO_SIDED problem with residual 0 and a product `θ λ = -1/2`. -/
theorem C34_free_multipliers_violated : ∃ po m oc P env,
    SetupEx demoColloc freeSignOpts flexModel (some UserOcp.trivial) po m oc P ∧
    P.form.Feasible env ∧ (∀ q, IsPair po m.dims q → 0 ≤ lam00At env q) ∧ P.compRes env ≤ 0 ∧
    ∃ q, IsPair po m.dims q ∧ HasFE po 0 0 ∧ thetaAt 0 0 0 env q * lamAt 0 0 0 env q = - (1 / 2) := by
  obtain ⟨po, m, oc, P, h, hd⟩ := freeSign_setup
  have e2 : po.nStages = 1 := h.e_nStages
  have e5 : po.nfeList = [1] := h.e_nfeList
  have e4 : po.pss = .stewart := h.e_pss
  have hq : IsPair po m.dims (.region 0 0) := by rw [hd]; exact ⟨e4, by decide, by decide⟩
  refine ⟨po, m, oc, P, (freeSignPt (fun _ => -1) 1).env, h,
    freeSign_feasible h hd _ 1 (by norm_num) (by norm_num), ?_, ?_, .region 0 0, hq, ?_, ?_⟩
  · intro q _
    cases q <;> exact le_refl _
  · obtain ⟨k, e, j, q', hk, hj, hq', hr⟩ := C34_residual_attained
      (env := (freeSignPt (fun _ => -1) 1).env) h.toSetup hq
    have hk0 : k = 0 := by have := hk.1; omega
    subst hk0
    have he0 : e = 0 := by have := hk.2; simpa [nfe, e5] using this
    subst he0
    cases q' with
    | neg s i => exact absurd (e4.symm.trans hq'.1) (by decide)
    | pos s i => exact absurd (e4.symm.trans hq'.1) (by decide)
    | region s i =>
      rcases hr with ⟨_, hr⟩ | ⟨_, j', _, hr⟩ | ⟨hu, _⟩
      · rw [hr]
        show (1 / 2 : ℝ) * 0 ≤ 0; norm_num
      · rw [hr]
        show (1 / 2 : ℝ) * (-1) ≤ 0; norm_num
      · exact absurd hu (by simp [freeSignOpts, Opts.default])
  · exact ⟨by omega, by simp [nfe, e5]⟩
  · show (1 / 2 : ℝ) * (-1) = -(1 / 2); norm_num

/-- Options of the witness: one Gauss-Legendre stage, two elements. -/
noncomputable def gaussOneOpts (c : CrossCompMode) : Opts :=
  { Opts.default with
    scheme := .gaussLegendre, irkRep := .differential, nS := 1, crossComp := c }

theorem gaussOne_setup (c : CrossCompMode) : ∃ po m oc P,
    SetupEx oneColloc (gaussOneOpts c) flexModel (some UserOcp.trivial)
      po m oc P ∧ m.dims = flexDims := by
  refine flex_setup ?_ ?_ (by simp [UserOcp.trivial]) trivial_pre
  · constructor <;> simp [gaussOneOpts, Opts.default, Opts.nfeAfter]
  · exact flex_preOpts (by simp [gaussOneOpts, Opts.default]) (.inr ⟨gauss1, rfl, by simp [gauss1]⟩)

/-- Multipliers belonging to the switching value `c`. -/
noncomputable def lamOf (c : ℝ) (i : Nat) : ℝ := |c| + if i = 0 then -c else c

theorem lamOf_nonneg (c : ℝ) (i : Nat) : 0 ≤ lamOf c i := by
  unfold lamOf
  split
  · linarith [le_abs_self c]
  · linarith [neg_abs_le c]

/-- Region 0 (`c > 0`) is active on the first element, region 1 on the second one.  The state goes from 0
over -1 (stage) to -2 and stays there; the switching values are `a - 1` at the first stage, `a - 2` at the
end of the first element and `b - 2` afterwards. -/
noncomputable def gaussOnePt (a b : ℝ) : FlexPt where
  v _ e _ := if e = 0 then -4 else 0
  z _ e _ := if e = 0 then a else b
  x _ _ _ := 0
  xEnd _ _ := -2
  h _ _ := 1 / 2
  theta _ e _ i := if e = i then 1 else 0
  lam _ e j := lamOf (if e = 0 then (if j = 0 then a - 1 else a - 2) else b - 2)
  mu _ e j := |if e = 0 then (if j = 0 then a - 1 else a - 2) else b - 2|
  lam00 _ := 0
  u _ := 0
  vGlob := 0
  sigma := 0
  slack := 0

theorem gaussOne_feasible {cc : CrossCompMode} {a b : ℝ} {po m oc P}
    (h : SetupEx oneColloc (gaussOneOpts cc) flexModel (some UserOcp.trivial) po m oc P)
    (hd : m.dims = flexDims) (ha : 1 ≤ a) (ha' : a ≤ 2) (hb : b ≤ 2)
    (hc2 : cc = .sumLambdas → a = 2) : P.form.Feasible (gaussOnePt a b).env := by
  have e1 : po.irkRep = .differential := h.e_irkRep
  have e2 : po.nStages = 1 := h.e_nStages
  have e3 : po.useFesd = true := h.e_useFesd
  have e4 : po.pss = .stewart := h.e_pss
  have e5 : po.nfeList = [2] := h.e_nfeList
  have e6 : po.nS = 1 := h.e_nS
  have e7 : po.terminalTime = 1 := h.e_terminalTime
  have e8 : po.sot = .none := h.e_sot
  have e9 : po.mpcc = .scholtesIneq := h.e_mpcc
  have e10 : po.gPathAtStg = false := h.e_gPathAtStg
  have e11 : po.timeFreezing = false := h.e_timeFreezing
  have e12 : po.crossComp = cc := h.e_crossComp
  have e13 : po.stepEq = .heuristicDelta := h.e_stepEq
  have e14 : po.gammaH = 1 := h.e_gammaH
  have e16 : po.sElasticMin = 0 := h.e_sElasticMin
  have e17 : po.sElasticMax = 10 := h.e_sElasticMax
  have ho := h.toSetup.built.opts
  obtain ⟨t, ht, hA, hB, _⟩ := ho.diff (by simp [gaussOneOpts])
  have htt : t = gauss1 := by
    have h2 : generateButcher (gaussOneOpts cc).nS
      (gaussOneOpts cc).scheme = .ok gauss1 := rfl
    rw [h2] at ht; cases ht; rfl
  subst htt
  have hrbe : po.rbe = false := by
    have := (ho.rbe_iff (by simp [gaussOneOpts]))
    cases hb : po.rbe
    · rfl
    · exact absurd (this.1 hb) (by simp [gaussOneOpts])
  have hA' : po.aIrk 0 0 = 1 / 2 := by
    rw [hA]; norm_num [matFun, gauss1]
  have hB' : po.bIrk 0 = 1 := by
    rw [hB]; norm_num [vecFun, gauss1]
  have hown : ownEnd po = true := by simp [ownEnd, e1]
  have hFE : ∀ k e, HasFE po k e → k = 0 ∧ (e = 0 ∨ e = 1) := by
    intro k e hk
    have h1 : k = 0 := by have := hk.1; omega
    subst h1
    have := hk.2
    simp [nfe, e5] at this
    exact ⟨rfl, by omega⟩
  have hj0 : ∀ j, j < po.nS → j = 0 := fun j hj => by omega
  set p := gaussOnePt a b with hp
  have hs0 : p.env (startX po 0 0 0) = 0 := rfl
  have hs1 : p.env (startX po 0 1 0) = -2 := by
    simp only [startX, prevFe, endX, hown]
    rfl
  have hh : ∀ k e, hVal po k e p.env = 1 / 2 := by
    intro k e; simp only [hVal, e3, if_true, var]; rfl
  have hv0 : p.env (.st1 .v 0 0 0 0) = -4 := rfl
  have hv1 : p.env (.st1 .v 0 1 0 0) = 0 := by simp [hp, gaussOnePt, FlexPt.env]
  have hx0 : xVal po flexDims 0 0 0 p.env = [-1] := by
    simp [xVal, stageX, e1, evalVec, hs0, hh, hv0, dimsOf, flexModel, e6, hA']
    norm_num
  have hx1 : xVal po flexDims 0 1 0 p.env = [-2] := by
    simp [xVal, stageX, e1, evalVec, hs1, hh, hv1, dimsOf, flexModel, e6, hA']
  have hE : ∀ k e, xEndVal po flexDims k e p.env = [-2] := by
    intro k e
    simp only [xEndVal, endX, hown, if_true]
    rfl
  have hσ : p.env .sigma = 0 := rfl
  have hpair : ∀ q, IsPair po flexDims q → ∃ s i, q = .region s i ∧ (i = 0 ∨ i = 1) := by
    intro q hq
    cases q with
    | neg s i => exact absurd (e4.symm.trans hq.1) (by decide)
    | pos s i => exact absurd (e4.symm.trans hq.1) (by decide)
    | region s i =>
      refine ⟨s, i, rfl, ?_⟩
      have h1 := hq.2.1
      have h2 := hq.2.2
      have : s = 0 := by simpa [dimsOf, flexModel, UserModel.nSys] using h1
      subst this
      simp [dimsOf] at h2
      omega
  have hls : ∀ s i, lamStart po 0 1 p.env (.region s i) = p.lam 0 0 1 i := by
    intro s i
    have : lastLam po 0 0 = 1 := by simp [lastLam, extraPt, e3, hrbe, e6, nfe, e5]
    simp only [lamStart, prevFe, Nat.lt_one_iff, if_true, Nat.sub_self, this]
    rfl
  have hls0 : ∀ s i, lamStart po 0 0 p.env (.region s i) = 0 := fun _ _ => rfl
  have l1 : ∀ {s}, lamAt 0 0 0 p.env (.region s 0) = 0 := by
    intro s
    show lamOf (a - 1) 0 = 0
    rw [lamOf, if_pos rfl, abs_of_nonneg (by linarith)]; ring
  have l2 : p.lam 0 0 1 1 = 0 := by
    show lamOf (a - 2) 1 = 0
    rw [lamOf, if_neg (by decide), abs_of_nonpos (by linarith)]; ring
  have l3 : ∀ {s}, lamAt 0 1 0 p.env (.region s 1) = 0 := by
    intro s
    show lamOf (b - 2) 1 = 0
    rw [lamOf, if_neg (by decide), abs_of_nonpos (by linarith)]; ring
  rw [h.iff (by simp [gaussOneOpts, Opts.default]), hd]
  show FeasibleSpec po flexDims flexModel UserOcp.trivial p.env
  constructor
  · refine flex_bounds e4 e8 p rfl rfl rfl rfl rfl rfl ?_ ?_ (.inr ?_)
    · rw [e16, e17]; simp [hp, gaussOnePt]
    · intro _ k e hk
      obtain ⟨rfl, _⟩ := hFE k e hk
      simp [nominalH, e14, e7, e2, nfe, e5, hp, gaussOnePt]
    · intro k e j i
      simp only [hp, gaussOnePt]
      constructor
      · split <;> norm_num
      · exact lamOf_nonneg _ _
  · intro k e hk j hj
    obtain ⟨rfl, he⟩ := hFE k e hk
    obtain rfl := hj0 j hj
    rcases he with rfl | rfl
    · rw [hx0]
      refine flex_algebraic e4 p 0 0 0 _ ?_ ?_ ?_ <;> simp [hp, gaussOnePt, lamOf] <;> ring
    · rw [hx1]
      refine flex_algebraic e4 p 0 1 0 _ ?_ ?_ ?_ <;> simp [hp, gaussOnePt, lamOf] <;> ring
  · intro k e hk j hj i hi
    obtain ⟨rfl, he⟩ := hFE k e hk
    unfold RkEq
    rw [if_neg (by rw [e1]; decide), flex_rhs e4 p _ _ _ _ (by
      rcases he with rfl | rfl <;> simp [hp, gaussOnePt])]
    simp [sotVal, e8, const, FlexPt.env]
  · intro hc; exact absurd (e1.symm.trans hc) (by decide)
  · intro _ k e hk i hi
    have hi0 : i = 0 := by simpa [dimsOf, flexModel] using hi
    subst hi0
    obtain ⟨rfl, he⟩ := hFE k e hk
    unfold EndEq
    rw [if_neg (by rw [e1]; decide), hh, e6, Finset.sum_range_one, hB']
    rcases he with rfl | rfl
    · rw [hs0, hv0]
      show (-2 : ℝ) = _
      norm_num
    · rw [hs1, hv1]
      show (-2 : ℝ) = _
      norm_num
  · intro _ _ k e hk
    obtain ⟨rfl, he⟩ := hFE k e hk
    rw [hE, flex_zVal]
    rcases he with rfl | rfl
    · have : lastLam po 0 0 = 1 := by simp [lastLam, extraPt, e3, hrbe, e6, nfe, e5]
      rw [this]
      refine flex_switching e4 p 0 0 1 _ _ _ ?_ ?_ <;> simp [hp, gaussOnePt, lamOf] <;> ring
    · have : lastLam po 0 1 = 0 := by simp [lastLam, extraPt, e3, hrbe, e6, nfe, e5]
      rw [this]
      refine flex_switching e4 p 0 1 0 _ _ _ ?_ ?_ <;> simp [hp, gaussOnePt, lamOf] <;> ring
  · intro k e _ _ i hi; simp [UserOcp.trivial] at hi
  · intro hc; exact absurd (e10.symm.trans hc) (by decide)
  · intro k e _ j _ r hr; simp [stageComps, UserOcp.trivial] at hr
  · intro k e _ _ r hr; simp [ctrlComps, UserOcp.trivial] at hr
  · intro r hr; simp [globComps, UserOcp.trivial] at hr
  · intro hc; exact absurd (e3.symm.trans hc) (by decide)
  · intro _ _ k e hk j hj q hq
    obtain ⟨rfl, he⟩ := hFE k e hk
    obtain rfl := hj0 j hj
    obtain ⟨s, i, rfl, hi⟩ := hpair q hq
    unfold Compl CompSat
    simp only [e9, hσ, List.sum_singleton]
    refine ⟨?_, fun j' hj' => ?_⟩
    · rcases he with rfl | rfl
      · rw [hls0]; simp
      · rw [hls]
        rcases hi with rfl | rfl
        · simp [thetaAt, FlexPt.env, hp, gaussOnePt]
        · rw [l2, mul_zero]
    · obtain rfl := hj0 j' hj'
      rcases he with rfl | rfl <;> rcases hi with rfl | rfl
      · rw [l1, mul_zero]
      · simp [thetaAt, FlexPt.env, hp, gaussOnePt]
      · simp [thetaAt, FlexPt.env, hp, gaussOnePt]
      · rw [l3, mul_zero]
  · intro _ hc k e hk j hj q hq
    have ha2 : a = 2 := hc2 (e12.symm.trans hc)
    obtain ⟨rfl, he⟩ := hFE k e hk
    obtain rfl := hj0 j hj
    obtain ⟨s, i, rfl, hi⟩ := hpair q hq
    unfold Compl CompSat
    simp only [e9, hσ]
    have hn0 : nLamPts po 0 0 = 2 := by simp [nLamPts, extraPt, e3, hrbe, e6, nfe, e5]
    have hn1 : nLamPts po 0 1 = 1 := by simp [nLamPts, extraPt, e3, hrbe, e6, nfe, e5]
    rcases he with rfl | rfl <;> rcases hi with rfl | rfl
    · rw [hn0, hls0]
      have l4 : lamAt 0 0 1 p.env (.region s 0) = 0 := by
        show lamOf (a - 2) 0 = 0
        rw [ha2]; simp [lamOf]
      simp [List.range_succ, l1, l4]
    · simp [thetaAt, FlexPt.env, hp, gaussOnePt]
    · simp [thetaAt, FlexPt.env, hp, gaussOnePt]
    · rw [hn1, hls]
      simp [l3, l2]
  · intro _ hc; exact absurd (e13.symm.trans hc) (by decide)
  · intro _ hc; exact absurd (e13.symm.trans hc) (by decide)
  · intro _ hc; exact absurd (e13.symm.trans hc) (by decide)
  · intro _ _ k hk
    have : k = 0 := by omega
    subst this
    simp only [hh]
    simp [nfe, e5, e2, e7]
  · intro hc; omega
  · intro _ _ hc; exact absurd (e11.symm.trans hc) (by decide)
  · intro i hi; simp [UserOcp.trivial] at hi

/-- C33 fails for schemes without explicit end point: SUM_LAMBDAS also uses the multipliers at the end
of the element, COMPLEMENT_ALL does not.  Here a point is feasible for COMPLEMENT_ALL at `σ = 0` and
infeasible for SUM_LAMBDAS. -/
theorem C33_gauss_violated : ∃ po m oc P po' m' oc' P' env,
    SetupEx oneColloc (gaussOneOpts .sumLambdas) flexModel
      (some UserOcp.trivial) po m oc P ∧
    SetupEx oneColloc (gaussOneOpts .complementAll) flexModel
      (some UserOcp.trivial) po' m' oc' P' ∧
    env .sigma = 0 ∧ (∀ q, IsPair po m.dims q → 0 ≤ lam00At env q) ∧
    P'.form.Feasible env ∧ ¬ P.form.Feasible env := by
  obtain ⟨po', m', oc', P', h', hd'⟩ := gaussOne_setup .sumLambdas
  obtain ⟨po, m, oc, P, h, hd⟩ := gaussOne_setup .complementAll
  refine ⟨po', m', oc', P', po, m, oc, P, (gaussOnePt (3 / 2) (3 / 2)).env, h', h, rfl, ?_, ?_, ?_⟩
  · intro q _
    cases q <;> exact le_refl _
  · exact gaussOne_feasible h hd (by norm_num) (by norm_num) (by norm_num)
      (fun hc => absurd hc (by decide))
  · intro hf
    have S := h'.spec hf
    have e2 : po'.nStages = 1 := h'.e_nStages
    have e3 : po'.useFesd = true := h'.e_useFesd
    have e4 : po'.pss = .stewart := h'.e_pss
    have e5 : po'.nfeList = [2] := h'.e_nfeList
    have e6 : po'.nS = 1 := h'.e_nS
    have e9 : po'.mpcc = .scholtesIneq := h'.e_mpcc
    have hrbe : po'.rbe = false := by
      have := (h'.toSetup.built.opts.rbe_iff (by simp [gaussOneOpts]))
      cases hb : po'.rbe
      · rfl
      · exact absurd (this.1 hb) (by simp [gaussOneOpts])
    have := S.compSum e3 h'.e_crossComp 0 0 ⟨by omega, by simp [nfe, e5]⟩ 0 (by omega) (.region 0 0)
      (by rw [hd']; exact ⟨e4, by decide, by decide⟩)
    have hn : nLamPts po' 0 0 = 2 := by simp [nLamPts, extraPt, e3, hrbe, e6, nfe, e5]
    have h0 : lamStart po' 0 0 (gaussOnePt (3 / 2) (3 / 2)).env (.region 0 0) = 0 := rfl
    have hσ : (gaussOnePt (3 / 2) (3 / 2)).env .sigma = 0 := rfl
    unfold Compl CompSat at this
    simp only [e9, hn, h0, hσ] at this
    simp [List.range_succ, lamAt, thetaAt, FlexPt.env, gaussOnePt] at this
    norm_num [lamOf, abs_of_nonneg] at this

end Nosnoc
