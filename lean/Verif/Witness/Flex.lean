import Verif.Props.Reps
/-
A family of small problems for witnesses: `ẋ = z₀` in both regions, switching function `c = x + z₁`, with
free algebraic variables `z₀`, `z₁`, one control and one global variable.  Stage derivatives and
multipliers can be chosen almost at will.
-/
namespace Nosnoc

def flexModel : UserModel where
  nX := 1
  nU := 1
  nZ := 2
  nPtv := 0
  nPgl := 0
  nV := 1
  x0 := [0]
  F := some [⟨2, fun _ _ _ z _ _ _ => z.getD 0 0⟩]
  c := some [⟨1, fun _ x z _ => x.getD 0 0 + z.getD 1 0⟩]
  S := some [⟨2, 1, fun i _ => if i = 0 then 1 else -1⟩]
  gStewart := none
  alpha := none
  fx := none
  gz := ⟨0, fun _ _ _ _ _ => 0⟩
  z0 := none
  lbz := none
  ubz := none
  pTimeVarVal := none
  pGlobalVal := []
  tVar := none

abbrev flexDims : Dims := dimsOf flexModel [1] [2]

theorem flex_preModel {po : PreOpts} (hp : po.pss = .stewart) (ht : po.timeFreezing = false) :
    ∃ m, flexModel.preprocess po = .ok m := by
  unfold UserModel.preprocess
  have h1 : flexModel.nCsys = .ok [1] := rfl
  have h2 : flexModel.nFsys po.pss = .ok [2] := by
    simp [UserModel.nFsys, flexModel, check, UserModel.gStewartTruthy]
  have h3 : ∃ pv, flexModel.pValCtrl po.nStages = .ok pv := by
    simp [UserModel.pValCtrl, flexModel, check, UserModel.ptv]
  obtain ⟨pv, h3⟩ := h3
  have h4 : check (flexModel.tVar.isSome ∨ po.timeFreezing = false) .valueError = .ok () := by
    simp [check, flexModel, ht]
  rw [h1, h2, h3, h4, hp]
  exact ⟨_, rfl⟩

theorem flex_dims {po : PreOpts} {m : PreModel} (h : flexModel.preprocess po = .ok m) :
    m.dims = flexDims := by
  obtain ⟨nC, nF, g, up, f0, acc, hp⟩ := preprocess_pre h
  have h1 := hp.hnC
  have h2 := hp.hnF
  have h3 : flexModel.nFsys po.pss = .ok [2] := by
    simp [UserModel.nFsys, flexModel, check, UserModel.gStewartTruthy]
  rw [h3] at h2
  cases h2
  have h4 : flexModel.nCsys = .ok [1] := rfl
  rw [h4] at h1
  cases h1
  exact hp.dims

/-- What the options of a witness must satisfy for the problem to be constructed. -/
structure FlexOpts (o : Opts) : Prop where
  pss : o.pss = .stewart
  freeze : o.timeFreezing = false
  nS : 0 < o.nS
  stages : o.nStages ≠ 0
  sot : o.sot = .none
  nfeLen : o.nStages ≤ o.nfeAfter.length
  nfePos : ∀ n ∈ o.nfeAfter, 0 < n
  aug : ¬ (o.mpcc = .fischerBurmeisterIpAug ∧ o.useFesd = true ∧ o.crossComp = .sumLambdas)
  exact : o.constraintHandling = .exact

theorem flex_setup {o : Opts} {colloc : IrkScheme → Nat → List ℝ} (h : FlexOpts o)
    (hpo : ∃ po, o.preprocess colloc = .ok po) {uo : UserOcp}
    (hs : ∀ r ∈ uo.gPathComp, r.Sound flexDims)
    (hoc : ∀ m : PreModel, m.dims = flexDims → ∃ oc, uo.preprocess m = .ok oc) :
    ∃ po m oc P, SetupEx colloc o flexModel (some uo) po m oc P ∧
      m.dims = flexDims := by
  obtain ⟨po, hpo⟩ := hpo
  have e := (preprocess_opts hpo).toOpts
  obtain ⟨m, hm⟩ := flex_preModel (po := po) (by rw [e]; exact h.pss) (by rw [e]; exact h.freeze)
  have hd := flex_dims hm
  obtain ⟨oc, hoc⟩ := hoc m hd
  obtain ⟨P, hP⟩ := (C06_construct_iff (uo := some uo) rfl hpo hm hoc
    h.nS (fun _ => rfl) h.exact).2 ⟨h.stages, rfl, by rw [h.sot]; decide, fun k hk => by
      have hk' := lt_of_lt_of_le hk h.nfeLen
      exact ⟨_, List.getElem?_eq_getElem hk', h.nfePos _ (List.getElem_mem hk')⟩, h.aug⟩
  exact ⟨po, m, oc, P, ⟨⟨hP, h.nS, fun _ => rfl⟩, h.exact, by rw [hd]; exact hs⟩, hd⟩

/-- The numbers a point is made of. -/
structure FlexPt where
  /-- stage derivative -/
  v : Nat → Nat → Nat → ℝ
  /-- shift of the switching function -/
  z : Nat → Nat → Nat → ℝ
  /-- stage states, end states, step lengths -/
  x : Nat → Nat → Nat → ℝ
  xEnd : Nat → Nat → ℝ
  h : Nat → Nat → ℝ
  theta : Nat → Nat → Nat → Nat → ℝ
  lam : Nat → Nat → Nat → Nat → ℝ
  mu : Nat → Nat → Nat → ℝ
  lam00 : Nat → ℝ
  u : Nat → ℝ
  vGlob : ℝ
  sigma : ℝ
  slack : ℝ

def FlexPt.env (p : FlexPt) : Env
  | .st1 .v k e j _ => p.v k e j
  | .st1 .z k e j i => if i = 0 then p.v k e j else p.z k e j
  | .st1 .x k e j _ => p.x k e j
  | .xEnd k e _ => p.xEnd k e
  | .h k e => p.h k e
  | .st2 .theta k e j _ i => p.theta k e j i
  | .st2 .lam k e j _ i => p.lam k e j i
  | .st2 .mu k e j _ _ => p.mu k e j
  | .lam00 .lam _ i => p.lam00 i
  | .u k _ => p.u k
  | .vGlob _ => p.vGlob
  | .sigma => p.sigma
  | .sElastic => p.slack
  | _ => 0

theorem flex_rhs {po : PreOpts} (hp : po.pss = .stewart) (p : FlexPt) (k e j i : Nat)
    (ht : p.theta k e j 0 + p.theta k e j 1 = 1) :
    flexModel.stageRhs po flexDims k e j i p.env = p.v k e j := by
  unfold UserModel.stageRhs
  rw [hp]
  simp [UserModel.rhsStewart, flexModel, UserModel.nSys, UserModel.Fmat, FlexPt.env, zVal, dimsOf,
    Finset.sum_range_succ]
  rw [← mul_add, ht, mul_one]

theorem flex_switching {po : PreOpts} (hp : po.pss = .stewart) (p : FlexPt) (k e j : Nat) (x z q : List ℝ)
    (h0 : p.lam k e j 0 - p.mu k e j = -(x.getD 0 0 + z.getD 1 0))
    (h1 : p.lam k e j 1 - p.mu k e j = x.getD 0 0 + z.getD 1 0) :
    flexModel.Switching po k e j x z q p.env := by
  unfold UserModel.Switching
  rw [hp]
  intro s hs i hi
  have hs0 : s = 0 := by
    simp only [flexModel, UserModel.nSys] at hs
    simpa using hs
  subst hs0
  have hi2 : i = 0 ∨ i = 1 := by
    simp only [flexModel, UserModel.Fmat] at hi
    simp at hi
    omega
  rcases hi2 with rfl | rfl
  · simp [FlexPt.env, UserModel.gVal, UserModel.gStewartTruthy, UserModel.Smat, UserModel.cVec,
      flexModel]
    simp at h0
    linarith
  · simp [FlexPt.env, UserModel.gVal, UserModel.gStewartTruthy, UserModel.Smat, UserModel.cVec,
      flexModel]
    simp at h1
    linarith

theorem flex_zVal (p : FlexPt) (k e j : Nat) : zVal flexDims k e j p.env = [p.v k e j, p.z k e j] := rfl

theorem flex_algebraic {po : PreOpts} (hp : po.pss = .stewart) (p : FlexPt) (k e j : Nat) (x : List ℝ)
    (h0 : p.lam k e j 0 - p.mu k e j = -(x.getD 0 0 + p.z k e j))
    (h1 : p.lam k e j 1 - p.mu k e j = x.getD 0 0 + p.z k e j)
    (ht : p.theta k e j 0 + p.theta k e j 1 = 1) :
    flexModel.Algebraic po flexDims k e j x p.env := by
  refine ⟨?_, ?_, ?_⟩
  · rw [flex_zVal]
    exact flex_switching hp p k e j x _ _ h0 h1
  · intro _ s hs
    have hs0 : s = 0 := by
      simp only [flexModel, UserModel.nSys] at hs
      simpa using hs
    subst hs0
    simpa [FlexPt.env, UserModel.Fmat, flexModel, Finset.sum_range_succ] using ht
  · intro i hi
    simp [flexModel] at hi

/-- Bounds of a point, when the user gives none. -/
theorem flex_bounds {po : PreOpts} {uo : UserOcp} (hp : po.pss = .stewart) (hsot : po.sot = .none)
    (p : FlexPt) (hu1 : uo.lbu = none) (hu2 : uo.ubu = none) (hx1 : uo.lbx = none)
    (hx2 : uo.ubx = none) (hv1 : uo.lbv = none) (hv2 : uo.ubv = none)
    (hel : po.sElasticMin ≤ p.slack ∧ p.slack ≤ po.sElasticMax)
    (hh : po.useFesd = true → ∀ k e, HasFE po k e →
      (1 - po.gammaH) * nominalH po k ≤ p.h k e ∧ p.h k e ≤ (1 + po.gammaH) * nominalH po k)
    (hsg : dualLb po.mpcc = ⊥ ∨ ∀ k e j i, 0 ≤ p.theta k e j i ∧ 0 ≤ p.lam k e j i) :
    ∀ s, IsVar po flexDims s → (varDoc po flexModel uo s).lb ≤ ((p.env s : ℝ) : EReal) ∧
      ((p.env s : ℝ) : EReal) ≤ (varDoc po flexModel uo s).ub := by
  have hdual : ∀ {v : ℝ}, (dualLb po.mpcc = ⊥ ∨ 0 ≤ v) → dualLb po.mpcc ≤ ((v : ℝ) : EReal) := by
    intro v hv
    rcases hv with hv | hv
    · rw [hv]; exact bot_le
    · have : dualLb po.mpcc ≤ 0 := by unfold dualLb; split <;> simp
      exact this.trans (by rw [← EReal.coe_zero]; exact EReal.coe_le_coe_iff.2 hv)
  intro s hs
  cases s with
  | xEnd k e i => simp [varDoc, getOr, hx1, hx2]
  | st1 f k e j i =>
    cases f with
    | v => exact ⟨bot_le, le_top⟩
    | x => simp [varDoc, getOr, hx1, hx2]
    | z => exact ⟨bot_le, le_top⟩
  | st2 f k e j s i =>
    cases f with
    | theta => exact ⟨hdual (hsg.imp id fun h => (h k e j i).1), le_top⟩
    | lam => exact ⟨hdual (hsg.imp id fun h => (h k e j i).2), le_top⟩
    | mu => exact ⟨bot_le, le_top⟩
    | alpha => exact absurd (hp.symm.trans hs.1) (by decide)
    | lamN => exact absurd (hp.symm.trans hs.1) (by decide)
    | lamP => exact absurd (hp.symm.trans hs.1) (by decide)
  | h k e =>
    obtain ⟨a, b⟩ := hh hs.1 k e hs.2
    exact ⟨EReal.coe_le_coe_iff.2 a, EReal.coe_le_coe_iff.2 b⟩
  | u k i => simp [varDoc, getOr, hu1, hu2]
  | vGlob i => simp [varDoc, getOr, hv1, hv2]
  | sot k => exact absurd (hsot.symm.trans hs.1) (by decide)
  | sElastic =>
    exact ⟨EReal.coe_le_coe_iff.2 hel.1, EReal.coe_le_coe_iff.2 hel.2⟩
  | _ => exact hs.elim

/-- One Gauss stage at 1/2, one Radau stage at 1. -/
noncomputable def oneColloc : IrkScheme → Nat → List ℝ := fun s _ => match s with
  | .radauIIA => [1]
  | .gaussLegendre => [1 / 2]

/-- Preprocessing of the options succeeds. -/
theorem flex_preOpts {o : Opts} {colloc : IrkScheme → Nat → List ℝ}
    (hi : 0 < o.compTol / o.sigma0 ∧ 0 < o.slope ∧ o.slope ≠ 1)
    (ht : o.irkRep = .integral ∨ ∃ t, generateButcher o.nS o.scheme = .ok t ∧ t.c ≠ []) :
    ∃ po, o.preprocess colloc = .ok po := by
  have hm : ∃ n, o.maxIter = .ok n := by
    unfold Opts.maxIter autoMaxIter
    rw [if_pos (show 0 < o.compTol / o.sigma0 ∧ 0 ≤ o.slope ∧ o.slope ≠ 1 from
      ⟨hi.1, hi.2.1.le, hi.2.2⟩)]
    split <;> exact ⟨_, rfl⟩
  obtain ⟨n, hn⟩ := hm
  unfold Opts.preprocess
  rw [hn]
  simp only [ok_bind]
  have tab : o.irkRep ≠ .integral → ∃ t x, generateButcher o.nS o.scheme = .ok t ∧
      (t.c.map (fun q : ℚ => (q : ℝ))).getLast? = some x := by
    intro hr
    obtain ⟨t, h1, h2⟩ := ht.resolve_left hr
    have : (t.c.map (fun q : ℚ => (q : ℝ))) ≠ [] := by simpa using h2
    exact ⟨t, _, h1, List.getLast?_eq_getLast_of_ne_nil this⟩
  cases hr : o.irkRep with
  | integral => exact ⟨_, rfl⟩
  | differential =>
    obtain ⟨t, x, h1, h2⟩ := tab (by rw [hr]; decide)
    rw [h1]
    simp only [ok_bind]
    rw [h2]
    exact ⟨_, rfl⟩
  | differentialLiftX =>
    obtain ⟨t, x, h1, h2⟩ := tab (by rw [hr]; decide)
    rw [h1]
    simp only [ok_bind]
    rw [h2]
    exact ⟨_, rfl⟩

theorem trivial_pre (m : PreModel) (hm : m.dims = flexDims) :
    ∃ oc, UserOcp.trivial.preprocess m = .ok oc := by
  unfold UserOcp.preprocess
  rw [hm]
  exact ⟨_, rfl⟩

end Nosnoc

namespace Nosnoc

/-- Stay at `x = 0` on the switching surface with steps `h`, controls `u` and global variable `v`. -/
noncomputable def stillPt (h : Nat → Nat → ℝ) (u : Nat → ℝ) (v σ : ℝ) : FlexPt where
  v _ _ _ := 0
  z _ _ _ := 0
  x _ _ _ := 0
  xEnd _ _ := 0
  h := h
  theta _ _ _ _ := 1 / 2
  lam _ _ _ _ := 0
  mu _ _ _ := 0
  lam00 _ := 0
  u := u
  vGlob := v
  sigma := σ
  slack := 0

section
variable {po : PreOpts} {h : Nat → Nat → ℝ} {u : Nat → ℝ} {v σ : ℝ}

theorem still_startX (k e i : Nat) : (stillPt h u v σ).env (startX po k e i) = 0 := by
  unfold startX endX
  cases prevFe po k e with
  | none => rfl
  | some q => cases ownEnd po <;> rfl

theorem still_xVal (k e j : Nat) : xVal po flexDims k e j (stillPt h u v σ).env = [0] := by
  have hv : ∀ k e r i, (stillPt h u v σ).env (.st1 .v k e r i) = 0 := fun _ _ _ _ => rfl
  unfold xVal stageX
  split
  · simp [evalVec, still_startX, hv, dimsOf, flexModel]
  · rfl

theorem still_xEndVal (k e : Nat) : xEndVal po flexDims k e (stillPt h u v σ).env = [0] := by
  unfold xEndVal endX
  cases ownEnd po <;> rfl

theorem still_lamAt (k e j : Nat) (q : Pair) : lamAt k e j (stillPt h u v σ).env q = 0 := by
  cases q <;> rfl

theorem still_lamStart (k e : Nat) (q : Pair) : lamStart po k e (stillPt h u v σ).env q = 0 := by
  unfold lamStart
  cases prevFe po k e with
  | none => cases q <;> rfl
  | some p => exact still_lamAt _ _ _ q

/-- Feasibility of the point: what remains to be checked are the step lengths and the user's own
constraints. -/
theorem still_spec_gen {uo : UserOcp} (hp : po.pss = .stewart) (hsot : po.sot = .none)
    (ht : po.timeFreezing = false) (hc0 : ∀ xs y, xs.sum * y = 0 → Compl po (stillPt h u v σ).env xs y)
    (hu1 : uo.lbu = none) (hu2 : uo.ubu = none) (hx1 : uo.lbx = none)
    (hx2 : uo.ubx = none) (hv1 : uo.lbv = none) (hv2 : uo.ubv = none)
    (hel : po.sElasticMin ≤ 0 ∧ 0 ≤ po.sElasticMax)
    (hh : po.useFesd = true → ∀ k e, HasFE po k e →
      (1 - po.gammaH) * nominalH po k ≤ h k e ∧ h k e ≤ (1 + po.gammaH) * nominalH po k)
    (hpath : ∀ k, PathSat uo flexDims k [0] (stillPt h u v σ).env)
    (hst : ∀ k < po.nStages, ∀ r ∈ stageComps uo, 
      Compl po (stillPt h u v σ).env [r.a [0] [u k] [0, 0] [] [v]] (r.b [0] [u k] [0, 0] [] [v]))
    (hct : ∀ k e, HasFE po k e → e + 1 = po.nFe → ∀ r ∈ ctrlComps uo,
      Compl po (stillPt h u v σ).env [r.a [] [u k] [] [] [v]] (r.b [] [u k] [] [] [v]))
    (hgl : ∀ r ∈ globComps uo, Compl po (stillPt h u v σ).env [r.a [] [] [] [] [v]] (r.b [] [] [] [] [v]))
    (hsd : po.useFesd = true → po.stepEq = .direct → ∀ k e, HasFE po k e → 0 < e →
      nuOf po flexDims k e (stillPt h u v σ).env * (h k e - h k (e - 1)) = 0)
    (hsdc : po.useFesd = true → po.stepEq = .directComplementarity → ∀ k e, HasFE po k e → 0 < e →
      Compl po (stillPt h u v σ).env [nuOf po flexDims k e (stillPt h u v σ).env] (h k e - h k (e - 1)))
    (heq : po.useFesd = true → po.equidistant = true → ∀ k < po.nStages,
      ∑ e ∈ Finset.range (nfe po k), h k e = po.terminalTime / po.nStages)
    (htm : 1 < po.nStages → po.useFesd = true → po.equidistant = false →
      ∑ k ∈ Finset.range po.nStages, ∑ e ∈ Finset.range (nfe po k), h k e = po.terminalTime)
    (hterm : ∀ i < uo.nGTerminal, uo.gTerminal i [0] [] [v] = 0) :
    FeasibleSpec po flexDims flexModel uo (stillPt h u v σ).env := by
  have hval : po.useFesd = true → ∀ k e, hVal po k e (stillPt h u v σ).env = h k e := by
    intro hu k e
    unfold hVal
    rw [hu]
    rfl
  have hz : ∀ k e j, zVal flexDims k e j (stillPt h u v σ).env = [0, 0] := fun _ _ _ => rfl
  have hu : ∀ k, uVal flexDims k (stillPt h u v σ).env = [u k] := fun _ => rfl
  have hv : vVal flexDims (stillPt h u v σ).env = [v] := rfl
  have hpv : ∀ k, pVal flexDims k (stillPt h u v σ).env = [] := fun _ => rfl
  have half : ∀ k e j, (stillPt h u v σ).theta k e j 0 + (stillPt h u v σ).theta k e j 1 = 1 := by
    intro k e j; simp [stillPt]; norm_num
  constructor
  · refine flex_bounds hp hsot _ hu1 hu2 hx1 hx2 hv1 hv2 hel hh (.inr fun k e j i => ?_)
    simp [stillPt]
  · intro k e _ j _
    rw [still_xVal]
    exact flex_algebraic hp _ k e j _ (by simp [stillPt]) (by simp [stillPt]) (half k e j)
  · intro k e _ j _ i _
    unfold RkEq
    rw [flex_rhs hp _ _ _ _ _ (half k e j), still_startX]
    split <;> simp [stillPt, FlexPt.env]
  · intro _ k e _ j _ i _
    unfold LiftEq
    rw [still_startX]
    simp [stillPt, FlexPt.env]
  · intro _ k e _ i _
    unfold EndEq
    rw [still_startX]
    simp [stillPt, FlexPt.env]
  · intro _ _ k e _
    rw [still_xEndVal, hz]
    exact flex_switching hp _ k e _ _ _ _ (by simp [stillPt]) (by simp [stillPt])
  · intro k e _ _
    rw [still_xVal, still_xEndVal, ite_self]
    exact hpath k
  · intro _ k e _ j _
    rw [still_xVal]
    exact hpath k
  · intro k e hk j _ r hr
    rw [still_xVal, hu, hz, hv, hpv]
    exact hst k hk.1 r hr
  · intro k e hk he r hr
    rw [hu, hv, hpv]
    exact hct k e hk he r hr
  · intro r hr
    rw [hv]
    exact hgl r hr
  · intro _ k e _ j _ q _
    rw [still_lamAt]
    exact hc0 _ _ (by simp)
  · intro _ _ k e _ j _ q _
    rw [still_lamStart]
    refine ⟨hc0 _ _ (by simp), fun j' _ => ?_⟩
    rw [still_lamAt]
    exact hc0 _ _ (by simp)
  · intro _ _ k e _ j _ q _
    simp only [still_lamStart, still_lamAt]
    exact hc0 _ _ (by simp)
  · intro hf hs k e hk he
    rw [hval hf, hval hf]
    exact hsd hf hs k e hk he
  · intro hf hs k e hk he
    rw [hval hf, hval hf]
    exact hsdc hf hs k e hk he
  · intro hf hs k e hk he
    exact hc0 _ _ (by simp)
  · intro hf hq k hk
    simp only [hval hf]
    exact heq hf hq k hk
  · intro h1 hf h3
    simp only [hval hf]
    exact htm h1 hf h3
  · intro _ _ hc; exact absurd (ht.symm.trans hc) (by decide)
  · intro i hi
    rw [still_xEndVal, hpv, hv]
    exact hterm i hi

/-- Feasibility of the point: what remains to be checked are the step lengths and the user's own
constraints. -/
theorem still_spec {uo : UserOcp} (hp : po.pss = .stewart) (hsot : po.sot = .none)
    (ht : po.timeFreezing = false) (hm : po.mpcc = .scholtesIneq) (hσ : 0 ≤ σ)
    (hu1 : uo.lbu = none) (hu2 : uo.ubu = none) (hx1 : uo.lbx = none)
    (hx2 : uo.ubx = none) (hv1 : uo.lbv = none) (hv2 : uo.ubv = none)
    (hel : po.sElasticMin ≤ 0 ∧ 0 ≤ po.sElasticMax)
    (hh : po.useFesd = true → ∀ k e, HasFE po k e →
      (1 - po.gammaH) * nominalH po k ≤ h k e ∧ h k e ≤ (1 + po.gammaH) * nominalH po k)
    (hpath : ∀ k, PathSat uo flexDims k [0] (stillPt h u v σ).env)
    (hst : ∀ k < po.nStages, ∀ r ∈ stageComps uo, r.a [0] [u k] [0, 0] [] [v] * r.b [0] [u k] [0, 0] [] [v] ≤ σ)
    (hct : ∀ k e, HasFE po k e → e + 1 = po.nFe → ∀ r ∈ ctrlComps uo,
      r.a [] [u k] [] [] [v] * r.b [] [u k] [] [] [v] ≤ σ)
    (hgl : ∀ r ∈ globComps uo, r.a [] [] [] [] [v] * r.b [] [] [] [] [v] ≤ σ)
    (hsd : po.useFesd = true → po.stepEq = .direct → ∀ k e, HasFE po k e → 0 < e →
      nuOf po flexDims k e (stillPt h u v σ).env * (h k e - h k (e - 1)) = 0)
    (hsdc : po.useFesd = true → po.stepEq = .directComplementarity → ∀ k e, HasFE po k e → 0 < e →
      nuOf po flexDims k e (stillPt h u v σ).env * (h k e - h k (e - 1)) ≤ σ)
    (heq : po.useFesd = true → po.equidistant = true → ∀ k < po.nStages,
      ∑ e ∈ Finset.range (nfe po k), h k e = po.terminalTime / po.nStages)
    (htm : 1 < po.nStages → po.useFesd = true → po.equidistant = false →
      ∑ k ∈ Finset.range po.nStages, ∑ e ∈ Finset.range (nfe po k), h k e = po.terminalTime)
    (hterm : ∀ i < uo.nGTerminal, uo.gTerminal i [0] [] [v] = 0) :
    FeasibleSpec po flexDims flexModel uo (stillPt h u v σ).env := by
  have comp : ∀ xs y, xs.sum * y ≤ σ → Compl po (stillPt h u v σ).env xs y := by
    intro xs y hxy
    have hs : (stillPt h u v σ).env .sigma = σ := rfl
    unfold Compl CompSat
    simp only [hm, hs]
    exact hxy
  exact still_spec_gen hp hsot ht (fun xs y h => comp xs y (h.trans_le hσ)) hu1 hu2 hx1 hx2 hv1 hv2
    hel hh hpath (fun k hk r hr => comp _ _ (by simpa using hst k hk r hr))
    (fun k e hk he r hr => comp _ _ (by simpa using hct k e hk he r hr))
    (fun r hr => comp _ _ (by simpa using hgl r hr)) hsd
    (fun hf hs k e hk he => comp _ _ (by simpa using hsdc hf hs k e hk he)) heq htm hterm

end
end Nosnoc
