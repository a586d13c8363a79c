import Verif.Proofs.Master
import Verif.Proofs.ZOk
/-
A concrete problem used to show that the hypotheses of the theorems can be met: a sliding mode
`ẋ ∈ -sign(x)` started on the switching surface, with a control, an algebraic variable, parameters,
a global variable, path and terminal constraints and all three kinds of path complementarities.
The point `demoEnv` (stay on the surface, constant steps) is feasible for every combination of
options satisfying `DemoOpts`.
-/
namespace Nosnoc

/-- `ẋ = -1` for `x > 0`, `ẋ = 1` for `x < 0`; one variable of every kind. -/
def demoModel : UserModel where
  nX := 1
  nU := 1
  nZ := 1
  nPtv := 1
  nPgl := 1
  nV := 1
  x0 := [0]
  F := some [⟨2, fun _ col _ _ _ _ _ => if col = 0 then -1 else 1⟩]
  c := some [⟨1, fun _ x _ _ => x.getD 0 0⟩]
  S := some [⟨2, 1, fun i _ => if i = 0 then 1 else -1⟩]
  gStewart := none
  alpha := none
  fx := none
  gz := ⟨1, fun _ _ z _ _ => z.getD 0 0⟩
  z0 := none
  lbz := none
  ubz := none
  pTimeVarVal := none
  pGlobalVal := [0]
  tVar := some fun x => x.getD 0 0

/-- Costs, a path constraint `x = 0`, a terminal constraint `x = 0`, and one path complementarity of
each kind. -/
def demoOcp : UserOcp where
  lbu := none
  ubu := none
  uGuess := none
  lbx := none
  ubx := none
  fq := fun x _ _ _ => 1 + x.getD 0 0
  nGPath := 1
  gPath := fun _ x _ _ _ => x.getD 0 0
  lbg := none
  ubg := none
  gPathComp := [⟨fun x _ _ _ _ => x.getD 0 0, fun _ u _ _ _ => u.getD 0 0, true, true⟩,
    ⟨fun _ u _ _ _ => u.getD 0 0, fun _ _ _ _ v => v.getD 0 0, false, true⟩,
    ⟨fun _ _ _ _ v => v.getD 0 0, fun _ _ _ _ _ => 1, false, false⟩]
  gPathCompWidth := 2
  fTerminal := fun x _ _ => 2 + x.getD 0 0
  nGTerminal := 1
  gTerminal := fun _ x _ _ => x.getD 0 0
  lbv := none
  ubv := none
  vGuess := none

/-- Stay at `x = 0` with equal weights and steps `c` times the nominal ones. -/
noncomputable def demoEnvC (c : ℝ) (o : PreOpts) : Env
  | .h k _ => c * nominalH o k
  | .st2 .theta _ _ _ _ _ => 1 / 2
  | .st2 .alpha _ _ _ _ _ => 1 / 2
  | .sot _ => 1
  | _ => 0

/-- Nominal steps. -/
noncomputable abbrev demoEnv (o : PreOpts) : Env := demoEnvC 1 o

/-- Collocation points for two stages. -/
noncomputable def demoColloc : IrkScheme → Nat → List ℝ := fun s _ => match s with
  | .radauIIA => [1 / 3, 1]
  | .gaussLegendre => [1 / 2 - Real.sqrt 3 / 6, 1 / 2 + Real.sqrt 3 / 6]

/-- Conditions on the options under which the demo problem is constructed and its
discretisation has the demo point. -/
structure DemoBase (o : Opts) : Prop where
  nS : o.nS = 2
  iter : 0 < o.compTol / o.sigma0 ∧ 0 < o.slope ∧ o.slope ≠ 1
  stages : o.nStages ≠ 0
  nfeLen : o.nStages ≤ o.nfeAfter.length
  nfePos : ∀ n ∈ o.nfeAfter, 0 < n
  sot : o.sot ≠ .global
  sotMin : o.sotMin ≤ 1
  sotMax : 1 ≤ o.sotMax
  elMin : o.sElasticMin ≤ 0
  elMax : 0 ≤ o.sElasticMax
  gamma : 0 ≤ o.gammaH
  time : 0 ≤ o.terminalTime
  freeze : o.timeFreezing = true → o.terminalTime ≤ o.timeFreezingTol
  aug : ¬ (o.mpcc = .fischerBurmeisterIpAug ∧ o.useFesd = true ∧ o.crossComp = .sumLambdas)
  exact : o.constraintHandling = .exact
  bool : o.mpcc = .boolean → o.stepEq ≠ .directComplementarity

/-- Conditions on the options under which the demo point is feasible without binary variables. -/
structure DemoOpts (o : Opts) : Prop where
  nS : o.nS = 2
  iter : 0 < o.compTol / o.sigma0 ∧ 0 < o.slope ∧ o.slope ≠ 1
  stages : o.nStages ≠ 0
  nfeLen : o.nStages ≤ o.nfeAfter.length
  nfePos : ∀ n ∈ o.nfeAfter, 0 < n
  sot : o.sot ≠ .global
  sotMin : o.sotMin ≤ 1
  sotMax : 1 ≤ o.sotMax
  elMin : o.sElasticMin ≤ 0
  elMax : 0 ≤ o.sElasticMax
  gamma : 0 ≤ o.gammaH
  time : 0 ≤ o.terminalTime
  freeze : o.timeFreezing = true → o.terminalTime ≤ o.timeFreezingTol
  aug : ¬ (o.mpcc = .fischerBurmeisterIpAug ∧ o.useFesd = true ∧ o.crossComp = .sumLambdas)
  exact : o.constraintHandling = .exact
  bool : o.mpcc ≠ .boolean

theorem DemoOpts.base {o : Opts} (h : DemoOpts o) : DemoBase o :=
  ⟨h.nS, h.iter, h.stages, h.nfeLen, h.nfePos, h.sot, h.sotMin, h.sotMax, h.elMin, h.elMax, h.gamma, h.time, h.freeze, h.aug, h.exact,
    fun hb => absurd hb h.bool⟩

theorem DemoBase.preOpts {o : Opts} (h : DemoBase o) : ∃ po, o.preprocess demoColloc = .ok po := by
  have hm : ∃ n, o.maxIter = .ok n := by
    unfold Opts.maxIter autoMaxIter
    split
    · rw [if_pos ⟨h.iter.1, h.iter.2.1.le, h.iter.2.2⟩]; exact ⟨_, rfl⟩
    · exact ⟨_, rfl⟩
  obtain ⟨n, hn⟩ := hm
  unfold Opts.preprocess
  rw [hn]
  simp only [ok_bind, h.nS]
  cases hr : o.irkRep <;> cases hs : o.scheme
  · exact ⟨_, rfl⟩
  · exact ⟨_, rfl⟩
  · exact ⟨_, rfl⟩
  · exact ⟨_, rfl⟩
  · exact ⟨_, rfl⟩
  · exact ⟨_, rfl⟩

theorem demo_preOpts {o : Opts} (h : DemoOpts o) : ∃ po, o.preprocess demoColloc = .ok po :=
  h.base.preOpts

theorem demo_init : demoModel.initCheck = .ok () := rfl

theorem demo_preModel {po : PreOpts} : ∃ m, demoModel.preprocess po = .ok m := by
  unfold UserModel.preprocess
  have h1 : demoModel.nCsys = .ok [1] := rfl
  have h2 : demoModel.nFsys po.pss = .ok [2] := by
    simp [UserModel.nFsys, demoModel, check, UserModel.gStewartTruthy]
  have h3 : ∃ pv, demoModel.pValCtrl po.nStages = .ok pv := by
    simp [UserModel.pValCtrl, demoModel, check, UserModel.ptv]
  obtain ⟨pv, h3⟩ := h3
  rw [h1, h2, h3]
  have h4 : check (demoModel.tVar.isSome ∨ po.timeFreezing = false) .valueError = .ok () := by
    simp [check, demoModel]
  rw [h4]
  cases hp : po.pss
  · exact ⟨_, rfl⟩
  · have h5 : ∀ d, ∃ up, demoModel.upsilon (demoModel.alphaVars
        { nX := demoModel.nX, nU := demoModel.nU, nZ := demoModel.nZ, nSys := demoModel.nSys,
          nPtv := demoModel.nPtv, nPgl := demoModel.nPgl, nV := demoModel.nV,
          nC := fun i => [1].getD i 0, nF := d } .step) .step = .ok up ∧ up.length = 1 ∧
          ∀ v ∈ up, v.length = 2 := by
      intro d
      have : ¬ ∃ j < 2, ∃ k < 1, (if j = 0 then (1 : ℝ) else -1) ≠ 0 ∧ 1 ≤ k := by
        rintro ⟨j, _, k, hk, _, h⟩; omega
      refine ⟨[(List.range 2).map fun j =>
        upsilonRow ⟨2, 1, fun i _ => if i = 0 then 1 else -1⟩ (vars (blk 1 (.mAlg .alpha 0))) j],
        ?_, rfl, by simp⟩
      unfold UserModel.upsilon
      have hc : upsilonCol ⟨2, 1, fun i _ => if i = 0 then 1 else -1⟩
          (vars (blk 1 (.mAlg .alpha 0))) = .ok ((List.range 2).map fun j =>
            upsilonRow ⟨2, 1, fun i _ => if i = 0 then 1 else -1⟩
              (vars (blk 1 (.mAlg .alpha 0))) j) := by
        unfold upsilonCol
        rw [if_neg]
        simp [blk]
      have : (List.range demoModel.nSys).mapM (fun i => do
          let S ← optGet demoModel.S i
          let a ← optGet (some (demoModel.alphaVars
            { nX := demoModel.nX, nU := demoModel.nU, nZ := demoModel.nZ, nSys := demoModel.nSys,
              nPtv := demoModel.nPtv, nPgl := demoModel.nPgl, nV := demoModel.nV,
              nC := fun i => [1].getD i 0, nF := d } .step)) i
          upsilonCol S (vars a)) = .ok [(List.range 2).map fun j =>
            upsilonRow ⟨2, 1, fun i _ => if i = 0 then 1 else -1⟩
              (vars (blk 1 (.mAlg .alpha 0))) j] := by
        show (do
          let y ← upsilonCol ⟨2, 1, fun i _ => if i = 0 then 1 else -1⟩
            (vars (blk 1 (.mAlg .alpha 0)))
          let ys ← Except.ok []
          Except.ok (y :: ys)) = _
        rw [hc]
        rfl
      rw [if_pos (by simp [demoModel]), this]
      simp [check]
    obtain ⟨up, h5, h6, h7⟩ := h5 (fun i => [2].getD i 0)
    obtain ⟨v, rfl⟩ := List.length_eq_one_iff.1 h6
    have hv : v.length = 2 := h7 v (by simp)
    simp only [ok_bind]
    obtain ⟨v1, v2, rfl⟩ := List.length_eq_two.1 hv
    show ∃ m, (do
      let upsilon ← demoModel.upsilon _ .step
      _) = Except.ok m
    rw [h5]
    exact ⟨_, rfl⟩

theorem demo_preOcp {m : PreModel} :
    ∃ oc, demoOcp.preprocess m = .ok oc := ⟨_, rfl⟩

theorem demo_alphaOk : AlphaOk demoModel := fun _ => rfl

theorem demo_dims {po : PreOpts} {m : PreModel} (h : demoModel.preprocess po = .ok m) :
    m.dims = dimsOf demoModel [1] [2] := by
  obtain ⟨nC, nF, g, up, f0, acc, hp⟩ := preprocess_pre h
  have h1 := hp.hnC
  have h2 := hp.hnF
  have h3 : demoModel.nFsys po.pss = .ok [2] := by
    simp [UserModel.nFsys, demoModel, check, UserModel.gStewartTruthy]
  rw [h3] at h2
  cases h2
  have h4 : demoModel.nCsys = .ok [1] := rfl
  rw [h4] at h1
  cases h1
  exact hp.dims

theorem demo_construct {o : Opts} (h : DemoBase o) : ∃ po m oc P,
    construct demoColloc o demoModel (some demoOcp) = .ok (po, m, oc, P) := by
  obtain ⟨po, hpo⟩ := h.preOpts
  obtain ⟨m, hm⟩ := demo_preModel (po := po)
  obtain ⟨oc, hoc⟩ := demo_preOcp (m := m)
  have h1 := preprocess_opts hpo
  obtain ⟨nC, nF, g, up, f0, acc, hp⟩ := preprocess_pre hm
  have h3 := preprocess_ocp hoc
  have e := h1.toOpts
  have hn : 0 < po.nS := by rw [e]; exact h.nS ▸ Nat.succ_pos 1
  have hb := build_iff hn (hp.dataOk h3) (hp.funsOk h3) false (problemOf po m oc false)
  have hok : BuildOk po m oc := by
    refine ⟨⟨?_, ?_, ?_, ?_⟩, zOk_of_alphaOk hp demo_init demo_alphaOk, ?_, ?_⟩
    · rw [e]; exact h.stages
    · rw [hp.x0, demo_dims hm]; rfl
    · rw [e]; exact h.sot
    · intro k hk
      have hk' : k < o.nfeAfter.length := lt_of_lt_of_le (by rw [e] at hk; exact hk) h.nfeLen
      have e2 : po.nfeList = o.nfeAfter := by rw [e]
      refine ⟨by rw [e2]; exact hk', ?_⟩
      unfold nfe
      rw [e2, List.getD_eq_getElem?_getD, List.getElem?_eq_getElem hk']
      exact h.nfePos _ (List.getElem_mem hk')
    · unfold NoAugSum; rw [e]; exact h.aug
    · intro hc; rw [e] at hc; simp [h.exact] at hc
  refine ⟨po, m, oc, problemOf po m oc false, ?_⟩
  unfold construct
  rw [demo_init, hpo]
  simp only [ok_bind, hm, Option.getD_some, hoc, Option.isNone_some]
  rw [hb.2 ⟨hok, rfl⟩]
  rfl

theorem compl_zero {o : PreOpts} {env : Env} {xs : List ℝ} {y : ℝ}
    (hb : o.mpcc = .boolean → xs.sum ≤ 100000 ∧ y ≤ 100000)
    (hσ : env .sigma = 0) (hτ : env .tau = 0) (hs : env .sElastic = 0)
    (hx : ∀ x ∈ xs, 0 ≤ x) (hy : 0 ≤ y) (h : (∀ x ∈ xs, x = 0) ∨ y = 0) : Compl o env xs y := by
  have h1 : xs.sum * y = 0 := by
    rcases h with h | h
    · rw [List.sum_eq_zero h, zero_mul]
    · rw [h, mul_zero]
  have h2 : (xs.map fun x => fischerBurmeister x y 0).sum = 0 := by
    apply List.sum_eq_zero
    intro a ha
    obtain ⟨x, hx', rfl⟩ := List.mem_map.1 ha
    unfold fischerBurmeister
    rcases h with h | h
    · rw [h x hx']; simp [Real.sqrt_sq hy]
    · rw [h]; simp [Real.sqrt_sq (hx x hx')]
  unfold Compl CompSat
  rw [hσ, hτ, hs]
  cases hm : o.mpcc <;> simp only [h1, h2, le_refl, neg_zero, and_self, mul_zero, zero_mul,
    Real.sqrt_zero]
  obtain ⟨b1, b2⟩ := hb hm
  have b3 : 0 ≤ xs.sum := List.sum_nonneg hx
  rcases h with h | h
  · exact ⟨1, by norm_num, le_rfl, by linarith, by linarith, by rw [List.sum_eq_zero h]; norm_num,
      by rw [List.sum_eq_zero h]; norm_num⟩
  · exact ⟨0, le_rfl, by norm_num, by rw [h]; norm_num, by rw [h]; norm_num, by linarith,
      by linarith⟩

theorem construct_parts {colloc : IrkScheme → Nat → List ℝ} {o : Opts} {um : UserModel}
    {uo : Option UserOcp} {po : PreOpts} {m : PreModel} {oc : PreOcp} {P : Problem}
    (h : construct colloc o um uo = .ok (po, m, oc, P)) :
    um.initCheck = .ok () ∧ o.preprocess colloc = .ok po ∧ um.preprocess po = .ok m ∧
      (uo.getD UserOcp.trivial).preprocess m = .ok oc ∧ build po m oc uo.isNone = .ok P := by
  unfold construct at h
  simp only [bind_eq_ok] at h
  obtain ⟨_, hi, po', hpo, m', hm, oc', hoc, P', hP, h⟩ := h
  cases h
  exact ⟨hi, hpo, hm, hoc, hP⟩

variable {c : ℝ}

theorem demo_xVal {po : PreOpts} {m : PreModel} (hm : demoModel.preprocess po = .ok m)
    (k e j : Nat) : xVal po m.dims k e j (demoEnvC c po) = [0] := by
  have hs : ∀ i, demoEnvC c po (startX po k e i) = 0 := by
    intro i
    unfold startX endX
    cases prevFe po k e with
    | none => rfl
    | some q => cases ownEnd po <;> rfl
  unfold xVal stageX
  rw [demo_dims hm]
  split
  · simp only [evalVec, dimsOf, demoModel, List.range_one, List.map_cons, List.map_nil, hs]
    simp [demoEnvC]
  · rfl

theorem demo_xEndVal {po : PreOpts} {m : PreModel} (hm : demoModel.preprocess po = .ok m)
    (k e : Nat) : xEndVal po m.dims k e (demoEnvC c po) = [0] := by
  unfold xEndVal endX
  rw [demo_dims hm]
  cases ownEnd po <;> rfl

theorem demo_lamAt (po : PreOpts) (k e j : Nat) (q : Pair) : lamAt k e j (demoEnvC c po) q = 0 := by
  cases q <;> rfl

theorem demo_lamStart (po : PreOpts) (k e : Nat) (q : Pair) :
    lamStart po k e (demoEnvC c po) q = 0 := by
  unfold lamStart
  cases prevFe po k e with
  | none => cases q <;> rfl
  | some p => exact demo_lamAt po _ _ _ q

theorem demo_thetaAt (po : PreOpts) (k e j : Nat) (q : Pair) :
    thetaAt k e j (demoEnvC c po) q = 1 / 2 := by
  cases q
  · rfl
  · rfl
  · simp only [thetaAt, demoEnvC]; norm_num

theorem demo_nu_nonneg (po : PreOpts) (d : Dims) (k e : Nat) : 0 ≤ nuOf po d k e (demoEnvC c po) := by
  unfold nuOf
  apply List.prod_nonneg
  intro a ha
  obtain ⟨q, _, rfl⟩ := List.mem_map.1 ha
  simp only [sumLam, sumTheta, demo_lamAt, demo_lamStart, demo_thetaAt]
  simp
  positivity

theorem demo_rhs {po : PreOpts} {m : PreModel}
    (k e j i : Nat) : demoModel.stageRhs po m.dims k e j i (demoEnvC c po) = 0 := by
  unfold UserModel.stageRhs
  cases po.pss with
  | stewart =>
    simp only [UserModel.rhsStewart, demoEnvC, UserModel.nSys, UserModel.Fmat, demoModel]
    simp [Finset.sum_range_succ]
  | step =>
    simp only [UserModel.rhsStep, UserModel.rhsStewart, demoEnvC, UserModel.nSys, UserModel.Fmat,
      UserModel.Smat, demoModel, regionWeight]
    simp [Finset.sum_range_succ]
    norm_num

theorem demo_hVal (po : PreOpts) (hf : po.useFesd = true) (k e : Nat) :
    hVal po k e (demoEnvC c po) = c * nominalH po k := by
  unfold hVal
  rw [hf]
  rfl

theorem demo_bounds {o : Opts} {po : PreOpts} (h : DemoBase o) (h1 : OptsPre demoColloc o po)
    (hc : |c - 1| ≤ o.gammaH)
    (d : Dims) (s : Sym) (hs : IsVar po d s) :
    (varDoc po demoModel demoOcp s).lb ≤ ((demoEnvC c po s : ℝ) : EReal) ∧
      ((demoEnvC c po s : ℝ) : EReal) ≤ (varDoc po demoModel demoOcp s).ub := by
  have e := h1.toOpts
  have hd : dualLb po.mpcc ≤ ((0 : ℝ) : EReal) := by
    unfold dualLb
    split <;> simp
  have hd2 : dualLb po.mpcc ≤ ((1 / 2 : ℝ) : EReal) :=
    hd.trans (EReal.coe_le_coe_iff.2 (by norm_num))
  have hh : ∀ k, 0 ≤ nominalH po k := by
    intro k
    unfold nominalH
    have : 0 ≤ po.terminalTime := by rw [e]; exact h.time
    positivity
  obtain ⟨hg1, hg2⟩ := abs_le.1 (show |c - 1| ≤ po.gammaH by rw [e]; exact hc)
  have h2 : ((1 / 2 : ℝ) : EReal) ≤ 1 := by
    rw [← EReal.coe_one]; exact EReal.coe_le_coe_iff.2 (by norm_num)
  cases s with
  | sElastic =>
    simp only [varDoc, demoEnvC, EReal.coe_le_coe_iff]
    rw [e]; exact ⟨h.elMin, h.elMax⟩
  | sot k =>
    simp only [varDoc, demoEnvC, EReal.coe_le_coe_iff]
    rw [e]; exact ⟨h.sotMin, h.sotMax⟩
  | h k el =>
    simp only [varDoc, demoEnvC, EReal.coe_le_coe_iff]
    constructor
    · exact mul_le_mul_of_nonneg_right (by linarith) (hh k)
    · exact mul_le_mul_of_nonneg_right (by linarith) (hh k)
  | st1 f k el j i => cases f <;> simp [varDoc, demoEnvC, getOr, demoOcp, demoModel]
  | st2 f k el j s i => cases f <;> simp only [varDoc, demoEnvC, hd, hd2, h2, le_top, bot_le, and_self]
  | vGlob i => simp [varDoc, demoEnvC, getOr, demoOcp]
  | u k i => simp [varDoc, demoEnvC, getOr, demoOcp]
  | xEnd k el i => simp [varDoc, demoEnvC, getOr, demoOcp]
  | _ => exact hs.elim

theorem demo_sound (d : Dims) : ∀ r ∈ demoOcp.gPathComp, r.Sound d := by
  intro r hr
  simp only [demoOcp, List.mem_cons, List.not_mem_nil, or_false] at hr
  rcases hr with rfl | rfl | rfl
  · exact ⟨by simp, by simp⟩
  · exact ⟨by simp, by simp⟩
  · exact ⟨by simp, by simp⟩

theorem demo_spec {o : Opts} {po : PreOpts} {m : PreModel} (h : DemoBase o)
    (h1 : OptsPre demoColloc o po) (hm : demoModel.preprocess po = .ok m)
    (hc : |c - 1| ≤ o.gammaH) (hT : c = 1 ∨ (o.nStages = 1 ∧ o.equidistant = false))
    (hnfe : ∀ k < po.nStages, 0 < nfe po k) :
    FeasibleSpec po m.dims demoModel demoOcp (demoEnvC c po) := by
  have e := h1.toOpts
  have hb : po.mpcc = .boolean → po.stepEq ≠ .directComplementarity := by rw [e]; exact h.bool
  have hN : (po.nStages : ℝ) ≠ 0 := by
    have : po.nStages ≠ 0 := by rw [e]; exact h.stages
    exact_mod_cast this
  have comp : ∀ xs y, (∀ x ∈ xs, 0 ≤ x) → 0 ≤ y → ((∀ x ∈ xs, x = 0) ∨ y = 0) →
      (po.mpcc = .boolean → xs.sum ≤ 100000 ∧ y ≤ 100000) →
      Compl po (demoEnvC c po) xs y := fun xs y h1 h2 h3 h4 => compl_zero h4 rfl rfl rfl h1 h2 h3
  have hsum : c = 1 → po.useFesd = true → ∀ k < po.nStages,
      ∑ e ∈ Finset.range (nfe po k), hVal po k e (demoEnvC c po) = po.terminalTime / po.nStages := by
    intro hc1 hf k hk
    have : (nfe po k : ℝ) ≠ 0 := by exact_mod_cast (hnfe k hk).ne'
    simp only [demo_hVal po hf, nominalH, hc1, one_mul]
    rw [Finset.sum_const, Finset.card_range, nsmul_eq_mul]
    field_simp
  have hu : ∀ k, uVal m.dims k (demoEnvC c po) = [0] := by intro k; rw [demo_dims hm]; rfl
  have hv : vVal m.dims (demoEnvC c po) = [0] := by rw [demo_dims hm]; rfl
  have hstart : ∀ k e i, demoEnvC c po (startX po k e i) = 0 := by
    intro k e i
    unfold startX endX
    cases prevFe po k e with
    | none => rfl
    | some q => cases ownEnd po <;> rfl
  have hsw : ∀ k e j z p, demoModel.Switching po k e j [0] z p (demoEnvC c po) := by
    intro k e j z p
    unfold UserModel.Switching
    cases po.pss with
    | stewart =>
      intro s hs i hi
      simp only [demoModel, UserModel.nSys] at hs
      have : s = 0 := by simpa using hs
      subst this
      simp [demoEnvC, UserModel.gVal, UserModel.gStewartTruthy, UserModel.Smat, UserModel.cVec,
        demoModel]
    | step =>
      intro s hs i hi
      simp only [demoModel, UserModel.nSys] at hs
      have : s = 0 := by simpa using hs
      subst this
      simp [demoEnvC, UserModel.cVec, demoModel]
  have hpath : ∀ k, PathSat demoOcp m.dims k [0] (demoEnvC c po) := by
    intro k i _
    simp [demoOcp, getOr]
  constructor
  · exact demo_bounds h h1 hc m.dims
  · intro k el _ j _
    rw [demo_xVal hm]
    refine ⟨hsw _ _ _ _ _, ?_, ?_⟩
    · intro _ s hs
      simp only [demoModel, UserModel.nSys] at hs
      have : s = 0 := by simpa using hs
      subst this
      simp [UserModel.Fmat, demoModel, demoEnvC]
    · intro i _
      show (zVal m.dims k el j (demoEnvC c po)).getD 0 0 = 0
      rw [demo_dims hm]
      rfl
  · intro k el _ j _ i _
    unfold RkEq
    rw [demo_rhs, hstart]
    split <;> simp [demoEnvC]
  · intro _ k el _ j _ i _
    unfold LiftEq
    rw [hstart]
    simp [demoEnvC]
  · intro _ k el _ i _
    unfold EndEq
    rw [hstart]
    simp [demoEnvC]
  · intro _ _ k el _
    rw [demo_xEndVal hm]
    exact hsw _ _ _ _ _
  · intro k el _ _
    rw [demo_xVal hm, demo_xEndVal hm, ite_self]
    exact hpath k
  · intro _ k el _ j _
    rw [demo_xVal hm]
    exact hpath k
  · intro k el _ j _ r hr
    rw [demo_xVal hm, hu, hv]
    simp only [stageComps, demoOcp, List.filter_cons, List.filter_nil, if_true, Bool.false_eq_true,
      if_false, List.mem_cons, List.not_mem_nil, or_false] at hr
    subst hr
    apply comp <;> simp
  · intro k el _ _ r hr
    rw [hu, hv]
    simp [ctrlComps, demoOcp] at hr
    subst hr
    apply comp <;> simp
  · intro r hr
    rw [hv]
    simp [globComps, demoOcp] at hr
    subst hr
    apply comp <;> simp <;> norm_num
  · intro _ k el _ j _ q _
    rw [demo_lamAt, demo_thetaAt]
    apply comp <;> simp <;> norm_num
  · intro _ _ k el _ j _ q _
    simp only [demo_lamAt, demo_thetaAt, demo_lamStart]
    refine ⟨?_, fun j' _ => ?_⟩ <;> apply comp <;> simp <;> norm_num
  · intro _ _ k el _ j _ q _
    simp only [demo_lamAt, demo_thetaAt, demo_lamStart]
    apply comp
    · intro x hx
      simp at hx
      rcases hx with ⟨_, rfl⟩ | rfl <;> rfl
    · norm_num
    · left
      intro x hx
      simp at hx
      rcases hx with ⟨_, rfl⟩ | rfl <;> rfl
    · intro _
      constructor
      · rw [List.sum_eq_zero]
        · norm_num
        · intro x hx
          simp at hx
          rcases hx with ⟨_, rfl⟩ | rfl <;> rfl
      · norm_num
  · intro hf _ k el _ _
    rw [demo_hVal po hf, demo_hVal po hf, sub_self, mul_zero]
  · intro hf hd k el _ _
    rw [demo_hVal po hf, demo_hVal po hf, sub_self]
    apply comp
    · simp [demo_nu_nonneg]
    · simp
    · right; rfl
    · exact fun hm => absurd hd (hb hm)
  · intro hf _ k el _ _
    rw [demo_hVal po hf, demo_hVal po hf, sub_self]
    apply comp <;> simp
  · intro hf hq
    rcases hT with hc1 | ⟨_, hq'⟩
    · exact hsum hc1 hf
    · rw [e] at hq; exact absurd hq (by simp [hq'])
  · intro hN1 hf _
    have hc1 : c = 1 := by
      rcases hT with hc1 | ⟨hN', _⟩
      · exact hc1
      · rw [e] at hN1; exact absurd hN1 (by simp [hN'])
    rw [Finset.sum_congr rfl (fun k hk => hsum hc1 hf k (Finset.mem_range.1 hk)), Finset.sum_const,
      Finset.card_range, nsmul_eq_mul]
    field_simp
  · intro t ht hf _ k hk
    simp only [demoModel, Option.some.injEq] at ht
    subst ht
    rw [demo_xEndVal hm, demo_dims hm]
    have hT : po.terminalTime ≤ po.timeFreezingTol := by
      rw [e]; exact h.freeze (by rw [e] at hf; exact hf)
    have hT0 : 0 ≤ po.terminalTime := by rw [e]; exact h.time
    have : po.terminalTime / po.nStages * ((k : ℝ) + 1) ≤ po.terminalTime := by
      rw [div_mul_eq_mul_div, div_le_iff₀ (by positivity)]
      apply mul_le_mul_of_nonneg_left _ hT0
      exact_mod_cast hk
    have h0 : 0 ≤ po.terminalTime / po.nStages * ((k : ℝ) + 1) := by positivity
    simp only [dimsOf, demoModel, List.range_one, List.map_cons, List.map_nil, demoEnvC,
      List.getD_cons_zero, add_zero, zero_sub, abs_neg, abs_of_nonneg h0]
    exact this.trans hT
  · intro i _
    rw [demo_xEndVal hm]
    rfl

/-- The demo problem is constructed and has a feasible point, for all options in `DemoOpts`, with
steps scaled by `c` where the time grid is free. -/
theorem demo_exists_scaled {o : Opts} (h : DemoOpts o) : ∃ po m oc P,
    construct demoColloc o demoModel (some demoOcp) = .ok (po, m, oc, P) ∧
    (∀ c, |c - 1| ≤ o.gammaH → (c = 1 ∨ (o.nStages = 1 ∧ o.equidistant = false)) →
      P.form.Feasible (demoEnvC c po)) ∧ m.dims = dimsOf demoModel [1] [2] ∧
    po.toOpts = { o with maxIterHomotopy := po.maxIterHomotopy, nfeList := o.nfeAfter } := by
  obtain ⟨po, m, oc, P, hc⟩ := demo_construct h.base
  obtain ⟨_, hpo, hm, _⟩ := construct_parts hc
  have hb := construct_built hc (by rw [h.nS]; exact Nat.succ_pos 1)
  have e := hb.opts.toOpts
  refine ⟨po, m, oc, P, hc, fun c hc1 hc2 => ?_, demo_dims hm, e⟩
  rw [master_iff hb (by rw [e]; exact h.exact) (by rw [e]; exact h.bool) demo_alphaOk
    (demo_sound _)]
  exact demo_spec h.base hb.opts hm hc1 hc2 fun k hk => (hb.ok.primal.nfe k hk).2

/-- The demo problem is constructed and has a feasible point, for all options in `DemoOpts`. -/
theorem demo_exists {o : Opts} (h : DemoOpts o) : ∃ po m oc P,
    construct demoColloc o demoModel (some demoOcp) = .ok (po, m, oc, P) ∧
    P.form.Feasible (demoEnv po) ∧ m.dims = dimsOf demoModel [1] [2] ∧
    po.toOpts = { o with maxIterHomotopy := po.maxIterHomotopy, nfeList := o.nfeAfter } := by
  obtain ⟨po, m, oc, P, h1, h2, h3⟩ := demo_exists_scaled h
  exact ⟨po, m, oc, P, h1, h2 1 (by simpa using h.gamma) (.inl rfl), h3⟩

/-- The default options, and variations of them, are covered. -/
theorem demo_default : DemoOpts Opts.default := by
  constructor <;> simp [Opts.default, Opts.nfeAfter]

end Nosnoc
