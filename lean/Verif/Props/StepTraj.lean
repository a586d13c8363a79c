import Verif.Spec.StepTraj
import Verif.Props.Trajectory
/-
C137: the exact solutions of the NLP are the discrete trajectories, in the Step representation.
-/
namespace Nosnoc
open Polynomial

section
variable {colloc : IrkScheme → Nat → List ℝ} {o : Opts} {um : UserModel} {uo : Option UserOcp}
  {po : PreOpts} {m : PreModel} {oc : PreOcp} {P : Problem}

/-- The point of the NLP that belongs to a discrete trajectory. -/
noncomputable def Traj.envStep (T : Traj) (a : Nat → Nat → Nat → Nat → Nat → ℝ) (po : PreOpts) (um : UserModel) :
    Env
  | .x0 i => T.x0 i
  | .u k i => T.u k i
  | .vGlob i => T.v i
  | .pStage k i => T.p k i
  | .sot k => T.speed k
  | .h k e => T.H k e
  | .st1 .v k e j i => T.speed k * T.slope um k e j i
  | .st1 .x k e j i => T.X k e j i
  | .xEnd k e i => T.X k e (po.nS - 1) i
  | .st2 .alpha k e j s i => a k e j s i
  | .st2 .lamN k e j s i => um.lam00Neg (T.stageL um k e j) [] (T.pL um k) s i
  | .st2 .lamP k e j s i => um.lam00Pos (T.stageL um k e j) [] (T.pL um k) s i
  | .lam00 .lamN s i => um.lam00Neg ((List.range um.nX).map T.x0) [] (T.pL um 0) s i
  | .lam00 .lamP s i => um.lam00Pos ((List.range um.nX).map T.x0) [] (T.pL um 0) s i
  | _ => 0

variable {T : Traj} {a : Nat → Nat → Nat → Nat → Nat → ℝ}

theorem pos_sub_neg (c : ℝ) : max c 0 - max (-c) 0 = c := by
  rcases le_total c 0 with h | h
  · rw [max_eq_right h, max_eq_left (by linarith)]; ring
  · rw [max_eq_left h, max_eq_right (by linarith)]; ring

theorem Traj.step_env_end (k e i : Nat) : T.envStep a po um (endX po k e i) = T.X k e (po.nS - 1) i := by
  unfold endX
  split <;> rfl

theorem Traj.step_env_start (k e i : Nat) : T.envStep a po um (startX po k e i) = T.start po k e i := by
  unfold startX Traj.start
  cases prevFe po k e with
  | none => rfl
  | some q => exact Traj.step_env_end _ _ _

theorem Traj.step_env_h (hf : po.useFesd = true) (k e : Nat) : hVal po k e (T.envStep a po um) = T.H k e := by
  unfold hVal; rw [hf]; rfl

theorem Traj.step_env_sot {uo' : UserOcp} (hT : T.Solves colloc um uo' po) {k : Nat}
    (hk : k < po.nStages) : sotVal po k (T.envStep a po um) = T.speed k := by
  unfold sotVal
  split
  · rfl
  · rw [hT.noSpeed ‹_› k hk]; rfl

theorem Traj.step_env_u (h : Setup colloc o um uo po m oc P) (k : Nat) :
    uVal m.dims k (T.envStep a po um) = T.uL um k := by
  unfold uVal Traj.uL; rw [h.dims.2.1]; rfl
theorem Traj.step_env_p (h : Setup colloc o um uo po m oc P) (k : Nat) :
    pVal m.dims k (T.envStep a po um) = T.pL um k := by
  unfold pVal Traj.pL; rw [h.dims.2.2.2.2.1, h.dims.2.2.2.2.2.1]; rfl
theorem Traj.step_env_v (h : Setup colloc o um uo po m oc P) :
    vVal m.dims (T.envStep a po um) = T.vL um := by
  unfold vVal Traj.vL; rw [h.dims.2.2.2.1]; rfl

theorem Traj.step_env_xEnd (h : Setup colloc o um uo po m oc P) (k e : Nat) :
    xEndVal po m.dims k e (T.envStep a po um) = T.stageL um k e (po.nS - 1) := by
  unfold xEndVal Traj.stageL
  rw [h.dims.1]
  exact List.map_congr_left fun i _ => Traj.step_env_end k e i

theorem Traj.step_env_x (h : SetupEx colloc o um uo po m oc P) {uo' : UserOcp} (hT : T.Solves colloc um uo' po)
    (hF : po.useFesd = true) {k e : Nat} (hk : HasFE po k e) {j : Nat} (hj : j < po.nS) :
    xVal po m.dims k e j (T.envStep a po um) = T.stageL um k e j := by
  have dX := h.toSetup.dims.1
  refine list_ext_getD (by rw [length_xVal]; simp [Traj.stageL, dX]) fun i hi => ?_
  rw [length_xVal] at hi
  rw [xVal_get hi]
  have : (T.stageL um k e j).getD i 0 = T.X k e j i := by
    have : i < um.nX := by omega
    simp [Traj.stageL, List.getD_eq_getElem?_getD, this]
  rw [this]
  split
  · rename_i hd
    rw [Traj.step_env_start, Traj.step_env_h hF]
    exact (Traj.inc h hT (by rw [← h.e_irkRep, hd]; decide) hk hj (by omega)).symm
  · rfl

theorem Traj.step_lamStart_eq (hr : po.rbe = true) {k e : Nat} {s i : Nat} :
    lamStart po k e (T.envStep a po um) (.neg s i)
      = um.lam00Neg (T.startL po um k e) [] (T.pL um (prevStage po k e)) s i ∧
    lamStart po k e (T.envStep a po um) (.pos s i)
      = um.lam00Pos (T.startL po um k e) [] (T.pL um (prevStage po k e)) s i := by
  unfold lamStart Traj.startL Traj.start prevStage
  cases hn : prevFe po k e with
  | none => exact ⟨rfl, rfl⟩
  | some q =>
    obtain ⟨k', e'⟩ := q
    simp only
    rw [lastLam_stage (.inl hr)]
    exact ⟨rfl, rfl⟩

theorem Traj.feasibleStep (h : SetupEx colloc o um uo po m oc P) (hp : o.pss = .step) (hF : um.F.isSome = true)
    (hf : o.useFesd = true) (hr : po.rbe = true) (hz0 : um.nZ = 0)
    (hpl : PlainProblem o um (uo.getD UserOcp.trivial))
    (hc : o.irkRep = .integral → CollocOk (colloc o.scheme o.nS) o.nS)
    (hT : T.Solves colloc um (uo.getD UserOcp.trivial) po) (hA : T.StepWeights a um po) :
    FeasibleSpec po m.dims um (uo.getD UserOcp.trivial) (T.envStep a po um) := by
  have hp' := h.e_pss.trans hp
  have hf' := h.e_useFesd.trans hf
  have eS := h.e_nS
  have eR := h.e_irkRep
  have eM := h.e_mpcc
  have hpos := h.nS
  have ho := h.toSetup.built.opts
  obtain ⟨dX, dU, dZ, dV, -, -, dS, -, dC⟩ := h.toSetup.dims
  have dC := dC hp'
  obtain ⟨Fs, hFs⟩ := Option.isSome_iff_exists.1 hF
  have hz : m.dims.nZ = 0 := by rw [dZ, hz0]
  have hnfe := h.toSetup.nfe_pos
  have xv : ∀ {k e j}, HasFE po k e → j < po.nS →
      xVal po m.dims k e j (T.envStep a po um) = T.stageL um k e j := fun hk hj =>
    Traj.step_env_x h hT hf' hk hj
  -- right-hand side
  have rhs : ∀ {k e j}, HasFE po k e → j < po.nS → ∀ i,
      um.stageRhs po m.dims k e j i (T.envStep a po um) = T.slope um k e j i := by
    intro k e j hk hj i
    unfold UserModel.stageRhs
    rw [hp', hFs, xv hk hj, zVal_nil hz, Traj.step_env_u h.toSetup, Traj.step_env_p h.toSetup,
      Traj.step_env_v h.toSetup]
    change um.rhsStep _ _ _ _ _ _ _ = _
    unfold UserModel.rhsStep UserModel.rhsStewart Traj.slope
    refine Finset.sum_congr rfl fun s hs => Finset.sum_congr rfl fun i' hi' => ?_
    rw [hA.weight k e hk j hj s (Finset.mem_range.1 hs) i' (Finset.mem_range.1 hi')]
    rfl
  -- complementarity of the pairs
  have ix : ∀ {s i}, s < m.dims.nSys → i < m.dims.nC s → s < um.nSys ∧ i < (um.cVec s).len := by
    intro s i h1 h2
    have hs : s < um.nSys := by rw [← dS]; exact h1
    exact ⟨hs, by rw [← dC s hs]; exact h2⟩
  have nnT : ∀ {k e j}, HasFE po k e → j < po.nS → ∀ q, IsPair po m.dims q →
      0 ≤ thetaAt k e j (T.envStep a po um) q := by
    intro k e j hk hj q hq
    cases q with
    | region s i => exact absurd (hp'.symm.trans hq.1) (by decide)
    | neg s i => exact (hA.unit k e hk j hj s (ix hq.2.1 hq.2.2).1 i (ix hq.2.1 hq.2.2).2).1
    | pos s i =>
      have := (hA.unit k e hk j hj s (ix hq.2.1 hq.2.2).1 i (ix hq.2.1 hq.2.2).2).2
      change 0 ≤ 1 - a k e j s i
      linarith
  have nnL : ∀ {k e j}, ∀ q, IsPair po m.dims q → 0 ≤ lamAt k e j (T.envStep a po um) q := by
    intro k e j q hq
    cases q with
    | region s i => exact absurd (hp'.symm.trans hq.1) (by decide)
    | neg s i => exact le_max_right _ _
    | pos s i => exact le_max_right _ _
  have nnS : ∀ {k e}, HasFE po k e → ∀ q, IsPair po m.dims q →
      0 ≤ lamStart po k e (T.envStep a po um) q := by
    intro k e hk q hq
    cases q with
    | region s i => exact absurd (hp'.symm.trans hq.1) (by decide)
    | neg s i =>
      rw [(Traj.step_lamStart_eq hr).1]
      exact le_max_right _ _
    | pos s i =>
      rw [(Traj.step_lamStart_eq hr).2]
      exact le_max_right _ _
  have zL : ∀ {k e j j'}, HasFE po k e → j < po.nS → j' < po.nS → ∀ q, IsPair po m.dims q →
      thetaAt k e j (T.envStep a po um) q * lamAt k e j' (T.envStep a po um) q = 0 := by
    intro k e j j' hk hj hj' q hq
    cases q with
    | region s i => exact absurd (hp'.symm.trans hq.1) (by decide)
    | neg s i =>
      obtain ⟨hs, hi⟩ := ix hq.2.1 hq.2.2
      by_cases h0 : a k e j s i = 0
      · exact mul_eq_zero_of_left h0 _
      · have := hA.pos k e hk j hj s hs i hi h0 j' hj'
        exact mul_eq_zero_of_right _ (max_eq_right (by linarith))
    | pos s i =>
      obtain ⟨hs, hi⟩ := ix hq.2.1 hq.2.2
      by_cases h0 : a k e j s i = 1
      · exact mul_eq_zero_of_left (show 1 - a k e j s i = 0 by rw [h0, sub_self]) _
      · exact mul_eq_zero_of_right _ (max_eq_right (hA.neg k e hk j hj s hs i hi h0 j' hj'))
  have zS : ∀ {k e j}, HasFE po k e → j < po.nS → ∀ q, IsPair po m.dims q →
      thetaAt k e j (T.envStep a po um) q * lamStart po k e (T.envStep a po um) q = 0 := by
    intro k e j hk hj q hq
    cases q with
    | region s i => exact absurd (hp'.symm.trans hq.1) (by decide)
    | neg s i =>
      obtain ⟨hs, hi⟩ := ix hq.2.1 hq.2.2
      by_cases h0 : a k e j s i = 0
      · exact mul_eq_zero_of_left h0 _
      · have := hA.posStart k e hk j hj s hs i hi h0
        rw [(Traj.step_lamStart_eq hr).1]
        exact mul_eq_zero_of_right _ (max_eq_right (by linarith))
    | pos s i =>
      obtain ⟨hs, hi⟩ := ix hq.2.1 hq.2.2
      by_cases h0 : a k e j s i = 1
      · exact mul_eq_zero_of_left (show 1 - a k e j s i = 0 by rw [h0, sub_self]) _
      · rw [(Traj.step_lamStart_eq hr).2]
        exact mul_eq_zero_of_right _ (max_eq_right (hA.negStart k e hk j hj s hs i hi h0))
  have comp : ∀ {xs : List ℝ} {y : ℝ}, (∀ x ∈ xs, 0 ≤ x) → 0 ≤ y → (∀ x ∈ xs, x * y = 0) →
      Compl po (T.envStep a po um) xs y := fun hx hy h0 =>
    C31_complete (o := po.toOpts) (by rw [eM]; exact hpl.mode.2) hx hy h0
      fun hbm => absurd (eM.symm.trans hbm) hpl.mode.1
  have dual : ∀ {x : ℝ}, 0 ≤ x → dualLb po.mpcc ≤ ((x : ℝ) : EReal) := by
    intro x hx
    unfold dualLb
    split
    · exact EReal.coe_nonneg.2 hx
    · exact bot_le
  refine { bounds := ?_, alg := ?_, rk := ?_, lift := ?_, cont := ?_,
           boundary := fun h0 => absurd (hr.symm.trans h0) (by decide), pathEnd := ?_, pathStage := ?_,
           stageComp := ?_, ctrlComp := ?_, globComp := ?_,
           compStd := fun h0 => absurd (hf'.symm.trans h0) (by decide), compAll := ?_, compSum := ?_,
           stepDirect := fun _ h0 => absurd (h.e_stepEq.symm.trans h0) hpl.stepEq.1,
           stepDirectComp := fun _ h0 => absurd (h.e_stepEq.symm.trans h0) hpl.stepEq.2.1,
           stepHComp := fun _ h0 => absurd (h.e_stepEq.symm.trans h0) hpl.stepEq.2.2,
           equi := ?_, time := ?_, freeze := ?_, term := ?_ }
  · intro y hy
    cases y with
    | sElastic =>
      obtain ⟨h1, h2⟩ := hpl.slack (by rw [← eM]; exact hy)
      rw [← h.e_sElasticMin] at h1
      rw [← h.e_sElasticMax] at h2
      exact ⟨EReal.coe_le_coe_iff.2 h1, EReal.coe_le_coe_iff.2 h2⟩
    | vGlob i => exact hT.vBox i (by rw [← dV]; exact hy)
    | u k i => exact hT.uBox k hy.1 i (by rw [← dU]; exact hy.2)
    | sot k =>
      obtain ⟨h1, h2⟩ := hT.speedBox hy.1 k hy.2
      exact ⟨EReal.coe_le_coe_iff.2 h1, EReal.coe_le_coe_iff.2 h2⟩
    | h k e =>
      obtain ⟨h1, h2⟩ := hT.box k e hy.2
      exact ⟨EReal.coe_le_coe_iff.2 h1, EReal.coe_le_coe_iff.2 h2⟩
    | st1 f k e j i =>
      cases f with
      | v => exact ⟨bot_le, le_top⟩
      | x => exact hT.xBox k e hy.2.1 j hy.2.2.1 (.inl hy.1) i (by rw [← dX]; exact hy.2.2.2)
      | z => exact absurd hy.2.2 (by rw [hz]; omega)
    | xEnd k e i => exact hT.xBox k e hy.2.1 _ (by omega) (.inr (by omega)) i (by rw [← dX]; exact hy.2.2)
    | st2 f k e j s i =>
      cases f with
      | theta => exact absurd (hp'.symm.trans hy.1) (by decide)
      | lam => exact absurd (hp'.symm.trans hy.1) (by decide)
      | mu => exact absurd (hp'.symm.trans hy.1) (by decide)
      | alpha =>
        obtain ⟨hs, hi⟩ := ix hy.2.2.2.1 hy.2.2.2.2
        obtain ⟨h1, h2⟩ := hA.unit k e hy.2.1 j hy.2.2.1 s hs i hi
        exact ⟨dual h1, (EReal.coe_le_coe_iff.2 h2 : ((a k e j s i : ℝ) : EReal) ≤ ((1 : ℝ) : EReal))⟩
      | lamN => exact ⟨dual (nnL (k := k) (e := e) (j := j) (.neg s i) ⟨hp', hy.2.2.2⟩), le_top⟩
      | lamP => exact ⟨dual (nnL (k := k) (e := e) (j := j) (.pos s i) ⟨hp', hy.2.2.2⟩), le_top⟩
    | _ => exact hy.elim
  · intro k e hk j hj
    refine ⟨?_, fun hst => absurd (hp'.symm.trans hst) (by decide), fun i hi => ?_⟩
    · unfold UserModel.Switching
      rw [hp', xv hk hj, zVal_nil hz, Traj.step_env_p h.toSetup]
      intro s hs i hi
      exact (pos_sub_neg _).symm
    · rw [hpl.noGz] at hi; omega
  · intro k e hk j hj i hi
    unfold RkEq
    rw [rhs hk hj, Traj.step_env_sot hT hk.1]
    split
    · rename_i hint
      have hint' := eR.symm.trans hint
      obtain ⟨_, hC, _, _⟩ := ho.integral hint'
      have hok := hc hint'
      have hlen := hok.length
      obtain ⟨q, hq, q0, qj⟩ := hT.collocation hint k e hk i (by omega)
      rw [h.e_scheme, eS] at qj
      rw [eS, ← hlen] at hq
      have hd := C15_derivative hok.nodup hq (j + 1)
      rw [node_succ, (qj j (by omega)).2] at hd
      rw [Traj.step_env_h hf', ← hd, Finset.sum_range_succ', hlen, hC, eS, add_comm]
      congr 1
      · rw [Traj.step_env_start, node_zero, q0]
      · refine Finset.sum_congr rfl fun r hr => ?_
        congr 1
        rw [node_succ, (qj r (Finset.mem_range.1 hr)).1]
        rfl
    · rfl
  · intro hlx k e hk j hj i hi
    unfold LiftEq
    rw [Traj.step_env_start, Traj.step_env_h hf']
    exact Traj.inc h hT (by rw [← eR, hlx]; decide) hk hj (by omega)
  · intro hown k e hk i hi
    have hd : po.irkRep = .differential := by
      unfold ownEnd at hown; simpa [hr] using hown
    have hni : o.irkRep ≠ .integral := by rw [← eR, hd]; decide
    unfold EndEq
    rw [hd, if_neg (by decide), Traj.step_env_start, Traj.step_env_h hf']
    change T.X k e (po.nS - 1) i = T.start po k e i + ∑ j ∈ Finset.range po.nS,
      T.H k e * po.bIrk j * (T.speed k * T.slope um k e j i)
    rw [Traj.inc h hT hni hk (by omega) (by omega)]
    obtain ⟨t, ht, hA, hbb, -⟩ := ho.diff hni
    rw [(ho.rbe_iff hni).1 hr] at ht
    congr 1
    refine Finset.sum_congr rfl fun j _ => ?_
    rw [hA, matFun_eq, hbb, vecFun_eq, eS, radau_last ht]
  · intro k e hk he
    rw [hr, if_pos rfl, xv hk (by omega)]
    intro i hi
    rw [Traj.step_env_u h.toSetup, Traj.step_env_p h.toSetup, Traj.step_env_v h.toSetup]
    exact hT.path k e hk he i hi
  · intro hst k e hk j hj i hi
    rw [hpl.stage (h.e_gPathAtStg.symm.trans hst)] at hi
    omega
  · intro k e hk j hj r hr
    simp [stageComps, hpl.noComp] at hr
  · intro k e hk _ r hr
    simp [ctrlComps, hpl.noComp] at hr
  · intro r hr
    simp [globComps, hpl.noComp] at hr
  · intro _ _ k e hk j hj q hq
    refine ⟨comp ?_ (nnS hk q hq) ?_, fun j' hj' => comp ?_ (nnL q hq) ?_⟩
    · simpa using nnT hk hj q hq
    · simpa using zS hk hj q hq
    · simpa using nnT hk hj q hq
    · simpa using zL hk hj hj' q hq
  · intro _ _ k e hk j hj q hq
    rw [nLamPts_rbe hr]
    refine comp ?_ (nnT hk hj q hq) ?_
    · intro x hx
      rcases List.mem_append.1 hx with hx | hx
      · obtain ⟨j', hj', rfl⟩ := List.mem_map.1 hx
        exact nnL q hq
      · rw [List.mem_singleton.1 hx]
        exact nnS hk q hq
    · intro x hx
      rw [mul_comm]
      rcases List.mem_append.1 hx with hx | hx
      · obtain ⟨j', hj', rfl⟩ := List.mem_map.1 hx
        exact zL hk hj (List.mem_range.1 hj') q hq
      · rw [List.mem_singleton.1 hx]
        exact zS hk hj q hq
  · intro _ he k hk
    rw [← hT.equi he k hk]
    exact Finset.sum_congr rfl fun e _ => Traj.step_env_h hf' k e
  · intro hN _ he
    rw [← hT.time hN he]
    exact Finset.sum_congr rfl fun k _ => Finset.sum_congr rfl fun e _ => Traj.step_env_h hf' k e
  · intro t _ h0
    exact absurd (h0.symm.trans (h.e_timeFreezing.trans hpl.freeze)) (by decide)
  · intro i hi
    rw [Traj.step_env_xEnd h.toSetup, Traj.step_env_p h.toSetup, Traj.step_env_v h.toSetup]
    exact hT.term i hi


theorem Traj.pointStep (h : SetupEx colloc o um uo po m oc P) (hp : o.pss = .step) (hF : um.F.isSome = true)
    (hf : o.useFesd = true) (hr : po.rbe = true) (hm : ExactMode o)
    (hz0 : um.nZ = 0) (hpl : PlainProblem o um (uo.getD UserOcp.trivial))
    (hc : o.irkRep = .integral → CollocOk (colloc o.scheme o.nS) o.nS)
    (hT : T.Solves colloc um (uo.getD UserOcp.trivial) po) (hA : T.StepWeights a um po) :
    ExactPoint o po m P (T.envStep a po um) ∧ um.InitialMultipliers po m.dims (T.envStep a po um) := by
  have hp' := h.e_pss.trans hp
  obtain ⟨dX, -, -, -, -, -, dS, dF, -⟩ := h.toSetup.dims
  refine ⟨⟨hf, hm, (h.iff hpl.mode.1).2 (Traj.feasibleStep h hp hF hf hr hz0 hpl
    hc hT hA), rfl, fun _ => rfl, fun q hq => ?_⟩, ?_⟩
  · cases q with
    | region s i => exact absurd (hp'.symm.trans hq.1) (by decide)
    | neg s i => exact le_max_right _ _
    | pos s i => exact le_max_right _ _
  · unfold UserModel.InitialMultipliers
    rw [hp']
    intro s hs i hi
    rw [Traj.step_env_p h.toSetup, dX]
    exact (pos_sub_neg _).symm

/-- C137: FESD loses no discrete trajectory in the Step representation.  Every sequence of Runge-Kutta steps of a
switched system in which every step uses, at every stage, the combination of the vector fields with the products
of the values of step functions, a step function being positive only if its switching function is nowhere negative
on the element and below 1 only if it is nowhere positive there, and which fits on the grid and respects bounds,
path and terminal constraints, is a feasible point of the generated NLP with exact complementarity, with these
controls, parameters, step lengths, states and values of the step functions, and with the multipliers of the
initial state that the solver object computes. -/
theorem C137_no_trajectory_lost (h : SetupEx colloc o um uo po m oc P) (hp : o.pss = .step)
    (hF : um.F.isSome = true) (hf : o.useFesd = true) (hr : po.rbe = true) (hm : ExactMode o)
    (hz0 : um.nZ = 0) (hpl : PlainProblem o um (uo.getD UserOcp.trivial))
    (hc : o.irkRep = .integral → CollocOk (colloc o.scheme o.nS) o.nS)
    (hT : T.Solves colloc um (uo.getD UserOcp.trivial) po) (hA : T.StepWeights a um po) :
    ∃ env, ExactPoint o po m P env ∧ um.InitialMultipliers po m.dims env ∧
      (∀ i, env (.x0 i) = T.x0 i) ∧ (∀ k i, env (.u k i) = T.u k i) ∧ (∀ i, env (.vGlob i) = T.v i) ∧
      (∀ k i, env (.pStage k i) = T.p k i) ∧
      (∀ s i, env (.lam00 .lamN s i)
          = um.lam00Neg ((List.range um.nX).map T.x0) [] (T.pL um 0) s i ∧
        env (.lam00 .lamP s i) = um.lam00Pos ((List.range um.nX).map T.x0) [] (T.pL um 0) s i) ∧
      ∀ k e, HasFE po k e → hVal po k e env = T.H k e ∧ sotVal po k env = T.speed k ∧
        xEndVal po m.dims k e env = T.stageL um k e (o.nS - 1) ∧
        ∀ j < o.nS, xVal po m.dims k e j env = T.stageL um k e j ∧
          ∀ s i, env (.st2 .alpha k e j s i) = a k e j s i := by
  obtain ⟨p1, p2⟩ := Traj.pointStep h hp hF hf hr hm hz0 hpl hc hT hA
  have hf' := h.e_useFesd.trans hf
  refine ⟨T.envStep a po um, p1, p2, fun _ => rfl,
    fun _ _ => rfl, fun _ => rfl, fun _ _ => rfl, fun _ _ => ⟨rfl, rfl⟩, fun k e hk =>
    ⟨Traj.step_env_h hf' k e, Traj.step_env_sot hT hk.1, ?_,
      fun j hj => ⟨Traj.step_env_x h hT hf' hk (by rw [h.e_nS]; exact hj), fun _ _ => rfl⟩⟩⟩
  rw [Traj.step_env_xEnd h.toSetup, h.e_nS]

/-! ### The converse -/

variable {env : Env}

/-- The discrete trajectory of a point of the NLP. -/
noncomputable def trajStep (o : Opts) (po : PreOpts) (um : UserModel) (m : PreModel) (env : Env) : Traj :=
  { trajOf po m env with theta := wgt o um env }

theorem trajStep_stageL (h : SetupEx colloc o um uo po m oc P) (k e j : Nat) :
    (trajStep o po um m env).stageL um k e j = xVal po m.dims k e j env := trajOf_stageL h k e j
theorem trajStep_u (h : SetupEx colloc o um uo po m oc P) (k : Nat) :
    (trajStep o po um m env).uL um k = uVal m.dims k env := trajOf_u h k
theorem trajStep_p (h : SetupEx colloc o um uo po m oc P) (k : Nat) :
    (trajStep o po um m env).pL um k = pVal m.dims k env := trajOf_p h k
theorem trajStep_v (h : SetupEx colloc o um uo po m oc P) : (trajStep o po um m env).vL um = vVal m.dims env :=
  trajOf_v h
theorem trajStep_start (h : SetupEx colloc o um uo po m oc P) (hf : P.form.Feasible env) (hr : po.rbe = true)
    {k e : Nat} (hk : HasFE po k e) {i : Nat} (hi : i < um.nX) :
    (trajStep o po um m env).start po k e i = env (startX po k e i) := trajOf_start h hf hr hk hi
theorem trajStep_startL (h : SetupEx colloc o um uo po m oc P) (hf : P.form.Feasible env) (hr : po.rbe = true)
    {k e : Nat} (hk : HasFE po k e) : (trajStep o po um m env).startL po um k e = startVal po m.dims k e env :=
  trajOf_startL h hf hr hk

/-- C137, the converse: every exact solution of the generated NLP in Step mode is a discrete trajectory whose
weights are the products of the values of step functions.  Together with `C137_no_trajectory_lost`: the exact
solutions of the NLP are these discrete trajectories. -/
theorem C137_exact_point_is_trajectory (h : SetupEx colloc o um uo po m oc P) (hp : o.pss = .step)
    (hr : po.rbe = true) (hF : um.F.isSome = true) (hS : SignsOk o um) (hz0 : um.nZ = 0)
    (hc : o.irkRep = .integral → CollocOk (colloc o.scheme o.nS) o.nS)
    (D : ExactPoint o po m P env) (h0 : um.InitialMultipliers po m.dims env) :
    ∃ (T : Traj) (a : Nat → Nat → Nat → Nat → Nat → ℝ), T.Solves colloc um (uo.getD UserOcp.trivial) po ∧
      T.StepWeights a um po ∧
      (∀ i, T.x0 i = env (.x0 i)) ∧ (∀ k i, T.u k i = env (.u k i)) ∧ (∀ i, T.v i = env (.vGlob i)) ∧
      (∀ k i, T.p k i = env (.pStage k i)) ∧
      ∀ k e, HasFE po k e → T.H k e = hVal po k e env ∧ T.speed k = sotVal po k env ∧
        T.stageL um k e (o.nS - 1) = xEndVal po m.dims k e env ∧
        ∀ j < o.nS, T.stageL um k e j = xVal po m.dims k e j env ∧
          ∀ s i, a k e j s i = env (.st2 .alpha k e j s i) := by
  obtain ⟨dX, dU, dZ, dV, dT, dG, dS, -, dC⟩ := h.toSetup.dims
  have hz : m.dims.nZ = 0 := by rw [dZ]; exact hz0
  have hp' := h.e_pss.trans hp
  have hf := D.feas
  have S := h.spec hf
  have eS : po.nS = o.nS := h.e_nS
  have eR : po.irkRep = o.irkRep := h.e_irkRep
  have hn := h.nS
  have dC := dC hp'
  have sw : ∀ {k e j}, HasFE po k e → j < po.nS →
      SwitchAt um po (xVal po m.dims k e j env) (pVal m.dims k env) (lamAt k e j env) := by
    intro k e j hk hj
    have sw := (S.alg k e hk j hj).1
    rw [zVal_nil hz] at sw
    unfold UserModel.Switching at sw
    unfold SwitchAt
    rw [hp'] at sw ⊢
    exact sw
  have hq : ∀ {s n}, s < um.nSys → n < (um.cVec s).len →
      IsPair po m.dims (.neg s n) ∧ IsPair po m.dims (.pos s n) := by
    intro s n hs hi
    have h1 : s < m.dims.nSys := by rw [dS]; exact hs
    have h2 : n < m.dims.nC s := by rw [dC s hs]; exact hi
    exact ⟨⟨hp', h1, h2⟩, ⟨hp', h1, h2⟩⟩
  have sp := fun {k e j q} (hk : HasFE po k e) (hj : j < po.nS) (hq : IsPair po m.dims q) =>
    stage_pairs h D.mode D.feas D.sigma D.slack D.lam00 hk (j := j) (by omega) hq
  have slope : ∀ {k e j} i, HasFE po k e → j < po.nS →
      (trajStep o po um m env).slope um k e j i = um.stageRhs po m.dims k e j i env := by
    intro k e j i hk hj
    rw [(ExactPoint.weights h D hF hS hk (by omega : j < o.nS)).2 i]
    unfold Traj.slope UserModel.rhsStewart
    change (∑ s ∈ Finset.range um.nSys, ∑ i' ∈ Finset.range (um.Fmat s).nCols,
      (um.Fmat s).entry i i' ((trajOf po m env).stageL um k e j) [] ((trajOf po m env).uL um k)
        ((trajOf po m env).pL um k) ((trajOf po m env).vL um) * wgt o um env k e j s i') = _
    rw [trajOf_stageL h, trajOf_u h, trajOf_p h, trajOf_v h, zVal_nil hz]
  have last : ∀ {k e}, HasFE po k e → xVal po m.dims k e (po.nS - 1) env = xEndVal po m.dims k e env := by
    intro k e hk; rw [eS]; exact C16_last_stage_is_end h hf hr hk
  refine ⟨trajStep o po um m env, fun k e j s n => env (.st2 .alpha k e j s n), ?_, ?_, fun _ => rfl, fun _ _ => rfl, fun _ => rfl, fun _ _ => rfl, fun k e hk =>
    ⟨rfl, rfl, ?_, fun j _ => ⟨trajStep_stageL h k e j, fun _ _ => rfl⟩⟩⟩
  · constructor
    · intro hi k e hk i hx
      have hi' := eR.symm.trans hi
      obtain ⟨q, q1, q2, -, q3⟩ := C17_collocation h hf hi' (hc hi') hk i hx
      refine ⟨q, by rw [eS]; exact q1, ?_, fun j hj => ?_⟩
      · rw [q2, startVal_get (by omega), trajStep_start h hf hr hk hx]
      · rw [h.e_scheme, eS, slope i hk hj]
        exact q3 j (by omega)
    · intro hi t ht k e hk i hx j hj
      obtain ⟨t', ht', hs⟩ := C17_runge_kutta h hf (by rw [← eR]; exact hi)
      have : t' = t := by
        rw [h.e_nS, h.e_scheme, ht'] at ht; exact Except.ok.inj ht
      subst this
      have hs := hs k e hk
      rw [trajStep_start h hf hr hk hx, eS]
      have := hs.stage j (by omega) i hx
      rw [startVal_get (by omega)] at this
      refine Eq.trans this ?_
      change _ = _ + hVal po k e env * _
      congr 2
      refine Finset.sum_congr rfl fun r hr' => ?_
      rw [slope i hk (by have := Finset.mem_range.1 hr'; omega)]
      congr 1
      exact hs.slope r (Finset.mem_range.1 hr') i hx
    · intro k e hk j hj s hs
      exact (ExactPoint.weights h D hF hS hk (by omega : j < o.nS)).1 s hs
    · intro k e hk j hj s hs i hi hw j' hj'
      rw [trajStep_stageL h, trajStep_p h]
      refine SwitchAt.closed h hF hS (sw hk hj')
        (fun q hq => (stage_pairs h D.mode D.feas D.sigma D.slack D.lam00 hk (by omega : j' < o.nS) hq).2.1)
        (k := k) (e := e) (j := j) (fun q hq hθ => (D.pair h hk hq (by omega) hθ).1 j' (by omega)) hs hi hw
    · intro k e hk j hj s hs i hi hw
      rw [trajStep_startL h hf hr hk, trajStep_p h]
      refine SwitchAt.closed h hF hS (switch_prev h D.fesd hf hz h0 hk) (fun q hq => D.start_nonneg h hk hq)
        (k := k) (e := e) (j := j) (fun q hq hθ => (D.pair h hk hq (by omega) hθ).2) hs hi hw
    · intro k e hk
      have hu := h.e_useFesd.trans D.fesd
      have hb := S.bounds (.h k e) ⟨hu, hk⟩
      have : (trajStep o po um m env).H k e = env (.h k e) := by
        change hVal po k e env = _
        unfold hVal; rw [hu]; rfl
      rw [this]
      exact ⟨EReal.coe_le_coe_iff.1 hb.1, EReal.coe_le_coe_iff.1 hb.2⟩
    · exact fun he k hk => S.equi (h.e_useFesd.trans D.fesd) he k hk
    · exact fun hN he => S.time hN (h.e_useFesd.trans D.fesd) he
    · intro hs k hk
      change sotVal po k env = 1
      unfold sotVal; rw [if_neg hs]; rfl
    · intro hs k hk
      have hb := S.bounds (.sot k) ⟨hs, hk⟩
      have : (trajStep o po um m env).speed k = env (.sot k) := by
        change sotVal po k env = _
        unfold sotVal; rw [if_pos hs]; rfl
      rw [this]
      exact ⟨EReal.coe_le_coe_iff.1 hb.1, EReal.coe_le_coe_iff.1 hb.2⟩
    · intro k e hk j hj hd i hx
      have hx' : i < m.dims.nX := by omega
      change getOr _ ⊥ i ≤ (((xVal po m.dims k e j env).getD i 0 : ℝ) : EReal) ∧ _
      by_cases hdd : po.irkRep = .differential
      · obtain hj' : j = po.nS - 1 := by
          rcases hd with hd | hd
          · exact absurd hdd hd
          · omega
        change _ ∧ (((xVal po m.dims k e j env).getD i 0 : ℝ) : EReal) ≤ _
        have hown : ownEnd po = true := by simp [ownEnd, hdd]
        rw [hj', last hk, xEndVal_get hx', endX, if_pos hown]
        exact S.bounds (.xEnd k e i) ⟨hown, hk, hx'⟩
      · change _ ∧ (((xVal po m.dims k e j env).getD i 0 : ℝ) : EReal) ≤ _
        rw [xVal_get hx', if_neg hdd]
        exact S.bounds (.st1 .x k e j i) ⟨hdd, hk, hj, hx'⟩
    · exact fun k hk i hi => S.bounds (.u k i) ⟨hk, by rw [dU]; exact hi⟩
    · exact fun i hi => S.bounds (.vGlob i) (show i < m.dims.nV by rw [dV]; exact hi)
    · intro k e hk he i hi
      have := S.pathEnd k e hk he
      rw [hr, if_pos rfl] at this
      rw [trajStep_stageL h, trajStep_u h, trajStep_p h, trajStep_v h]
      exact this i hi
    · intro i hi
      have := S.term i hi
      have hN : 0 < po.nStages := Nat.pos_of_ne_zero h.toSetup.built.ok.primal.stages
      rw [trajStep_stageL h, trajStep_p h, trajStep_v h, last ⟨by omega, by
        have := h.toSetup.nfe_pos (po.nStages - 1) (by omega); omega⟩]
      exact this
  · constructor
    · intro k e hk j hj s hs n hi
      have h1 := (sp (j := j) hk hj (hq hs hi).1).1
      have h2 := (sp (j := j) hk hj (hq hs hi).2).1
      exact ⟨h1, by simp only [thetaAt] at h2; linarith⟩
    · intro k e hk j hj s hs i hi
      change wgt o um env k e j s i = _
      unfold wgt
      rw [hp]
    · intro k e hk j hj s hs n hi ha j' hj'
      have hsw := sw hk hj'
      unfold SwitchAt at hsw
      rw [hp'] at hsw
      rw [trajStep_stageL h, trajStep_p h, hsw s hs n hi,
        (D.pair h hk (hq hs hi).1 (by omega : j < o.nS) ha).1 j' (by omega), sub_zero]
      exact (sp hk hj' (hq hs hi).2).2.1
    · intro k e hk j hj s hs n hi ha j' hj'
      have hsw := sw hk hj'
      unfold SwitchAt at hsw
      rw [hp'] at hsw
      rw [trajStep_stageL h, trajStep_p h, hsw s hs n hi,
        (D.pair h hk (hq hs hi).2 (by omega : j < o.nS) (fun h0 => ha (by
          simp only [thetaAt] at h0; linarith))).1 j' (by omega), zero_sub, neg_nonpos]
      exact (sp hk hj' (hq hs hi).1).2.1
    · intro k e hk j hj s hs n hi ha
      have hsw := switch_prev h D.fesd hf hz h0 hk
      unfold SwitchAt at hsw
      rw [hp'] at hsw
      rw [trajStep_startL h hf hr hk, trajStep_p h, hsw s hs n hi,
        (D.pair h hk (hq hs hi).1 (by omega : j < o.nS) ha).2, sub_zero]
      exact D.start_nonneg h hk (hq hs hi).2
    · intro k e hk j hj s hs n hi ha
      have hsw := switch_prev h D.fesd hf hz h0 hk
      unfold SwitchAt at hsw
      rw [hp'] at hsw
      rw [trajStep_startL h hf hr hk, trajStep_p h, hsw s hs n hi,
        (D.pair h hk (hq hs hi).2 (by omega : j < o.nS) (fun h0 => ha (by
          simp only [thetaAt] at h0; linarith))).2, zero_sub, neg_nonpos]
      exact D.start_nonneg h hk (hq hs hi).1
  · rw [trajStep_stageL h, ← eS, last hk]

end
end Nosnoc
