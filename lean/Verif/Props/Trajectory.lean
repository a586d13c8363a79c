import Verif.Spec.Trajectory
import Verif.Props.Complete
/-
C132: FESD loses no discrete trajectory, for arbitrary vector fields and switching functions.
-/
namespace Nosnoc
open Polynomial

section
variable {colloc : IrkScheme → Nat → List ℝ} {o : Opts} {um : UserModel} {uo : Option UserOcp}
  {po : PreOpts} {m : PreModel} {oc : PreOcp} {P : Problem}

/-- The point of the NLP that belongs to a discrete trajectory. -/
noncomputable def Traj.env (T : Traj) (po : PreOpts) (um : UserModel) : Env
  | .x0 i => T.x0 i
  | .u k i => T.u k i
  | .vGlob i => T.v i
  | .pStage k i => T.p k i
  | .sot k => T.speed k
  | .h k e => T.H k e
  | .st1 .v k e j i => T.speed k * T.slope um k e j i
  | .st1 .x k e j i => T.X k e j i
  | .xEnd k e i => T.X k e (po.nS - 1) i
  | .st2 .theta k e j s i => T.theta k e j s i
  | .st2 .lam k e j s i => um.lam00St (T.stageL um k e j) [] (T.pL um k) s i
  | .st2 .mu k e j s _ =>
      -⨅ i : Fin (um.Fmat s).nCols, um.gVal s i (T.stageL um k e j) [] (T.pL um k)
  | .lam00 .lam s i => um.lam00St ((List.range um.nX).map T.x0) [] (T.pL um 0) s i
  | _ => 0

variable {T : Traj}

theorem Traj.env_end (k e i : Nat) : T.env po um (endX po k e i) = T.X k e (po.nS - 1) i := by
  unfold endX
  split <;> rfl

theorem Traj.env_start (k e i : Nat) : T.env po um (startX po k e i) = T.start po k e i := by
  unfold startX Traj.start
  cases prevFe po k e with
  | none => rfl
  | some q => exact Traj.env_end _ _ _

theorem Traj.env_h (hf : po.useFesd = true) (k e : Nat) : hVal po k e (T.env po um) = T.H k e := by
  unfold hVal; rw [hf]; rfl

theorem Traj.env_sot {uo' : UserOcp} (hT : T.Solves colloc um uo' po) {k : Nat}
    (hk : k < po.nStages) : sotVal po k (T.env po um) = T.speed k := by
  unfold sotVal
  split
  · rfl
  · rw [hT.noSpeed ‹_› k hk]; rfl

theorem Traj.env_u (h : Setup colloc o um uo po m oc P) (k : Nat) :
    uVal m.dims k (T.env po um) = T.uL um k := by
  unfold uVal Traj.uL; rw [h.dims.2.1]; rfl
theorem Traj.env_p (h : Setup colloc o um uo po m oc P) (k : Nat) :
    pVal m.dims k (T.env po um) = T.pL um k := by
  unfold pVal Traj.pL; rw [h.dims.2.2.2.2.1, h.dims.2.2.2.2.2.1]; rfl
theorem Traj.env_v (h : Setup colloc o um uo po m oc P) :
    vVal m.dims (T.env po um) = T.vL um := by
  unfold vVal Traj.vL; rw [h.dims.2.2.2.1]; rfl

theorem Traj.env_xEnd (h : Setup colloc o um uo po m oc P) (k e : Nat) :
    xEndVal po m.dims k e (T.env po um) = T.stageL um k e (po.nS - 1) := by
  unfold xEndVal Traj.stageL
  rw [h.dims.1]
  exact List.map_congr_left fun i _ => Traj.env_end k e i

/-- The increment of a stage. -/
theorem Traj.inc (h : SetupEx colloc o um uo po m oc P) {uo' : UserOcp} (hT : T.Solves colloc um uo' po)
    (hi : o.irkRep ≠ .integral) {k e : Nat} (hk : HasFE po k e) {j : Nat} (hj : j < po.nS) {i : Nat}
    (hx : i < um.nX) :
    T.X k e j i = T.start po k e i
      + ∑ r ∈ Finset.range po.nS, T.H k e * po.aIrk j r * (T.speed k * T.slope um k e r i) := by
  obtain ⟨t, ht, hA, -⟩ := h.toSetup.built.opts.diff hi
  rw [hT.rungeKutta (by rw [h.e_irkRep]; exact hi) t (by rw [h.e_nS, h.e_scheme]; exact ht) k e hk i hx j hj,
    Finset.mul_sum]
  congr 1
  exact Finset.sum_congr rfl fun r _ => by rw [hA, matFun_eq]; ring

theorem Traj.env_x (h : SetupEx colloc o um uo po m oc P) {uo' : UserOcp} (hT : T.Solves colloc um uo' po)
    (hF : po.useFesd = true) {k e : Nat} (hk : HasFE po k e) {j : Nat} (hj : j < po.nS) :
    xVal po m.dims k e j (T.env po um) = T.stageL um k e j := by
  have dX := h.toSetup.dims.1
  refine list_ext_getD (by rw [length_xVal]; simp [Traj.stageL, dX]) fun i hi => ?_
  rw [length_xVal] at hi
  rw [xVal_get hi]
  have : (T.stageL um k e j).getD i 0 = T.X k e j i := by
    have : i < um.nX := by omega
    simp [Traj.stageL, List.getD_eq_getElem?_getD, this]
  rw [this]
  split
  · rename_i hd
    rw [Traj.env_start, Traj.env_h hF]
    exact (Traj.inc h hT (by rw [← h.e_irkRep, hd]; decide) hk hj (by omega)).symm
  · rfl

/-- The multiplier at the beginning of an element is that of the state there, with the parameters of the
control stage it comes from. -/
theorem Traj.lamStart_eq (hr : po.rbe = true) {k e : Nat} {s i : Nat} :
    lamStart po k e (T.env po um) (.region s i)
      = um.lam00St (T.startL po um k e) [] (T.pL um (prevStage po k e)) s i := by
  unfold lamStart Traj.startL Traj.start prevStage
  cases hn : prevFe po k e with
  | none => rfl
  | some q =>
    obtain ⟨k', e'⟩ := q
    simp only
    rw [lastLam_stage (.inl hr)]
    rfl

theorem Traj.feasible (h : SetupEx colloc o um uo po m oc P) (hp : o.pss = .stewart)
    (hf : o.useFesd = true) (hr : po.rbe = true) (hS : SignsOk o um) (hz0 : um.nZ = 0)
    (hpl : PlainProblem o um (uo.getD UserOcp.trivial))
    (hc : o.irkRep = .integral → CollocOk (colloc o.scheme o.nS) o.nS)
    (hT : T.Solves colloc um (uo.getD UserOcp.trivial) po) :
    FeasibleSpec po m.dims um (uo.getD UserOcp.trivial) (T.env po um) := by
  have hp' := h.e_pss.trans hp
  have hf' := h.e_useFesd.trans hf
  have eS := h.e_nS
  have eR := h.e_irkRep
  have eM := h.e_mpcc
  have hpos := h.nS
  have ho := h.toSetup.built.opts
  obtain ⟨dX, dU, dZ, dV, -, -, dS, dF, -⟩ := h.toSetup.dims
  have dF := dF hp'
  have hz : m.dims.nZ = 0 := by rw [dZ, hz0]
  have hnfe := h.toSetup.nfe_pos
  have xv : ∀ {k e j}, HasFE po k e → j < po.nS →
      xVal po m.dims k e j (T.env po um) = T.stageL um k e j := fun hk hj =>
    Traj.env_x h hT hf' hk hj
  -- right-hand side
  have rhs : ∀ {k e j}, HasFE po k e → j < po.nS → ∀ i,
      um.stageRhs po m.dims k e j i (T.env po um) = T.slope um k e j i := by
    intro k e j hk hj i
    unfold UserModel.stageRhs
    rw [hp', xv hk hj, zVal_nil hz, Traj.env_u h.toSetup, Traj.env_p h.toSetup, Traj.env_v h.toSetup]
    unfold UserModel.rhsStewart Traj.slope
    exact Finset.sum_congr rfl fun s hs => Finset.sum_congr rfl fun i' _ => rfl
  -- complementarity of the pairs
  have nnT : ∀ {k e j}, HasFE po k e → j < po.nS → ∀ q, IsPair po m.dims q →
      0 ≤ thetaAt k e j (T.env po um) q := by
    intro k e j hk hj q hq
    cases q with
    | region s i => exact ((hT.convex k e hk j hj s (by rw [← dS]; exact hq.2.1)).1 i (by
        rw [← dF s (by rw [← dS]; exact hq.2.1)]; exact hq.2.2))
    | neg s i => exact absurd (hp'.symm.trans hq.1) (by decide)
    | pos s i => exact absurd (hp'.symm.trans hq.1) (by decide)
  have nnL : ∀ {k e j}, ∀ q, IsPair po m.dims q → 0 ≤ lamAt k e j (T.env po um) q := by
    intro k e j q hq
    cases q with
    | region s i => exact lam00St_pos um _ _ (by
        rw [← dF s (by rw [← dS]; exact hq.2.1)]; exact hq.2.2)
    | neg s i => exact absurd (hp'.symm.trans hq.1) (by decide)
    | pos s i => exact absurd (hp'.symm.trans hq.1) (by decide)
  have nnS : ∀ {k e}, HasFE po k e → ∀ q, IsPair po m.dims q →
      0 ≤ lamStart po k e (T.env po um) q := by
    intro k e hk q hq
    cases q with
    | region s i =>
      rw [Traj.lamStart_eq hr]
      exact lam00St_pos um _ _ (by rw [← dF s (by rw [← dS]; exact hq.2.1)]; exact hq.2.2)
    | neg s i => exact absurd (hp'.symm.trans hq.1) (by decide)
    | pos s i => exact absurd (hp'.symm.trans hq.1) (by decide)
  have zL : ∀ {k e j j'}, HasFE po k e → j < po.nS → j' < po.nS → ∀ q, IsPair po m.dims q →
      thetaAt k e j (T.env po um) q * lamAt k e j' (T.env po um) q = 0 := by
    intro k e j j' hk hj hj' q hq
    cases q with
    | region s i =>
      have hs : s < um.nSys := by rw [← dS]; exact hq.2.1
      have hi : i < (um.Fmat s).nCols := by rw [← dF s hs]; exact hq.2.2
      by_cases h0 : T.theta k e j s i = 0
      · exact mul_eq_zero_of_left h0 _
      · exact mul_eq_zero_of_right _ (Path.lam_zero h hp hS hs hi
          (hT.closed k e hk j hj s hs i hi h0 j' hj'))
    | neg s i => exact absurd (hp'.symm.trans hq.1) (by decide)
    | pos s i => exact absurd (hp'.symm.trans hq.1) (by decide)
  have zS : ∀ {k e j}, HasFE po k e → j < po.nS → ∀ q, IsPair po m.dims q →
      thetaAt k e j (T.env po um) q * lamStart po k e (T.env po um) q = 0 := by
    intro k e j hk hj q hq
    cases q with
    | region s i =>
      have hs : s < um.nSys := by rw [← dS]; exact hq.2.1
      have hi : i < (um.Fmat s).nCols := by rw [← dF s hs]; exact hq.2.2
      by_cases h0 : T.theta k e j s i = 0
      · exact mul_eq_zero_of_left h0 _
      · rw [Traj.lamStart_eq hr]
        exact mul_eq_zero_of_right _ (Path.lam_zero h hp hS hs hi
          (hT.closedStart k e hk j hj s hs i hi h0))
    | neg s i => exact absurd (hp'.symm.trans hq.1) (by decide)
    | pos s i => exact absurd (hp'.symm.trans hq.1) (by decide)
  have comp : ∀ {xs : List ℝ} {y : ℝ}, (∀ x ∈ xs, 0 ≤ x) → 0 ≤ y → (∀ x ∈ xs, x * y = 0) →
      Compl po (T.env po um) xs y := fun hx hy h0 =>
    C31_complete (o := po.toOpts) (by rw [eM]; exact hpl.mode.2) hx hy h0
      fun hbm => absurd (eM.symm.trans hbm) hpl.mode.1
  have dual : ∀ {x : ℝ}, 0 ≤ x → dualLb po.mpcc ≤ ((x : ℝ) : EReal) := by
    intro x hx
    unfold dualLb
    split
    · exact EReal.coe_nonneg.2 hx
    · exact bot_le
  refine { bounds := ?_, alg := ?_, rk := ?_, lift := ?_, cont := ?_,
           boundary := fun h0 => absurd (hr.symm.trans h0) (by decide), pathEnd := ?_, pathStage := ?_,
           stageComp := ?_, ctrlComp := ?_, globComp := ?_,
           compStd := fun h0 => absurd (hf'.symm.trans h0) (by decide), compAll := ?_, compSum := ?_,
           stepDirect := fun _ h0 => absurd (h.e_stepEq.symm.trans h0) hpl.stepEq.1,
           stepDirectComp := fun _ h0 => absurd (h.e_stepEq.symm.trans h0) hpl.stepEq.2.1,
           stepHComp := fun _ h0 => absurd (h.e_stepEq.symm.trans h0) hpl.stepEq.2.2,
           equi := ?_, time := ?_, freeze := ?_, term := ?_ }
  · intro y hy
    cases y with
    | sElastic =>
      obtain ⟨h1, h2⟩ := hpl.slack (by rw [← eM]; exact hy)
      rw [← h.e_sElasticMin] at h1
      rw [← h.e_sElasticMax] at h2
      exact ⟨EReal.coe_le_coe_iff.2 h1, EReal.coe_le_coe_iff.2 h2⟩
    | vGlob i => exact hT.vBox i (by rw [← dV]; exact hy)
    | u k i => exact hT.uBox k hy.1 i (by rw [← dU]; exact hy.2)
    | sot k =>
      obtain ⟨h1, h2⟩ := hT.speedBox hy.1 k hy.2
      exact ⟨EReal.coe_le_coe_iff.2 h1, EReal.coe_le_coe_iff.2 h2⟩
    | h k e =>
      obtain ⟨h1, h2⟩ := hT.box k e hy.2
      exact ⟨EReal.coe_le_coe_iff.2 h1, EReal.coe_le_coe_iff.2 h2⟩
    | st1 f k e j i =>
      cases f with
      | v => exact ⟨bot_le, le_top⟩
      | x => exact hT.xBox k e hy.2.1 j hy.2.2.1 (.inl hy.1) i (by rw [← dX]; exact hy.2.2.2)
      | z => exact absurd hy.2.2 (by rw [hz]; omega)
    | xEnd k e i => exact hT.xBox k e hy.2.1 _ (by omega) (.inr (by omega)) i (by rw [← dX]; exact hy.2.2)
    | st2 f k e j s i =>
      cases f with
      | theta =>
        exact ⟨dual (nnT hy.2.1 hy.2.2.1 (.region s i) ⟨hp', hy.2.2.2⟩), le_top⟩
      | lam => exact ⟨dual (nnL (k := k) (e := e) (j := j) (.region s i) ⟨hp', hy.2.2.2⟩), le_top⟩
      | mu => exact ⟨bot_le, le_top⟩
      | alpha => exact absurd (hp'.symm.trans hy.1) (by decide)
      | lamN => exact absurd (hp'.symm.trans hy.1) (by decide)
      | lamP => exact absurd (hp'.symm.trans hy.1) (by decide)
    | _ => exact hy.elim
  · intro k e hk j hj
    refine ⟨?_, fun _ s hs => (hT.convex k e hk j hj s hs).2, fun i hi => ?_⟩
    · unfold UserModel.Switching
      rw [hp', xv hk hj, zVal_nil hz, Traj.env_p h.toSetup]
      intro s hs i hi
      change _ = um.lam00St _ _ _ _ _ - -_
      unfold UserModel.lam00St
      ring
    · rw [hpl.noGz] at hi; omega
  · intro k e hk j hj i hi
    unfold RkEq
    rw [rhs hk hj, Traj.env_sot hT hk.1]
    split
    · rename_i hint
      have hint' := eR.symm.trans hint
      obtain ⟨_, hC, _, _⟩ := ho.integral hint'
      have hok := hc hint'
      have hlen := hok.length
      obtain ⟨q, hq, q0, qj⟩ := hT.collocation hint k e hk i (by omega)
      rw [h.e_scheme, eS] at qj
      rw [eS, ← hlen] at hq
      have hd := C15_derivative hok.nodup hq (j + 1)
      rw [node_succ, (qj j (by omega)).2] at hd
      rw [Traj.env_h hf', ← hd, Finset.sum_range_succ', hlen, hC, eS, add_comm]
      congr 1
      · rw [Traj.env_start, node_zero, q0]
      · refine Finset.sum_congr rfl fun r hr => ?_
        congr 1
        rw [node_succ, (qj r (Finset.mem_range.1 hr)).1]
        rfl
    · rfl
  · intro hlx k e hk j hj i hi
    unfold LiftEq
    rw [Traj.env_start, Traj.env_h hf']
    exact Traj.inc h hT (by rw [← eR, hlx]; decide) hk hj (by omega)
  · intro hown k e hk i hi
    have hd : po.irkRep = .differential := by
      unfold ownEnd at hown; simpa [hr] using hown
    have hni : o.irkRep ≠ .integral := by rw [← eR, hd]; decide
    unfold EndEq
    rw [hd, if_neg (by decide), Traj.env_start, Traj.env_h hf']
    change T.X k e (po.nS - 1) i = T.start po k e i + ∑ j ∈ Finset.range po.nS,
      T.H k e * po.bIrk j * (T.speed k * T.slope um k e j i)
    rw [Traj.inc h hT hni hk (by omega) (by omega)]
    obtain ⟨t, ht, hA, hbb, -⟩ := ho.diff hni
    rw [(ho.rbe_iff hni).1 hr] at ht
    congr 1
    refine Finset.sum_congr rfl fun j _ => ?_
    rw [hA, matFun_eq, hbb, vecFun_eq, eS, radau_last ht]
  · intro k e hk he
    rw [hr, if_pos rfl, xv hk (by omega)]
    intro i hi
    rw [Traj.env_u h.toSetup, Traj.env_p h.toSetup, Traj.env_v h.toSetup]
    exact hT.path k e hk he i hi
  · intro hst k e hk j hj i hi
    rw [hpl.stage (h.e_gPathAtStg.symm.trans hst)] at hi
    omega
  · intro k e hk j hj r hr
    simp [stageComps, hpl.noComp] at hr
  · intro k e hk _ r hr
    simp [ctrlComps, hpl.noComp] at hr
  · intro r hr
    simp [globComps, hpl.noComp] at hr
  · intro _ _ k e hk j hj q hq
    refine ⟨comp ?_ (nnS hk q hq) ?_, fun j' hj' => comp ?_ (nnL q hq) ?_⟩
    · simpa using nnT hk hj q hq
    · simpa using zS hk hj q hq
    · simpa using nnT hk hj q hq
    · simpa using zL hk hj hj' q hq
  · intro _ _ k e hk j hj q hq
    rw [nLamPts_rbe hr]
    refine comp ?_ (nnT hk hj q hq) ?_
    · intro x hx
      rcases List.mem_append.1 hx with hx | hx
      · obtain ⟨j', hj', rfl⟩ := List.mem_map.1 hx
        exact nnL q hq
      · rw [List.mem_singleton.1 hx]
        exact nnS hk q hq
    · intro x hx
      rw [mul_comm]
      rcases List.mem_append.1 hx with hx | hx
      · obtain ⟨j', hj', rfl⟩ := List.mem_map.1 hx
        exact zL hk hj (List.mem_range.1 hj') q hq
      · rw [List.mem_singleton.1 hx]
        exact zS hk hj q hq
  · intro _ he k hk
    rw [← hT.equi he k hk]
    exact Finset.sum_congr rfl fun e _ => Traj.env_h hf' k e
  · intro hN _ he
    rw [← hT.time hN he]
    exact Finset.sum_congr rfl fun k _ => Finset.sum_congr rfl fun e _ => Traj.env_h hf' k e
  · intro t _ h0
    exact absurd (h0.symm.trans (h.e_timeFreezing.trans hpl.freeze)) (by decide)
  · intro i hi
    rw [Traj.env_xEnd h.toSetup, Traj.env_p h.toSetup, Traj.env_v h.toSetup]
    exact hT.term i hi


/-- The point of a discrete trajectory solves the problem exactly. -/
theorem Traj.point (h : SetupEx colloc o um uo po m oc P) (hp : o.pss = .stewart)
    (hf : o.useFesd = true) (hr : po.rbe = true) (hm : ExactMode o) (hS : SignsOk o um)
    (hz0 : um.nZ = 0) (hpl : PlainProblem o um (uo.getD UserOcp.trivial))
    (hc : o.irkRep = .integral → CollocOk (colloc o.scheme o.nS) o.nS)
    (hT : T.Solves colloc um (uo.getD UserOcp.trivial) po) :
    ExactPoint o po m P (T.env po um) ∧ um.InitialMultipliers po m.dims (T.env po um) := by
  have hp' := h.e_pss.trans hp
  obtain ⟨dX, -, -, -, -, -, dS, dF, -⟩ := h.toSetup.dims
  refine ⟨⟨hf, hm, (h.iff hpl.mode.1).2 (Traj.feasible h hp hf hr hS hz0 hpl
    hc hT), rfl, fun _ => rfl, fun q hq => ?_⟩, ?_⟩
  · cases q with
    | region s i => exact lam00St_pos um _ _ (by
        rw [← dF hp' s (by rw [← dS]; exact hq.2.1)]; exact hq.2.2)
    | neg s i => exact absurd (hp'.symm.trans hq.1) (by decide)
    | pos s i => exact absurd (hp'.symm.trans hq.1) (by decide)
  · unfold UserModel.InitialMultipliers
    rw [hp']
    intro s hs
    refine ⟨-⨅ i : Fin (um.Fmat s).nCols, um.gVal s i ((List.range um.nX).map T.x0) [] (T.pL um 0),
      fun i hi => ?_⟩
    rw [Traj.env_p h.toSetup, dX]
    change um.gVal s i ((List.range um.nX).map T.x0) [] (T.pL um 0) = um.lam00St _ _ _ _ _ - -_
    unfold UserModel.lam00St
    ring

/-- C132: FESD loses no discrete trajectory.  Every sequence of Runge-Kutta steps of a switched system (with
arbitrary vector fields and switching functions) in which every step uses, at every stage, a convex combination of
the vector fields of regions to whose closure all its points belong, which fits on the grid and respects bounds,
path and terminal constraints, is a feasible point of the generated NLP with exact complementarity, with these
controls, parameters, step lengths, states and weights, and with the multipliers of the initial state that the
solver object computes. -/
theorem C132_no_trajectory_lost (h : SetupEx colloc o um uo po m oc P) (hp : o.pss = .stewart)
    (hf : o.useFesd = true) (hr : po.rbe = true) (hm : ExactMode o) (hS : SignsOk o um)
    (hz0 : um.nZ = 0) (hpl : PlainProblem o um (uo.getD UserOcp.trivial))
    (hc : o.irkRep = .integral → CollocOk (colloc o.scheme o.nS) o.nS)
    (hT : T.Solves colloc um (uo.getD UserOcp.trivial) po) :
    ∃ env, ExactPoint o po m P env ∧ um.InitialMultipliers po m.dims env ∧
      (∀ i, env (.x0 i) = T.x0 i) ∧ (∀ k i, env (.u k i) = T.u k i) ∧ (∀ i, env (.vGlob i) = T.v i) ∧
      (∀ k i, env (.pStage k i) = T.p k i) ∧
      (∀ s i, env (.lam00 .lam s i)
        = um.lam00St ((List.range um.nX).map T.x0) [] (T.pL um 0) s i) ∧
      ∀ k e, HasFE po k e → hVal po k e env = T.H k e ∧ sotVal po k env = T.speed k ∧
        xEndVal po m.dims k e env = T.stageL um k e (o.nS - 1) ∧
        ∀ j < o.nS, xVal po m.dims k e j env = T.stageL um k e j ∧
          ∀ s i, env (.st2 .theta k e j s i) = T.theta k e j s i := by
  obtain ⟨p1, p2⟩ := Traj.point h hp hf hr hm hS hz0 hpl hc hT
  have hf' := h.e_useFesd.trans hf
  refine ⟨T.env po um, p1, p2, fun _ => rfl,
    fun _ _ => rfl, fun _ => rfl, fun _ _ => rfl, fun _ _ => rfl, fun k e hk =>
    ⟨Traj.env_h hf' k e, Traj.env_sot hT hk.1, ?_,
      fun j hj => ⟨Traj.env_x h hT hf' hk (by rw [h.e_nS]; exact hj), fun _ _ => rfl⟩⟩⟩
  rw [Traj.env_xEnd h.toSetup, h.e_nS]

/-! ### The converse -/

variable {env : Env}

/-- The discrete trajectory of a point of the NLP. -/
noncomputable def trajOf (po : PreOpts) (m : PreModel) (env : Env) : Traj where
  x0 i := env (.x0 i)
  u k i := env (.u k i)
  v i := env (.vGlob i)
  p k i := env (.pStage k i)
  speed k := sotVal po k env
  H k e := hVal po k e env
  X k e j i := (xVal po m.dims k e j env).getD i 0
  theta k e j s i := env (.st2 .theta k e j s i)

theorem trajOf_stageL (h : SetupEx colloc o um uo po m oc P) (k e j : Nat) :
    (trajOf po m env).stageL um k e j = xVal po m.dims k e j env := by
  have dX := h.toSetup.dims.1
  refine list_ext_getD (by rw [length_xVal]; simp [Traj.stageL, dX]) fun i hi => ?_
  have : i < um.nX := by simpa [Traj.stageL] using hi
  simp [Traj.stageL, List.getD_eq_getElem?_getD, this, trajOf]

theorem trajOf_u (h : SetupEx colloc o um uo po m oc P) (k : Nat) :
    (trajOf po m env).uL um k = uVal m.dims k env := by
  unfold uVal Traj.uL; rw [h.toSetup.dims.2.1]; rfl
theorem trajOf_p (h : SetupEx colloc o um uo po m oc P) (k : Nat) :
    (trajOf po m env).pL um k = pVal m.dims k env := by
  unfold pVal Traj.pL; rw [h.toSetup.dims.2.2.2.2.1, h.toSetup.dims.2.2.2.2.2.1]; rfl
theorem trajOf_v (h : SetupEx colloc o um uo po m oc P) : (trajOf po m env).vL um = vVal m.dims env := by
  unfold vVal Traj.vL; rw [h.toSetup.dims.2.2.2.1]; rfl

theorem trajOf_start (h : SetupEx colloc o um uo po m oc P) (hf : P.form.Feasible env) (hr : po.rbe = true)
    {k e : Nat} (hk : HasFE po k e) {i : Nat} (hi : i < um.nX) :
    (trajOf po m env).start po k e i = env (startX po k e i) := by
  unfold Traj.start startX
  cases hn : prevFe po k e with
  | none => rfl
  | some q =>
    obtain ⟨k', e'⟩ := q
    change (xVal po m.dims k' e' (po.nS - 1) env).getD i 0 = _
    rw [h.e_nS, C16_last_stage_is_end h hf hr (prev_hasFE h.toSetup hk hn),
      xEndVal_get (by rw [h.toSetup.dims.1]; exact hi)]

theorem trajOf_startL (h : SetupEx colloc o um uo po m oc P) (hf : P.form.Feasible env) (hr : po.rbe = true)
    {k e : Nat} (hk : HasFE po k e) : (trajOf po m env).startL po um k e = startVal po m.dims k e env := by
  have dX := h.toSetup.dims.1
  have hl : (startVal po m.dims k e env).length = m.dims.nX := by
    unfold startVal xEndVal; split_ifs <;> simp
  refine list_ext_getD (by rw [hl]; simp [Traj.startL, dX]) fun i hi => ?_
  have hi' : i < um.nX := by simpa [Traj.startL] using hi
  rw [startVal_get (by omega), ← trajOf_start h hf hr hk hi']
  simp [Traj.startL, List.getD_eq_getElem?_getD, hi']

/-- The multipliers at the beginning of an element solve the switching equations with the parameters of the
control stage that the beginning comes from. -/
theorem switch_prev (h : SetupEx colloc o um uo po m oc P) (hu : o.useFesd = true)
    (hf : P.form.Feasible env)
    (hz : m.dims.nZ = 0) (h0 : um.InitialMultipliers po m.dims env) {k e : Nat} (hk : HasFE po k e) :
    SwitchAt um po (startVal po m.dims k e env) (pVal m.dims (prevStage po k e) env)
      (lamStart po k e env) := by
  cases hn : prevFe po k e with
  | none =>
    have : lamStart po k e env = lam00At env := by
      funext q; unfold lamStart; rw [hn]
    have h1 : prevStage po k e = 0 := by unfold prevStage; rw [hn]
    rw [startVal_first hn, this, h1]
    unfold UserModel.InitialMultipliers at h0
    unfold SwitchAt
    cases hp : po.pss with
    | stewart => rw [hp] at h0; exact h0
    | step => rw [hp] at h0; exact h0
  | some q =>
    obtain ⟨k', e'⟩ := q
    have : lamStart po k e env = lamAt k' e' (lastLam po k' e') env := by
      funext q; unfold lamStart; rw [hn]
    have h1 : prevStage po k e = k' := by unfold prevStage; rw [hn]
    rw [startVal_prev hn, this, h1]
    exact switch_end h hu hf hz (prev_hasFE h.toSetup hk hn)

theorem trajOf_slope (h : SetupEx colloc o um uo po m oc P) (hp : o.pss = .stewart) (hz : m.dims.nZ = 0)
    (k e j i : Nat) :
    (trajOf po m env).slope um k e j i = um.stageRhs po m.dims k e j i env := by
  unfold Traj.slope UserModel.stageRhs
  rw [h.e_pss, hp, trajOf_stageL h, trajOf_u h, trajOf_p h, trajOf_v h, zVal_nil hz]
  rfl

/-- C132, the converse: every exact solution of the generated NLP is a discrete trajectory.  At a feasible point
with exact complementarity, the states at the Runge-Kutta points, the step lengths and the weights are a sequence
of steps of the chosen Runge-Kutta scheme, each of which uses at every stage a convex combination of the vector
fields of regions to whose closure all its points belong, and respect grid, bounds, path and terminal
constraints.  Together with `C132_no_trajectory_lost`: the exact solutions of the NLP are the discrete
trajectories. -/
theorem C132_exact_point_is_trajectory (h : SetupEx colloc o um uo po m oc P) (hp : o.pss = .stewart)
    (hr : po.rbe = true) (hF : um.F.isSome = true) (hS : SignsOk o um) (hz0 : um.nZ = 0)
    (hc : o.irkRep = .integral → CollocOk (colloc o.scheme o.nS) o.nS)
    (D : ExactPoint o po m P env) (h0 : um.InitialMultipliers po m.dims env) :
    ∃ T : Traj, T.Solves colloc um (uo.getD UserOcp.trivial) po ∧
      (∀ i, T.x0 i = env (.x0 i)) ∧ (∀ k i, T.u k i = env (.u k i)) ∧ (∀ i, T.v i = env (.vGlob i)) ∧
      (∀ k i, T.p k i = env (.pStage k i)) ∧
      ∀ k e, HasFE po k e → T.H k e = hVal po k e env ∧ T.speed k = sotVal po k env ∧
        T.stageL um k e (o.nS - 1) = xEndVal po m.dims k e env ∧
        ∀ j < o.nS, T.stageL um k e j = xVal po m.dims k e j env ∧
          ∀ s i, T.theta k e j s i = env (.st2 .theta k e j s i) := by
  obtain ⟨dX, dU, dZ, dV, dT, dG, dS, dFF, -⟩ := h.toSetup.dims
  have hz : m.dims.nZ = 0 := by rw [dZ]; exact hz0
  have hp' := h.e_pss.trans hp
  have hf := D.feas
  have S := h.spec hf
  have eS : po.nS = o.nS := h.e_nS
  have eR : po.irkRep = o.irkRep := h.e_irkRep
  have hn := h.nS
  have last : ∀ {k e}, HasFE po k e → xVal po m.dims k e (po.nS - 1) env = xEndVal po m.dims k e env := by
    intro k e hk; rw [eS]; exact C16_last_stage_is_end h hf hr hk
  refine ⟨trajOf po m env, ?_, fun _ => rfl, fun _ _ => rfl, fun _ => rfl, fun _ _ => rfl, fun k e hk =>
    ⟨rfl, rfl, ?_, fun j _ => ⟨trajOf_stageL h k e j, fun _ _ => rfl⟩⟩⟩
  · constructor
    · intro hi k e hk i hx
      have hi' := eR.symm.trans hi
      obtain ⟨q, q1, q2, -, q3⟩ := C17_collocation h hf hi' (hc hi') hk i hx
      refine ⟨q, by rw [eS]; exact q1, ?_, fun j hj => ?_⟩
      · rw [q2, startVal_get (by omega), trajOf_start h hf hr hk hx]
      · rw [h.e_scheme, eS, trajOf_slope h hp hz]
        exact q3 j (by omega)
    · intro hi t ht k e hk i hx j hj
      obtain ⟨t', ht', hs⟩ := C17_runge_kutta h hf (by rw [← eR]; exact hi)
      have : t' = t := by
        rw [h.e_nS, h.e_scheme, ht'] at ht; exact Except.ok.inj ht
      subst this
      have hs := hs k e hk
      rw [trajOf_start h hf hr hk hx, eS]
      have := hs.stage j (by omega) i hx
      rw [startVal_get (by omega)] at this
      refine Eq.trans this ?_
      change _ = _ + hVal po k e env * _
      congr 2
      refine Finset.sum_congr rfl fun r hr' => ?_
      rw [trajOf_slope h hp hz]
      congr 1
      exact hs.slope r (Finset.mem_range.1 hr') i hx
    · intro k e hk j hj s hs
      have := (ExactPoint.weights h D hF hS hk (by omega : j < o.nS)).1 s hs
      unfold wgt at this
      rw [hp] at this
      exact this
    · intro k e hk j hj s hs i hi hw j' hj'
      rw [trajOf_stageL h, trajOf_p h]
      have sw := (S.alg k e hk j' hj').1
      have sw' : SwitchAt um po (xVal po m.dims k e j' env) (pVal m.dims k env) (lamAt k e j' env) := by
        rw [zVal_nil hz] at sw
        unfold UserModel.Switching at sw
        unfold SwitchAt
        rw [hp'] at sw ⊢
        exact fun s hs => ⟨_, fun i hi => sw s hs i hi⟩
      refine SwitchAt.closed h hF hS sw'
        (fun q hq => (stage_pairs h D.mode D.feas D.sigma D.slack D.lam00 hk (by omega : j' < o.nS) hq).2.1)
        (k := k) (e := e) (j := j) (fun q hq hθ => (D.pair h hk hq (by omega) hθ).1 j' (by omega)) hs hi ?_
      unfold wgt
      rw [hp]
      exact hw
    · intro k e hk j hj s hs i hi hw
      rw [trajOf_startL h hf hr hk, trajOf_p h]
      refine SwitchAt.closed h hF hS (switch_prev h D.fesd hf hz h0 hk) (fun q hq => D.start_nonneg h hk hq)
        (k := k) (e := e) (j := j) (fun q hq hθ => (D.pair h hk hq (by omega) hθ).2) hs hi ?_
      unfold wgt
      rw [hp]
      exact hw
    · intro k e hk
      have hu := h.e_useFesd.trans D.fesd
      have hb := S.bounds (.h k e) ⟨hu, hk⟩
      have : (trajOf po m env).H k e = env (.h k e) := by
        change hVal po k e env = _
        unfold hVal; rw [hu]; rfl
      rw [this]
      exact ⟨EReal.coe_le_coe_iff.1 hb.1, EReal.coe_le_coe_iff.1 hb.2⟩
    · exact fun he k hk => S.equi (h.e_useFesd.trans D.fesd) he k hk
    · exact fun hN he => S.time hN (h.e_useFesd.trans D.fesd) he
    · intro hs k hk
      change sotVal po k env = 1
      unfold sotVal; rw [if_neg hs]; rfl
    · intro hs k hk
      have hb := S.bounds (.sot k) ⟨hs, hk⟩
      have : (trajOf po m env).speed k = env (.sot k) := by
        change sotVal po k env = _
        unfold sotVal; rw [if_pos hs]; rfl
      rw [this]
      exact ⟨EReal.coe_le_coe_iff.1 hb.1, EReal.coe_le_coe_iff.1 hb.2⟩
    · intro k e hk j hj hd i hx
      have hx' : i < m.dims.nX := by omega
      change getOr _ ⊥ i ≤ (((xVal po m.dims k e j env).getD i 0 : ℝ) : EReal) ∧ _
      by_cases hdd : po.irkRep = .differential
      · obtain hj' : j = po.nS - 1 := by
          rcases hd with hd | hd
          · exact absurd hdd hd
          · omega
        change _ ∧ (((xVal po m.dims k e j env).getD i 0 : ℝ) : EReal) ≤ _
        have hown : ownEnd po = true := by simp [ownEnd, hdd]
        rw [hj', last hk, xEndVal_get hx', endX, if_pos hown]
        exact S.bounds (.xEnd k e i) ⟨hown, hk, hx'⟩
      · change _ ∧ (((xVal po m.dims k e j env).getD i 0 : ℝ) : EReal) ≤ _
        rw [xVal_get hx', if_neg hdd]
        exact S.bounds (.st1 .x k e j i) ⟨hdd, hk, hj, hx'⟩
    · exact fun k hk i hi => S.bounds (.u k i) ⟨hk, by rw [dU]; exact hi⟩
    · exact fun i hi => S.bounds (.vGlob i) (show i < m.dims.nV by rw [dV]; exact hi)
    · intro k e hk he i hi
      have := S.pathEnd k e hk he
      rw [hr, if_pos rfl] at this
      rw [trajOf_stageL h, trajOf_u h, trajOf_p h, trajOf_v h]
      exact this i hi
    · intro i hi
      have := S.term i hi
      have hN : 0 < po.nStages := Nat.pos_of_ne_zero h.toSetup.built.ok.primal.stages
      rw [trajOf_stageL h, trajOf_p h, trajOf_v h, last ⟨by omega, by
        have := h.toSetup.nfe_pos (po.nStages - 1) (by omega); omega⟩]
      exact this
  · rw [trajOf_stageL h, ← eS, last hk]

end

/-- The hypotheses of the converse are met by the trajectory that reaches the switching surface and slides along it;
the discrete trajectory it yields meets those of `C132_no_trajectory_lost`. -/
example : ∃ po m oc P env, SetupEx demoColloc (slideOpts 1 2) slideModel (some UserOcp.trivial) po m oc P ∧
    (slideOpts 1 2).pss = .stewart ∧ po.rbe = true ∧ SignsOk (slideOpts 1 2) slideModel ∧
    ExactPoint (slideOpts 1 2) po m P env ∧ slideModel.InitialMultipliers po m.dims env ∧
    PlainProblem (slideOpts 1 2) slideModel UserOcp.trivial ∧
    ∃ T : Traj, T.Solves demoColloc slideModel UserOcp.trivial po ∧ T.x0 0 = 1 / 2 ∧
      T.stageL slideModel 0 0 1 = [0] ∧ T.theta 0 1 0 0 0 = 1 / 2 := by
  obtain ⟨po, m, oc, P, env, h, D, h0, -, hr, fe, -, hx, he, hw⟩ := slide_point (N := 1) (nf := 2) (.inl ⟨rfl, rfl⟩)
  obtain ⟨T, hT, t1, -, -, -, t2⟩ := C132_exact_point_is_trajectory h rfl hr rfl (slide_signs 1 2) rfl
    (fun _ => (slide_colloc 1 2).1) D h0
  refine ⟨po, m, oc, P, env, h, rfl, hr, slide_signs 1 2, D, h0, slide_plain 1 2, T, hT, by rw [t1, hx], ?_, ?_⟩
  · exact ((t2 0 0 ((fe 0 0).2 ⟨by omega, by omega⟩)).2.2.1).trans he
  · have hk := (fe 0 1).2 ⟨by omega, by omega⟩
    rw [((t2 0 1 hk).2.2.2 0 h.nS).2 0 0]
    exact hw 0 1 hk (by omega) 0 (by omega) 0

end Nosnoc
