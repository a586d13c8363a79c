import Verif.Props.StepStewart
import Verif.Props.Complete
import Verif.Witness.Corner
/-
C95: Stewart's representation has more solutions than the step representation where switching surfaces
intersect; cases that meet the hypotheses of the theorems in `StepStewart.lean`.
-/
namespace Nosnoc
section
variable {po : PreOpts} {m : PreModel} {oc : PreOcp} {P : Problem} {env : Env}

theorem quad_weight (r : Nat) (α : Nat → ℝ) : regionWeight quadMat r α
    = (if r < 2 then α 0 else 1 - α 0) * (if r % 2 = 0 then α 1 else 1 - α 1) := by
  have e0 : quadMat.entry r 0 = if r < 2 then 1 else -1 := rfl
  have e1 : quadMat.entry r 1 = if r % 2 = 0 then 1 else -1 := rfl
  have ne : ∀ {a : Prop} [Decidable a], (if a then (1 : ℝ) else -1) ≠ 0 := by
    intro a _; split <;> norm_num
  unfold regionWeight
  change ∏ n ∈ (Finset.range 2).filter _, _ = _
  rw [Finset.filter_true_of_mem, Finset.prod_range_succ, Finset.prod_range_one, e0, e1]
  · congr 1
    · split <;> ring
    · split <;> ring
  · intro n hn
    obtain rfl | rfl : n = 0 ∨ n = 1 := by have := Finset.mem_range.1 hn; omega
    · rw [e0]; exact ne
    · rw [e1]; exact ne

/-- In the step representation the exact solution from the origin is unique: `x₃` ends at `1/2`. -/
theorem corner_step_unique
    (h : SetupEx oneColloc (cornerOpts .step) cornerModel (some UserOcp.trivial) po m oc P)
    (hr : po.rbe = true) (hA : po.aIrk 0 0 = 1) (D : ExactSolution (cornerOpts .step) po m P env)
    (hx : ∀ i < 3, env (.x0 i) = 0) : xEndVal po m.dims 0 0 env = [0, 0, 1 / 2] := by
  have C := corner_data h
  have hsp : FeasibleSpec po m.dims cornerModel UserOcp.trivial env := h.spec D.feas
  have hk := C.has
  have hj : 0 < po.nS := by rw [C.nS]; omega
  have hown : ownEnd po = false := by simp [ownEnd, C.rep, hr]
  have hnC : m.dims.nC 0 = 2 := h.toSetup.dims.2.2.2.2.2.2.2.2 C.pss 0 Nat.one_pos
  have M := D.multOk h
  have hh : hVal po 0 0 env = 1 := by
    have := hsp.equi C.fesd C.equi 0 (by rw [C.stages]; omega)
    rw [C.nfe0, Finset.sum_range_one, C.time, C.stages] at this
    simpa using this
  have hX : ∀ i < 3, env (.st1 .x 0 0 0 i) = cornerModel.stageRhs po m.dims 0 0 0 i env := by
    intro i hi
    have h1 := hsp.lift C.rep 0 0 hk 0 hj i (by rw [C.nX]; exact hi)
    have h2 := hsp.rk 0 0 hk 0 hj i (by rw [C.nX]; exact hi)
    unfold LiftEq at h1
    unfold RkEq at h2
    rw [if_neg (by rw [C.rep]; decide)] at h2
    have hs : startX po 0 0 i = .x0 i := by simp [startX, prevFe]
    rw [C.nS, Finset.sum_range_one, hh, hA, hs, hx i hi, h2] at h1
    simpa [sotVal, C.sot, const] using h1
  have rhs : ∀ i, cornerModel.stageRhs po m.dims 0 0 0 i env
      = ∑ r ∈ Finset.range 4, cornerF.entry i r [] [] [] [] []
          * regionWeight quadMat r fun n => env (.st2 .alpha 0 0 0 0 n) := by
    intro i
    unfold UserModel.stageRhs
    rw [C.pss]
    simp [UserModel.rhsStep, UserModel.rhsStewart, UserModel.nSys, cornerModel, UserModel.Fmat,
      UserModel.Smat, cornerF]
  set a0 := env (.st2 .alpha 0 0 0 0 0) with ha0
  set a1 := env (.st2 .alpha 0 0 0 0 1) with ha1
  have w : ∀ r, regionWeight quadMat r (fun n => env (.st2 .alpha 0 0 0 0 n))
      = (if r < 2 then a0 else 1 - a0) * (if r % 2 = 0 then a1 else 1 - a1) := fun r =>
    quad_weight r _
  have x0 : env (.st1 .x 0 0 0 0) = 1 - 2 * a0 := by
    rw [hX 0 (by omega), rhs]
    simp only [Finset.sum_range_succ, Finset.sum_range_zero, w, cornerF]
    norm_num
    ring
  have x1 : env (.st1 .x 0 0 0 1) = 1 - 2 * a1 := by
    rw [hX 1 (by omega), rhs]
    simp only [Finset.sum_range_succ, Finset.sum_range_zero, w, cornerF]
    norm_num
    ring
  have x2 : env (.st1 .x 0 0 0 2) = a0 * a1 + (1 - a0) * (1 - a1) := by
    rw [hX 2 (by omega), rhs]
    simp only [Finset.sum_range_succ, Finset.sum_range_zero, w, cornerF]
    norm_num
  have half : ∀ n < 2, env (.st1 .x 0 0 0 n) = 1 - 2 * env (.st2 .alpha 0 0 0 0 n) →
      env (.st2 .alpha 0 0 0 0 n) = 1 / 2 := by
    intro n hn hxn
    have sw := (hsp.alg 0 0 hk 0 hj).1
    unfold UserModel.Switching at sw
    rw [C.pss] at sw
    have sw := sw 0 Nat.one_pos n hn
    have hc : (cornerModel.cVec 0).entry n (xVal po m.dims 0 0 0 env) (zVal m.dims 0 0 0 env)
        (pVal m.dims 0 env) = env (.st1 .x 0 0 0 n) := by
      change (xVal po m.dims 0 0 0 env).getD n 0 = _
      rw [xVal_get (by rw [C.nX]; omega), if_neg (by rw [C.rep]; decide)]
    have pn : IsPair po m.dims (.neg 0 n) := ⟨C.pss, by rw [C.sys]; omega, by rw [hnC]; omega⟩
    have pp : IsPair po m.dims (.pos 0 n) := ⟨C.pss, by rw [C.sys]; omega, by rw [hnC]; omega⟩
    have t1 := M.theta 0 0 hk 0 hj _ pn
    have t2 := M.theta 0 0 hk 0 hj _ pp
    have l1 := M.lam 0 0 hk 0 (by unfold nLamPts; omega) _ pn
    have l2 := M.lam 0 0 hk 0 (by unfold nLamPts; omega) _ pp
    have c1 := M.own 0 0 hk 0 hj _ pn
    have c2 := M.own 0 0 hk 0 hj _ pp
    simp only [thetaAt, lamAt] at t1 t2 l1 l2 c1 c2
    rw [hc, hxn] at sw
    rcases mul_eq_zero.1 c1 with c1 | c1 <;> rcases mul_eq_zero.1 c2 with c2 | c2 <;> linarith
  have e0 : a0 = 1 / 2 := half 0 (by omega) x0
  have e1 : a1 = 1 / 2 := half 1 (by omega) x1
  have hend : ∀ i, endX po 0 0 i = .st1 .x 0 0 0 i := by
    intro i; simp [endX, hown, C.nS]
  unfold xEndVal
  rw [C.nX]
  change [env (endX po 0 0 0), env (endX po 0 0 1), env (endX po 0 0 2)] = _
  rw [hend, hend, hend, x0, x1, x2, e0, e1]
  norm_num

/-- C95 does not hold the other way round: a Filippov solution that slides along the intersection of two
switching surfaces is an exact solution of the problem in Stewart's representation, with consistent
initial multipliers, and no exact solution of the problem in the step representation describes it.  All
exact solutions of the latter with the same initial state end somewhere else. -/
theorem C95_violated : ∃ po m oc P po' m' oc' P' env,
    SetupEx oneColloc (cornerOpts .stewart) cornerModel (some UserOcp.trivial) po m oc P ∧
    SetupEx oneColloc { cornerOpts .stewart with pss := .step } cornerModel (some UserOcp.trivial)
      po' m' oc' P' ∧
    FullSigns cornerModel ∧ ExactSolution (cornerOpts .stewart) po m P env ∧
    cornerModel.InitialMultipliers po m.dims env ∧ xEndVal po m.dims 0 0 env = [0, 0, 1] ∧
    ∀ env', ExactSolution { cornerOpts .stewart with pss := .step } po' m' P' env' →
      (∀ i < cornerModel.nX, env' (.x0 i) = env (.x0 i)) →
      xEndVal po' m'.dims 0 0 env' = [0, 0, 1 / 2] ∧ ¬ SamePath env env' := by
  obtain ⟨po, m, oc, P, h, hr, -⟩ := corner_setup .stewart (md := .scholtesIneq) (by decide)
  obtain ⟨po', m', oc', P', h', hr', hA'⟩ := corner_setup .step (md := .scholtesIneq) (by decide)
  obtain ⟨env, D, i1, i3, -, -, -, -, i4⟩ := C93_no_solution_lost h rfl rfl hr
    (.inl (by simp [SignedMode, cornerOpts, Opts.default])) (corner_signs .stewart _) corner_pc
    (corner_plain .stewart (.inl rfl)) (fun hc => absurd hc (by simp [cornerOpts])) (corner_weights .stewart _)
    (corner_solves (w := 1 / 2) ⟨by norm_num, le_rfl⟩ h)
  have C := corner_data h
  have C' := corner_data h'
  have hx := (i4 0 0 C.has).2.2.1
  have hx : xEndVal po m.dims 0 0 env = [0, 0, 1] := by
    rw [hx]
    simp [Path.endL, cornerPath, cornerModel, List.range_succ]
  refine ⟨po, m, oc, P, po', m', oc', P', env, h, h', corner_full, ⟨D.mode, D.feas, D.sigma, D.slack,
    D.lam00⟩, i1, hx, fun env' D' h0 => ?_⟩
  have hu := corner_step_unique h' hr' hA' D' fun i hi => (h0 i hi).trans (i3 i)
  refine ⟨hu, fun hs => ?_⟩
  have : xEndVal po' m'.dims 0 0 env' = xEndVal po m.dims 0 0 env := by
    unfold xEndVal
    rw [C.nX, C'.nX]
    refine List.map_congr_left fun i _ => ?_
    have hend : ∀ {q : PreOpts} {d : Dims} {p : PssMode}, CornerData p q d → q.rbe = true →
        endX q 0 0 i = .st1 .x 0 0 0 i := by
      intro q d p C hr
      simp [endX, ownEnd, hr, C.rep, C.nS]
    rw [hend C hr, hend C' hr']
    exact hs _ (by simp [Sym.IsMult])
  rw [hu, hx] at this
  norm_num at this

/-- Consistent initial multipliers are Stewart multipliers of some switching values. -/
theorem initial_stewartLam {um : UserModel} {d : Dims} (hp : po.pss = .stewart)
    (hg : um.gStewartTruthy = false) (hsh : ∀ s < um.nSys, (um.Smat s).rows = (um.Fmat s).nCols)
    (hi : um.InitialMultipliers po d env) :
    ∀ s < um.nSys, ∃ c mu, StewartLam (um.Smat s) c mu fun i => env (.lam00 .lam s i) := by
  unfold UserModel.InitialMultipliers at hi
  rw [hp] at hi
  intro s hs
  obtain ⟨mu, hmu⟩ := hi s hs
  refine ⟨fun n => (um.cVec s).entry n ((List.range d.nX).map fun i => env (.x0 i)) [] (pVal d 0 env),
    mu, fun i hi => ?_⟩
  have := hmu i (by rw [← hsh s hs]; exact hi)
  rw [UserModel.gVal, hg, if_neg Bool.false_ne_true] at this
  exact this

variable {colloc : IrkScheme → Nat → List ℝ} {o : Opts} {um : UserModel} {uo : Option UserOcp}
  {po' : PreOpts} {m' : PreModel} {oc' : PreOcp} {P' : Problem} {b : Nat → ℝ} {T : Path}

/-- C95 (with C93), the step representation: a piecewise linear Filippov solution whose convex coefficients have
the product form (for one switching function per subsystem: any Filippov solution) is an exact solution of
the problem in the step representation, with the same states, step lengths and initial state. -/
theorem C95_filippov_step_partial (h : SetupEx colloc o um uo po m oc P)
    (h' : SetupEx colloc { o with pss := .step } um uo po' m' oc' P') (hp : o.pss = .stewart)
    (hf : o.useFesd = true) (hr : po.rbe = true) (hm : ExactMode o) (hS : SignsOk o um)
    (hF : FullSigns um) (ha : o.mpcc ≠ .fischerBurmeisterIpAug)
    (hpc : um.PiecewiseConstant) (hpl : PlainProblem o um (uo.getD UserOcp.trivial))
    (hc : o.irkRep = .integral → CollocOk (colloc o.scheme o.nS) o.nS ∧
      ∀ t ∈ colloc o.scheme o.nS, 0 ≤ t ∧ t ≤ 1)
    (hb : SchemeWeights colloc o b)
    (hT : T.Solves um (uo.getD UserOcp.trivial) po (∑ j ∈ Finset.range o.nS, b j))
    (hw : ∀ k e, HasFE po k e → ∀ s < um.nSys, (um.Smat s).cols = 1 ∨ ∃ α : Nat → ℝ,
      (∀ n < (um.Smat s).cols, 0 ≤ α n ∧ α n ≤ 1) ∧
      ∀ i < (um.Fmat s).nCols, T.theta k e s i = regionWeight (um.Smat s) i α) :
    ∃ env, ExactSolution { o with pss := .step } po' m' P' env ∧
      (∀ i, env (.x0 i) = T.x0 i) ∧ (∀ k i, env (.u k i) = T.u k i) ∧ (∀ i, env (.vGlob i) = T.v i) ∧
      (∀ k i, env (.pStage k i) = T.p k i) ∧
      (∀ q, IsPair po' m'.dims q →
        lam00At env q = um.lam00Val ((List.range um.nX).map T.x0) [] (T.pL um 0) q) ∧
      ∀ k e, HasFE po k e → hVal po' k e env = T.H k e ∧ sotVal po' k env = T.speed k ∧
        xEndVal po' m'.dims k e env = T.endL um k e := by
  obtain ⟨env, D, i1, i2, i3, i4, i5, i6, i7⟩ := C93_no_solution_lost h hp hf hr hm hS hpc hpl hc hb hT
  have hp1 : po.pss = .stewart := h.e_pss.trans hp
  have D' : ExactSolution o po m P env := ⟨D.mode, D.feas, D.sigma, D.slack, D.lam00⟩
  have hsh := fun s hs => (h.toSetup.shapes_stewart hp1 hF.2.1 (s := s) hs).1
  have hW : ProductWeights po um env := by
    intro k e hk j hj s hs
    have et : ∀ i, env (.st2 .theta k e j s i) = T.theta k e s i :=
      fun i => (i7 k e hk).2.2.2 j (h.e_nS ▸ hj) s i
    simp only [et]
    rcases hw k e hk s hs with h1 | h1
    · have := weights_single (hF.2.2 s hs).1 (hF.2.2 s hs).2 h1 (θ := T.theta k e s)
        (by rw [hsh s hs]; exact (hT.convex k e hk s hs).1)
        (by rw [hsh s hs]; exact (hT.convex k e hk s hs).2)
      rw [hsh s hs] at this
      exact this
    · exact h1
  obtain ⟨env', E, sp, -, hl⟩ := C95_stewart_to_step_partial h h' hp hF ha
    ⟨fun hc => hpl.stepEq.1 hc, fun hc => hpl.stepEq.2.1 hc⟩ D' hW
    fun _ => initial_stewartLam hp1 hF.2.1 hsh i1
  obtain ⟨eo, ed⟩ := h.toSetup.rePss h'.toSetup
  obtain ⟨dX, -, -, -, -, -, dS, dF, -⟩ := h.toSetup.dims
  have no := fun s (hs : ¬ s.IsMult) => sp s hs
  refine ⟨env', E, fun i => (no _ id).trans (i2 i), fun k i => (no _ id).trans (i3 k i),
    fun i => (no _ id).trans (i4 i), fun k i => (no _ id).trans (i5 k i), hl _ _ _ fun q hq => ?_,
    fun k e hk => ?_⟩
  · cases q with
    | region s i => exact i6 s i
    | neg s i => exact absurd (hp1.symm.trans hq.1) (by decide)
    | pos s i => exact absurd (hp1.symm.trans hq.1) (by decide)
  · obtain ⟨a1, a2, a3, -⟩ := i7 k e hk
    rw [← a1, ← a2, ← a3, eo, ed]
    refine ⟨?_, ?_, ?_⟩
    · unfold hVal
      change (if po.useFesd then var (.h k e) else const (nominalH po k)) env' = _
      split
      · exact no (.h k e) id
      · rfl
    · unfold sotVal
      change (if po.sot = .local then var (.sot k) else const 1) env' = _
      split
      · exact no (.sot k) id
      · rfl
    · unfold xEndVal
      refine List.map_congr_left fun i _ => ?_
      change env' (endX po k e i) = _
      refine no _ ?_
      unfold endX
      split <;> exact id

/-- The hypotheses of C95_stewart_to_step_partial and C95_step_to_stewart are met by sliding along an
intersection of two switching surfaces with equal weights. -/
example : ∃ po m oc P po' m' oc' P' env env',
    SetupEx oneColloc (cornerOpts .stewart) cornerModel (some UserOcp.trivial) po m oc P ∧
    SetupEx oneColloc { cornerOpts .stewart with pss := .step } cornerModel (some UserOcp.trivial)
      po' m' oc' P' ∧
    FullSigns cornerModel ∧ ExactSolution (cornerOpts .stewart) po m P env ∧
    ProductWeights po cornerModel env ∧
    (∀ s < cornerModel.nSys, ∃ c mu,
      StewartLam (cornerModel.Smat s) c mu fun i => env (.lam00 .lam s i)) ∧
    ExactSolution { cornerOpts .stewart with pss := .step } po' m' P' env' ∧ SamePath env env' := by
  obtain ⟨po, m, oc, P, h, hr, -⟩ := corner_setup .stewart (md := .scholtesIneq) (by decide)
  obtain ⟨po', m', oc', P', h', hr', hA'⟩ := corner_setup .step (md := .scholtesIneq) (by decide)
  obtain ⟨env, D, i1, i3, -, -, -, -, i4⟩ := C93_no_solution_lost h rfl rfl hr
    (.inl (by simp [SignedMode, cornerOpts, Opts.default])) (corner_signs .stewart _) corner_pc
    (corner_plain .stewart (.inl rfl)) (fun hc => absurd hc (by simp [cornerOpts])) (corner_weights .stewart _)
    (corner_solves (w := 1 / 4) ⟨by norm_num, by norm_num⟩ h)
  have C := corner_data h
  have D' : ExactSolution (cornerOpts .stewart) po m P env :=
    ⟨D.mode, D.feas, D.sigma, D.slack, D.lam00⟩
  have hW : ProductWeights po cornerModel env := by
    intro k e hk j hj s hs
    obtain ⟨rfl, rfl⟩ := C.fe hk
    obtain rfl := corner_sys hs
    refine ⟨fun _ => 1 / 2, fun n _ => by norm_num, fun i hi => ?_⟩
    have hi4 : i < 4 := hi
    rw [(i4 0 0 hk).2.2.2 j (by rw [C.nS] at hj; exact hj)]
    rw [show cornerModel.Smat 0 = quadMat from rfl, quad_weight]
    simp only [cornerPath]
    split <;> split <;> split <;> norm_num
  have hL := initial_stewartLam C.pss rfl (fun s hs => by obtain rfl := corner_sys hs; rfl) i1
  obtain ⟨env', E, sp, -⟩ := C95_stewart_to_step_partial h h' rfl corner_full
    (by simp [cornerOpts, Opts.default]) (by simp [cornerOpts, Opts.default]) D' hW fun _ => hL
  exact ⟨po, m, oc, P, po', m', oc', P', env, env', h, h', corner_full, D', hW, hL, E, sp⟩

/-- The hypotheses of C95_single_switching_partial are met by the trajectory that reaches a switching
surface and slides along it, with the default options. -/
example : ∃ po m oc P po' m' oc' P' env,
    SetupEx demoColloc Opts.default slideModel (some UserOcp.trivial) po m oc P ∧
    SetupEx demoColloc { Opts.default with pss := .step } slideModel (some UserOcp.trivial)
      po' m' oc' P' ∧
    Opts.default.pss = .stewart ∧ FullSigns slideModel ∧
    (∀ s < slideModel.nSys, (slideModel.Smat s).cols = 1) ∧
    ExactSolution Opts.default po m P env ∧
    (∀ s < slideModel.nSys, ∃ c mu,
      StewartLam (slideModel.Smat s) c mu fun i => env (.lam00 .lam s i)) ∧
    env (.x0 0) = 1 / 2 ∧ xEndVal po m.dims 0 0 env = [0] := by
  have hN : 1 = 1 ∧ 2 = 2 ∨ 1 = 2 ∧ 2 = 1 := .inl ⟨rfl, rfl⟩
  obtain ⟨po, m, oc, P, env, h, D, i1, -, -, -, -, hx, hX, -⟩ := slide_point hN
  obtain ⟨po', m', oc', P', h', -⟩ := slide_setup_pss .step hN
  have hp : po.pss = .stewart := h.e_pss
  refine ⟨po, m, oc, P, po', m', oc', P', env, h, h', rfl, ⟨rfl, rfl, fun s hs => ?_⟩, fun s hs => ?_,
    ⟨D.mode, D.feas, D.sigma, D.slack, D.lam00⟩,
    initial_stewartLam hp rfl (fun s hs => by obtain rfl := slide_sys hs; rfl) i1, hx, hX⟩
  · obtain rfl := slide_sys hs
    exact ⟨signMat_dense, signMat_partition⟩
  · obtain rfl := slide_sys hs
    rfl

end
end Nosnoc
