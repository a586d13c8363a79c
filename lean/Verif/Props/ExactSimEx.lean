import Verif.Props.ExactSim
import Verif.Props.Progress
import Verif.Witness.Wish
/-
The hypotheses of C99 are met: `ẋ = -sign x` from `x = 1/2`, default options with polishing, any number of
steps. The first step reaches the switching surface and slides, the following ones stay on it.
-/
namespace Nosnoc

/-- Resting on the switching surface. -/
noncomputable def restPath : Path where
  x0 := fun _ => 0
  u := fun _ _ => 0
  v := fun _ => 0
  p := fun _ _ => 0
  speed := fun _ => 1
  H := fun _ _ => 1 / 2
  X := fun _ _ _ => 0
  theta := fun _ _ _ _ => 1 / 2

section
variable {po : PreOpts} {m : PreModel} {oc : PreOcp} {P : Problem} {pol : Bool} {uo : Option UserOcp}

theorem slide_nfe (h : SetupEx demoColloc (slideOpts 1 2 pol) slideModel uo po m oc P) {k e : Nat}
    (hk : HasFE po k e) : k = 0 ∧ e < 2 := by
  have e1 : po.nStages = 1 := h.e_nStages
  have h1 := hk.1
  obtain rfl : k = 0 := by omega
  have h2 := hk.2
  unfold nfe at h2
  rw [h.e_nfeList] at h2
  exact ⟨rfl, h2⟩

theorem rest_solves
    (h : SetupEx demoColloc (slideOpts 1 2 pol) slideModel (some UserOcp.trivial) po m oc P) :
    restPath.Solves slideModel UserOcp.trivial po
      (∑ j ∈ Finset.range (slideOpts 1 2).nS, slideW j) := by
  have e1 : po.nStages = 1 := h.e_nStages
  have e2 : nfe po 0 = 2 := by
    unfold nfe
    rw [h.e_nfeList]
    rfl
  have e3 : po.terminalTime = 1 := h.e_terminalTime
  have e4 : po.gammaH = 1 := h.e_gammaH
  have e5 : po.equidistant = true := h.e_equidistant
  have e6 : po.sot = .none := h.e_sot
  have hW : ∑ j ∈ Finset.range (slideOpts 1 2).nS, slideW j = 1 := by
    simp [slideOpts, Opts.default, Finset.sum_range_succ, slideW]; norm_num
  have s1 : ∀ k e i, restPath.start po k e i = 0 := by
    intro k e i
    unfold Path.start
    cases prevFe po k e <;> rfl
  have sl1 : ∀ k e i, restPath.slope slideModel k e i = 0 := fun k e i => by
    simp [Path.slope, restPath, slideModel, UserModel.nSys, UserModel.Fmat, Finset.sum_range_succ]
  have hcl : ∀ k e, ∀ s < slideModel.nSys, ∀ i < (slideModel.Fmat s).nCols,
      restPath.theta k e s i ≠ 0 →
      slideModel.InClosedRegion s i (restPath.startL po slideModel k e) (restPath.pL slideModel k) ∧
      slideModel.InClosedRegion s i (restPath.endL slideModel k e) (restPath.pL slideModel k) := by
    intro k e s hs i hi hθ
    obtain rfl := slide_sys hs
    constructor <;> intro n hn
    · simp [slideModel, UserModel.Smat, UserModel.cVec, signMat, Path.startL, s1 k e]
    · simp [slideModel, UserModel.Smat, UserModel.cVec, signMat, Path.endL, restPath]
  rw [hW]
  refine ⟨?_, ?_, fun k e _ => hcl k e, ?_, ?_, ?_, ?_, ?_, ?_, ?_, ?_, ?_, ?_, ?_, ?_⟩
  · intro k e hk i _
    rw [s1, sl1]; norm_num [restPath]
  · intro k e hk s hs
    obtain rfl := slide_sys hs
    refine ⟨fun i _ => by simp [restPath], ?_⟩
    simp [restPath, slideModel, UserModel.Fmat]
  · intro k e hk s hs i hi hθ
    obtain rfl := slide_sys hs
    exact fun n hn => (hcl k e 0 hs i hi hθ).1 n hn
  · intro k e hk
    obtain ⟨rfl, -⟩ := slide_nfe h hk
    unfold nominalH
    rw [e1, e2, e3, e4]
    norm_num [restPath]
  · intro _ k hk
    obtain rfl : k = 0 := by omega
    rw [e1, e2, e3]
    simp [restPath]
  · intro _ h1; rw [e5] at h1; cases h1
  · intro _ k _; rfl
  · intro h0; rw [e6] at h0; cases h0
  · intro i _; exact ⟨bot_le, le_top⟩
  · intro k e _ i _; exact ⟨bot_le, le_top⟩
  · intro k _ i hi; exact absurd hi (by simp [slideModel])
  · intro i hi; exact absurd hi (by simp [slideModel])
  · intro k e _ _ i hi; exact absurd hi (by simp [UserOcp.trivial])
  · intro i hi; exact absurd hi (by simp [UserOcp.trivial])

theorem slide_gmin (x : ℝ) (hx : 0 ≤ x) (p : List ℝ) :
    (⨅ i : Fin (slideModel.Fmat 0).nCols, slideModel.gVal 0 i [x] [] p) = -x := by
  have h0 : slideModel.gVal 0 0 [x] [] p = -x := by
    simp [UserModel.gVal, UserModel.gStewartTruthy, slideModel, UserModel.Smat, UserModel.cVec, signMat]
  haveI : Nonempty (Fin (slideModel.Fmat 0).nCols) := ⟨⟨0, by simp [slideModel, UserModel.Fmat]⟩⟩
  apply le_antisymm
  · refine (ciInf_le (Set.finite_range _).bddBelow
      (⟨0, by simp [slideModel, UserModel.Fmat]⟩ : Fin (slideModel.Fmat 0).nCols)).trans ?_
    exact h0.le
  · refine le_ciInf fun i => ?_
    by_cases h : i.1 = 0
    · rw [h, h0]
    · have h2 : i.1 < 2 := i.2
      have h1 : i.1 = 1 := by omega
      rw [h1]
      simp [UserModel.gVal, UserModel.gStewartTruthy, slideModel, UserModel.Smat, UserModel.cVec, signMat]
      linarith

theorem slide_lam (x : ℝ) (hx : 0 ≤ x) (p : List ℝ) {i : Nat} (hi : i < 2) :
    slideModel.lam00St [x] [] p 0 i = if i = 0 then 0 else 2 * x := by
  unfold UserModel.lam00St
  rw [slide_gmin x hx]
  obtain rfl | rfl : i = 0 ∨ i = 1 := by omega
  · simp [UserModel.gVal, UserModel.gStewartTruthy, slideModel, UserModel.Smat, UserModel.cVec, signMat]
  · simp [UserModel.gVal, UserModel.gStewartTruthy, slideModel, UserModel.Smat, UserModel.cVec, signMat]
    ring

/-- Multipliers are zero, one or far from both. -/
theorem slide_clean (h : SetupEx demoColloc (slideOpts 1 2 pol) slideModel uo po m oc P)
    (hr : po.rbe = true) {T : Path} {ρ : Nat → ℝ}
    (hpt : ∀ e < 2, ∀ j < 2, T.pt po ρ 0 e j 0 = 0 ∨ T.pt po ρ 0 e j 0 = 1 / 3)
    (hθ : ∀ e s i, T.theta 0 e s i = 0 ∨ T.theta 0 e s i = 1 ∨ T.theta 0 e s i = 1 / 2) :
    ∀ t ∈ P.form.w, IsMultiplier t → T.env po slideModel ρ t = 0 ∨ T.env po slideModel ρ t = 1 ∨
      (10 * (slideOpts 1 2 pol).compTol ≤ T.env po slideModel ρ t ∧
        10 * (slideOpts 1 2 pol).compTol ≤ |T.env po slideModel ρ t - 1|) := by
  intro t ht hmul
  have eS : po.nS = 2 := h.e_nS
  have hp : po.pss = .stewart := h.e_pss
  have tol : (slideOpts 1 2 pol).compTol = 1 / 10 ^ 8 := by norm_num [slideOpts, Opts.default]
  rw [tol]
  obtain ⟨-, -, -, -, -, -, dS, dF, -⟩ := h.toSetup.dims
  have half : ∀ y : ℝ, y = 0 ∨ y = 1 ∨ y = 1 / 2 ∨ y = 1 / 3 ∨ y = 2 / 3 →
      y = 0 ∨ y = 1 ∨ (10 * (1 / 10 ^ 8 : ℝ) ≤ y ∧ 10 * (1 / 10 ^ 8 : ℝ) ≤ |y - 1|) := by
    rintro y (rfl | rfl | rfl | rfl | rfl)
    · exact .inl rfl
    · exact .inr (.inl rfl)
    all_goals
      right; right
      refine ⟨by norm_num, ?_⟩
      rw [abs_of_neg (by norm_num)]
      norm_num
  apply half
  rcases (C04_variables h.toSetup t).2 ht with hv | ⟨hb, -⟩
  · cases t with
    | st2 f k e j s i =>
      cases f with
      | theta =>
        obtain ⟨rfl, -⟩ := slide_nfe h hv.2.1
        rcases hθ e s i with a | a | a
        · exact .inl a
        · exact .inr (.inl a)
        · exact .inr (.inr (.inl a))
      | lam =>
        obtain ⟨-, hk, hj, hs, hi⟩ := hv
        obtain ⟨rfl, he⟩ := slide_nfe h hk
        rw [nLamPts_rbe hr, eS] at hj
        have hs' : s < slideModel.nSys := by rw [← dS]; exact hs
        obtain rfl := slide_sys hs'
        rw [dF hp 0 hs'] at hi
        have hx : T.ptL po slideModel ρ 0 e j = [T.pt po ρ 0 e j 0] := rfl
        show slideModel.lam00St _ _ _ _ _ = _ ∨ slideModel.lam00St _ _ _ _ _ = _ ∨
          slideModel.lam00St _ _ _ _ _ = _ ∨ slideModel.lam00St _ _ _ _ _ = _ ∨
          slideModel.lam00St _ _ _ _ _ = _
        have hx0 : 0 ≤ T.pt po ρ 0 e j 0 := by rcases hpt e he j hj with a | a <;> rw [a] <;> norm_num
        rw [hx, slide_lam _ hx0 _ hi]
        rcases hpt e he j hj with a | a <;> rw [a] <;> split <;> norm_num
      | mu =>
        obtain ⟨-, hk, hj, hs, hi⟩ := hv
        obtain ⟨rfl, he⟩ := slide_nfe h hk
        rw [nLamPts_rbe hr, eS] at hj
        have hs' : s < slideModel.nSys := by rw [← dS]; exact hs
        obtain rfl := slide_sys hs'
        have hx0 : 0 ≤ T.pt po ρ 0 e j 0 := by rcases hpt e he j hj with a | a <;> rw [a] <;> norm_num
        have : T.env po slideModel ρ (.st2 .mu 0 e j 0 i) = T.pt po ρ 0 e j 0 := by
          show -⨅ i : Fin (slideModel.Fmat 0).nCols, slideModel.gVal 0 i [T.pt po ρ 0 e j 0] [] _ = _
          rw [slide_gmin _ hx0, neg_neg]
        rw [this]
        rcases hpt e he j hj with a | a <;> rw [a] <;> norm_num
      | alpha => exact absurd (hp.symm.trans hv.1) (by decide)
      | lamN => exact absurd (hp.symm.trans hv.1) (by decide)
      | lamP => exact absurd (hp.symm.trans hv.1) (by decide)
    | _ => exact hmul.elim
  · exact absurd (h.e_mpcc.symm.trans hb) (by simp [slideOpts, Opts.default])

/-- The parameters of the problem, for a trajectory from the stored initial state. -/
theorem slide_params (h : SetupEx demoColloc (slideOpts 1 2 pol) slideModel uo po m oc P) {S : Solver}
    (hi : Inv po m P S) {T : Path} {ρ : Nat → ℝ} (hx : S.m.x0 = [T.x0 0]) (σ τ : ℝ) :
    ∀ t ∈ P.p, withSigma (T.env po slideModel ρ) σ τ t = paramVal slideModel S σ τ t := by
  have h' := h.toSetup
  have hp' : po.pss = .stewart := h.e_pss
  obtain ⟨dX, -, -, -, dT, dG, -, -, -⟩ := h'.dims
  intro t ht
  rw [p_eq h'] at ht
  unfold pHead at ht
  simp only [List.mem_append, List.mem_flatMap, blk, List.mem_map] at ht
  rcases ht with ((⟨k, hk, i, hi', rfl⟩ | ht) | ((hb | hb) | hb)) | ⟨i, hi', rfl⟩
  · exact absurd (List.mem_range.1 hi') (by simp [dT, dG, slideModel])
  · simp at ht
    rcases ht with rfl | rfl <;> rfl
  · obtain ⟨s, i, rfl⟩ := mem_lam00Row hb
    change slideModel.lam00St [T.x0 0] [] (T.pL slideModel 0) s i
      = slideModel.lam00St S.m.x0 S.m.z0 (S.m.pVal.headD []) s i
    have hz0 : S.m.z0 = [] := by
      rw [hi.z0]
      exact List.eq_nil_of_length_eq_zero (by rw [z0_length h']; rfl)
    have hp0 : S.m.pVal.headD [] = [] := by
      cases hpv : S.m.pVal with
      | nil => rfl
      | cons a l =>
        apply List.eq_nil_of_length_eq_zero
        rw [List.headD_cons, hi.pRow a (by rw [hpv]; simp), dT, dG]
        rfl
    rw [hx, hz0, hp0]
    rfl
  · exfalso
    unfold lam00Row at hb
    simp [hp', Dims.famLen, blk] at hb
  · exfalso
    unfold lam00Row at hb
    simp [hp', Dims.famLen, blk] at hb
  · obtain rfl : i = 0 := by simpa [dX, slideModel] using hi'
    change T.x0 0 = S.m.x0.getD 0 0
    rw [hx]
    rfl

/-- The last parameter is the initial state. -/
theorem slide_last (h : SetupEx demoColloc (slideOpts 1 2 pol) slideModel uo po m oc P) (f : Env) :
    (P.p.map f).getLastD 0 = f (.x0 0) := by
  have h' := h.toSetup
  have dX : m.dims.nX = 1 := h'.dims.1
  rw [p_eq h', dX, List.map_append]
  simp [blk, List.getLastD_eq_getLast?]

end

/-- The hypotheses of C99 are met. -/
theorem slide_sim_run (N : Nat) : ∃ po m oc P orc S L L' R,
    SetupEx demoColloc (slideOpts 1 2 true) slideModel none po m oc P ∧
    Reachable demoColloc (slideOpts 1 2 true) slideModel none orc S ∧ orc.Exact P ∧
    Looper.create S [1 / 2] N none none = .ok L ∧
    L.run orc false = (L', .ok true) ∧ L'.getResults = .ok R ∧
    (∀ i < N, R.status[i]? = some .success) ∧
    (slideOpts 1 2 true).polish = true ∧ SignsOk (slideOpts 1 2 true) slideModel ∧
    slideModel.PiecewiseConstant ∧ SchemeWeights demoColloc (slideOpts 1 2 true) slideW ∧
    po.rbe = true := by
  obtain ⟨po, m, oc, P0, h0, hr⟩ := slide_setup_pos .stewart Nat.one_pos (by omega : 0 < 2) true
  replace h0 : SetupEx demoColloc (slideOpts 1 2 true) slideModel (some UserOcp.trivial) po m oc P0 := h0
  obtain ⟨P, h⟩ : ∃ P, SetupEx demoColloc (slideOpts 1 2 true) slideModel none po m oc P :=
    ⟨_, ⟨h0.toSetup.toNone, rfl, by simp [UserOcp.trivial]⟩⟩
  have h' := h.toSetup
  obtain ⟨ρ, hρ⟩ := fractions_exist h hr (slide_weights 1 2 true) fun _ => slide_colloc 1 2 true
  have eS : po.nS = 2 := h.e_nS
  have r0 : ρ 0 = 1 / 3 := by
    rw [hρ.integral rfl 0 (by simp [slideOpts, Opts.default])]
    simp [slideOpts, Opts.default, demoColloc]
  have r1 : ρ 1 = 1 := hρ.last
  -- the two points
  have hexact : ExactMode (slideOpts 1 2 true) := .inl (by simp [SignedMode, slideOpts, Opts.default])
  have D1 := (Path.point h rfl rfl hr hexact (slide_signs 1 2 true) slide_pc (slide_plain 1 2 true)
    (fun _ => (slide_colloc 1 2 true).1) (slide_weights 1 2 true) hρ (slide_solves (.inl ⟨rfl, rfl⟩) h0)).1
  have D2 := (Path.point h rfl rfl hr hexact (slide_signs 1 2 true) slide_pc (slide_plain 1 2 true)
    (fun _ => (slide_colloc 1 2 true).1) (slide_weights 1 2 true) hρ (rest_solves h0)).1
  have hlast : ρ (po.nS - 1) = 1 := by rw [eS]; exact r1
  let T : ℝ → Path := fun y => if y = 1 / 2 then slidePath else restPath
  let f : List ℝ → List ℝ := fun p => P.form.w.map ((T (p.getLastD 0)).env po slideModel ρ)
  obtain ⟨hcr, hS, hrd⟩ := h'.create (wishOracle P f) (by simp [slideOpts, Opts.default])
  have hL : (slideOpts 1 2 true).nfeAfter.length = (slideOpts 1 2 true).nStages := by
    simp [slideOpts, Opts.default, Opts.nfeAfter]
  obtain ⟨L, hc⟩ := (C64_create_iff h' hS [1 / 2] N none none).1.2 ⟨⟨rfl, rfl, rfl⟩, .inl rfl⟩
  obtain ⟨L', R, hrun, hR⟩ := C62_run_returns h' hL hS hrd Nat.one_pos rfl
    (fun _ => by simp [slideOpts, Opts.default]) (.inl ⟨.inl rfl, rfl⟩)
    (fun _ s hs s' hs' => by rw [slide_sys hs, slide_sys hs']) hc false
  refine ⟨po, m, oc, P, wishOracle P f, _, L, L', R, h, hS, wishOracle_exact P f, hc, hrun, hR, ?_, rfl,
    slide_signs 1 2 true, slide_pc, slide_weights 1 2 true, hr⟩
  obtain ⟨result, calls, sim, q1, -⟩ := run_sim h' hL hS hc hrun hR
  -- one step
  have step : ∀ i < N, ∀ y : ℝ, (y = 1 / 2 ∨ y = 0) → (beforeStep (wishOracle P f) L i).m.x0 = [y] →
      (result i).status = .success ∧ (result i).res.xOut = [0] := by
    intro i hi y hy hx
    obtain ⟨hB, -, hwl, hres, -⟩ := q1 i hi
    have hx0 : (T y).x0 0 = y := by
      rcases hy with rfl | rfl
      · simp [T, slidePath]
      · simp [T, restPath]
    obtain ⟨s1, s2⟩ := wish_polish (env := (T y).env po slideModel ρ) h hB (sim.solved i hi).1 rfl (.inl rfl)
      (by norm_num [slideOpts, Opts.default]) rfl (by norm_num [slideOpts, Opts.default])
      (by norm_num [slideOpts, Opts.default])
      (fun σ τ hσ => C98_homotopy h (by simp [Opts.RelaxesByInequality, slideOpts, Opts.default]) hσ (by
        rcases hy with rfl | rfl
        · simpa [T] using D1
        · simpa [T] using D2))
      (fun σ τ => slide_params h (hB.inv h') (by rw [hx, hx0]) σ τ)
      (fun σ τ => by
        show P.form.w.map ((T ((P.p.map _).getLastD 0)).env po slideModel ρ) = _
        rw [slide_last h]
        show P.form.w.map ((T ((T y).x0 0)).env po slideModel ρ) = _
        rw [hx0])
      (slide_clean h hr (fun e he j hj => by
        rcases hy with rfl | rfl
        · obtain rfl | rfl : e = 0 ∨ e = 1 := by omega
          · obtain rfl | rfl : j = 0 ∨ j = 1 := by omega
            · right; simp [T, Path.pt, Path.start, prevFe, slidePath, r0]; norm_num
            · left; simp [T, Path.pt, Path.start, prevFe, slidePath, r1]
          · left; simp [T, Path.pt, Path.start, prevFe, slidePath]
        · left
          simp only [T]
          rw [if_neg (by norm_num)]
          unfold Path.pt Path.start
          cases prevFe po 0 e <;> simp [restPath]) fun e s i => by
        rcases hy with rfl | rfl
        · simp only [T, if_true, slidePath]
          split
          · split
            · exact .inr (.inl rfl)
            · exact .inl rfl
          · exact .inr (.inr rfl)
        · simp [T, restPath])
    refine ⟨s1, ?_⟩
    have hs := C58_results_meaning h' hL hwl hres []
    rw [hs.xOut]
    have hpw := h'.point_w (p := []) hwl
    rw [s2] at hpw
    have e1 : po.nStages = 1 := h.e_nStages
    have e2 : nfe po 0 = 2 := by
      unfold nfe
      rw [h.e_nfeList]
      rfl
    rw [e1, e2]
    have hmem : endX po 0 (2 - 1) 0 ∈ P.form.w := by
      apply (C04_variables h' _).1
      have hfe : HasFE po 0 (2 - 1) := ⟨by omega, by omega⟩
      have hdx : 0 < m.dims.nX := by rw [h'.dims.1]; exact Nat.one_pos
      unfold endX
      split
      · rename_i ho
        exact ⟨ho, hfe, hdx⟩
      · exact ⟨by rw [h.e_irkRep]; simp [slideOpts, Opts.default], hfe, by omega, hdx⟩
    unfold xEndVal
    rw [h'.dims.1]
    show [P.point (result i).wSol [] (endX po 0 (2 - 1) 0)] = [0]
    rw [s2, List.map_inj_left.1 hpw _ hmem, Path.env_end hlast]
    rcases hy with rfl | rfl <;> simp [T, slidePath, restPath]
  have states : ∀ i < N, (beforeStep (wishOracle P f) L i).m.x0 = [1 / 2] ∨
      (beforeStep (wishOracle P f) L i).m.x0 = [0] := by
    intro i
    induction i with
    | zero =>
      intro hi
      obtain ⟨x, hx, hx', -⟩ := sim.start 0 hi
      rw [sim.states] at hx
      left
      rw [hx']
      simpa using hx.symm
    | succ i ih =>
      intro hi
      obtain ⟨x, hx, hx', -⟩ := sim.start (i + 1) hi
      right
      have := sim.finish i (by omega)
      rw [hx] at this
      rw [hx', Option.some.inj this]
      rcases ih (by omega) with a | a
      · exact (step i (by omega) _ (.inl rfl) a).2
      · exact (step i (by omega) _ (.inr rfl) a).2
  intro i hi
  rw [sim.status, List.getElem?_map, List.getElem?_range hi, Option.map_some]
  rcases states i hi with a | a
  · rw [(step i hi _ (.inl rfl) a).1]
  · rw [(step i hi _ (.inr rfl) a).1]

end Nosnoc
