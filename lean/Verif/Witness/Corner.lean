import Verif.Witness.Jump
import Verif.Spec.Path
import Verif.Spec.SamePath
import Verif.Spec.Filippov
/-
Two switching functions `x₁`, `x₂`: `ẋ₁ = -sign x₁`, `ẋ₂ = -sign x₂`, and `ẋ₃ = 1` in the quadrants where
the signs agree, `0` in the others.  From the origin, one implicit Euler step of length one, with FESD.
-/
namespace Nosnoc

/-- All four sign combinations. -/
noncomputable def quadMat : SMat :=
  ⟨4, 2, fun i k => if k = 0 then (if i < 2 then 1 else -1) else (if i % 2 = 0 then 1 else -1)⟩

noncomputable def cornerF : UMat :=
  ⟨4, fun row i _ _ _ _ _ => if row = 0 then (if i < 2 then -1 else 1)
    else if row = 1 then (if i % 2 = 0 then -1 else 1)
    else (if i = 0 ∨ i = 3 then 1 else 0)⟩

noncomputable def cornerModel : UserModel where
  nX := 3
  nU := 0
  nZ := 0
  nPtv := 0
  nPgl := 0
  nV := 0
  x0 := [0, 0, 0]
  F := some [cornerF]
  c := some [⟨2, fun n x _ _ => x.getD n 0⟩]
  S := some [quadMat]
  gStewart := none
  alpha := none
  fx := none
  gz := ⟨0, fun _ _ _ _ _ => 0⟩
  z0 := none
  lbz := none
  ubz := none
  pTimeVarVal := none
  pGlobalVal := []
  tVar := none

noncomputable def cornerOpts (p : PssMode) (md : MpccMode := .scholtesIneq) : Opts :=
  { Opts.default with pss := p, mpcc := md, irkRep := .differentialLiftX, nS := 1, nFe := 1 }

theorem corner_setup (p : PssMode) {md : MpccMode} (hmd : md ≠ .fischerBurmeisterIpAug) :
    ∃ po m oc P, SetupEx oneColloc (cornerOpts p md) cornerModel (some UserOcp.trivial) po m oc P ∧
      po.rbe = true ∧ po.aIrk 0 0 = 1 := by
  obtain ⟨po, hpo⟩ : ∃ po, (cornerOpts p md).preprocess oneColloc = .ok po :=
    flex_preOpts (by norm_num [cornerOpts, Opts.default]) (.inr ⟨radau1, rfl, by simp [radau1]⟩)
  have h1 := preprocess_opts hpo
  have e := h1.toOpts
  have e2 : po.timeFreezing = false := by rw [e]; rfl
  obtain ⟨m, hm⟩ : ∃ m, cornerModel.preprocess po = .ok m := by
    refine switched_ok (Fs := [cornerF]) (cs := [⟨2, fun n x _ _ => x.getD n 0⟩])
      (Ss := [quadMat]) ⟨?_, ?_, ?_, rfl, ?_, .inr e2⟩
      ⟨rfl, rfl, rfl, rfl, ?_, rfl, le_rfl, ?_, ?_, ?_, ?_⟩ rfl
    · intro l h; cases h
    · intro l h; cases h
    · intro l h; cases h
    · intro V h; cases h
    · intro f hf
      simp only [List.mem_singleton] at hf
      rw [hf]
      simp [cornerF]
    · intro s hs
      obtain rfl : s = 0 := by simpa using hs
      rfl
    · intro _ s hs
      obtain rfl : s = 0 := by simpa using hs
      rfl
    · intro _ s hs i hi k hk _
      obtain rfl : s = 0 := by simpa using hs
      exact hk
    · intro _ s hs
      obtain rfl : s = 0 := by simpa using hs
      rfl
  obtain ⟨oc, hoc⟩ : ∃ oc, UserOcp.trivial.preprocess m = .ok oc := by
    obtain ⟨nC, nF, g, up, f0, acc, hp⟩ := preprocess_pre hm
    unfold UserOcp.preprocess
    rw [hp.dims]
    exact ⟨_, rfl⟩
  obtain ⟨P, hP⟩ := (C06_construct_iff (uo := some UserOcp.trivial) rfl hpo hm hoc
    (by simp [cornerOpts]) (fun _ => rfl) rfl).2 ⟨by simp [cornerOpts, Opts.default], rfl,
      by simp [cornerOpts, Opts.default], fun k hk => by
        have hk0 : k = 0 := by
          have : k < 1 := hk
          omega
        subst hk0
        exact ⟨1, rfl, Nat.one_pos⟩, by simp [cornerOpts, Opts.default, hmd]⟩
  refine ⟨po, m, oc, P, ⟨⟨hP, by simp [cornerOpts], fun _ => rfl⟩, rfl, by simp [UserOcp.trivial]⟩,
    ?_, ?_⟩
  · exact (h1.rbe_iff (by simp [cornerOpts])).2 rfl
  · obtain ⟨t, ht, hA, -, -⟩ := h1.diff (by simp [cornerOpts])
    have : t = radau1 := by
      have h2 : generateButcher (cornerOpts p md).nS (cornerOpts p md).scheme = .ok radau1 := rfl
      rw [h2] at ht; cases ht; rfl
    subst this
    rw [hA]; norm_num [matFun, radau1]

theorem corner_sys {s : Nat} (h : s < cornerModel.nSys) : s = 0 := by
  simpa [cornerModel, UserModel.nSys] using h

theorem quadMat_dense : quadMat.IsDense := by
  refine ⟨fun i hi k hk => ?_, fun i hi j hj hij => ?_⟩
  · simp only [quadMat]
    split <;> split <;> simp
  · simp only [quadMat] at hi hj ⊢
    by_cases h0 : (i < 2 ↔ j < 2)
    · refine ⟨1, by omega, ?_⟩
      have h1 : ¬ (i % 2 = 0 ↔ j % 2 = 0) := by omega
      by_cases a : i % 2 = 0 <;> by_cases b : j % 2 = 0 <;> simp [a, b] at h1 ⊢ <;> norm_num
    · refine ⟨0, by omega, ?_⟩
      by_cases a : i < 2 <;> by_cases b : j < 2 <;> simp [a, b] at h0 ⊢ <;> norm_num

theorem quadMat_partition : quadMat.Partition := by
  intro σ
  have key : ∀ i < 4, (∀ k < 2, quadMat.entry i k = if σ k then 1 else -1) ↔
      ((i < 2 ↔ σ 0 = true) ∧ (i % 2 = 0 ↔ σ 1 = true)) := by
    intro i hi
    have e0 : quadMat.entry i 0 = if i < 2 then 1 else -1 := rfl
    have e1 : quadMat.entry i 1 = if i % 2 = 0 then 1 else -1 := rfl
    have sgn : ∀ (a : Prop) [Decidable a] (b : Bool),
        ((if a then (1 : ℝ) else -1) = if b then 1 else -1) ↔ (a ↔ b = true) := by
      intro a _ b
      by_cases ha : a <;> cases b <;> simp [ha] <;> norm_num
    rw [← sgn, ← sgn, ← e0, ← e1]
    refine ⟨fun h => ⟨h 0 (by omega), h 1 (by omega)⟩, fun h k hk => ?_⟩
    obtain rfl | rfl : k = 0 ∨ k = 1 := by omega
    · exact h.1
    · exact h.2
  obtain ⟨r, hr, hr2⟩ : ∃ r < 4, (r < 2 ↔ σ 0 = true) ∧ (r % 2 = 0 ↔ σ 1 = true) := by
    cases h0 : σ 0 <;> cases h1 : σ 1
    · exact ⟨3, by omega, by simp⟩
    · exact ⟨2, by omega, by simp⟩
    · exact ⟨1, by omega, by simp⟩
    · exact ⟨0, by omega, by simp⟩
  refine ⟨⟨r, hr⟩, fun k hk _ => (key r hr).2 hr2 k hk, fun i hi => ?_⟩
  apply Fin.ext
  have hi4 : i.1 < 4 := i.2
  have h2 := (key i.1 hi4).1 fun k hk => hi k hk (by
    rcases quadMat_dense.1 i.1 hi4 k hk with h | h <;> rw [h] <;> norm_num)
  change i.1 = r
  have b0 : i.1 < 2 ↔ r < 2 := h2.1.trans hr2.1.symm
  have b1 : i.1 % 2 = 0 ↔ r % 2 = 0 := h2.2.trans hr2.2.symm
  omega

theorem corner_full : FullSigns cornerModel := by
  refine ⟨rfl, rfl, fun s hs => ?_⟩
  obtain rfl := corner_sys hs
  exact ⟨quadMat_dense, quadMat_partition⟩

theorem corner_signs (p : PssMode) (md : MpccMode) : SignsOk (cornerOpts p md) cornerModel := by
  intro s hs
  obtain rfl := corner_sys hs
  refine ⟨quadMat_partition, fun _ => ⟨rfl, quadMat_dense⟩, fun _ i hi k hk => ?_⟩
  rcases quadMat_dense.1 i hi k hk with h | h
  · exact .inl h
  · exact .inr (.inr h)

theorem corner_pc : cornerModel.PiecewiseConstant where
  noZ := rfl
  F := by
    intro s hs row i x x' u p v
    obtain rfl := corner_sys hs
    rfl
  c := by
    intro s hs n hn p
    obtain rfl := corner_sys hs
    have hn : n < 2 := hn
    refine ⟨fun i => if i = n then 1 else 0, 0, fun x => ?_⟩
    obtain rfl | rfl : n = 0 ∨ n = 1 := by omega
    · simp [cornerModel, UserModel.cVec]
    · simp [cornerModel, UserModel.cVec]

theorem corner_plain (p : PssMode) {md : MpccMode} (hmd : md = .scholtesIneq ∨ md = .scholtesEq) : PlainProblem (cornerOpts p md) cornerModel UserOcp.trivial where
  noGz := rfl
  noComp := rfl
  stage := fun _ => rfl
  freeze := rfl
  stepEq := by simp [cornerOpts, Opts.default]
  mode := by rcases hmd with rfl | rfl <;> simp [cornerOpts]
  slack := by rcases hmd with rfl | rfl <;> simp [cornerOpts]

theorem corner_weights (p : PssMode) (md : MpccMode) : SchemeWeights oneColloc (cornerOpts p md) fun _ => 1 where
  nonneg := fun _ _ => by norm_num
  table := by
    intro _ t ht j hj
    have h2 : generateButcher (cornerOpts p md).nS (cornerOpts p md).scheme = .ok radau1 := rfl
    rw [h2] at ht; cases ht
    obtain rfl : j = 0 := by simp [cornerOpts] at hj; omega
    norm_num [radau1, Tableau.w]
  quad := fun h => absurd h (by simp [cornerOpts])

/-- Sliding along the corner with weight `w` on each of the quadrants `++` and `--`, and the rest on the
other two: `x₃` grows at rate `2 w`. -/
noncomputable def cornerPath (w : ℝ) : Path where
  x0 := fun _ => 0
  u := fun _ _ => 0
  v := fun _ => 0
  p := fun _ _ => 0
  speed := fun _ => 1
  H := fun _ _ => 1
  X := fun _ _ i => if i = 2 then 2 * w else 0
  theta := fun _ _ _ i => if i = 0 ∨ i = 3 then w else 1 / 2 - w

section
variable {po : PreOpts} {m : PreModel} {oc : PreOcp} {P : Problem} {p : PssMode} {md : MpccMode}

structure CornerData (p : PssMode) (po : PreOpts) (d : Dims) : Prop where
  rep : po.irkRep = .differentialLiftX
  stages : po.nStages = 1
  fesd : po.useFesd = true
  pss : po.pss = p
  nS : po.nS = 1
  time : po.terminalTime = 1
  sot : po.sot = .none
  equi : po.equidistant = true
  gamma : po.gammaH = 1
  nfe0 : nfe po 0 = 1
  sys : d.nSys = 1
  nX : d.nX = 3

theorem corner_data
    (h : SetupEx oneColloc (cornerOpts p md) cornerModel (some UserOcp.trivial) po m oc P) :
    CornerData p po m.dims := by
  obtain ⟨d0, -, -, -, -, -, d1, -, -⟩ := h.toSetup.dims
  have := h.e_nfeList
  refine ⟨h.e_irkRep, h.e_nStages, h.e_useFesd, h.e_pss, h.e_nS, h.e_terminalTime, h.e_sot,
    h.e_equidistant, h.e_gammaH, ?_, d1, d0⟩
  unfold nfe
  rw [this]
  rfl

theorem CornerData.fe {d : Dims} (D : CornerData p po d) {k e : Nat} (hk : HasFE po k e) :
    k = 0 ∧ e = 0 := by
  have h1 := hk.1
  rw [D.stages] at h1
  obtain rfl : k = 0 := by omega
  have h2 := hk.2
  rw [D.nfe0] at h2
  exact ⟨rfl, by omega⟩

theorem CornerData.has {d : Dims} (D : CornerData p po d) : HasFE po 0 0 :=
  ⟨by rw [D.stages]; omega, by rw [D.nfe0]; omega⟩

theorem corner_solves {w : ℝ} (hw : 0 ≤ w ∧ w ≤ 1 / 2)
    (h : SetupEx oneColloc (cornerOpts p md) cornerModel (some UserOcp.trivial) po m oc P) :
    (cornerPath w).Solves cornerModel UserOcp.trivial po
      (∑ j ∈ Finset.range (cornerOpts p md).nS, (fun _ => (1 : ℝ)) j) := by
  have D := corner_data h
  have hW : ∑ j ∈ Finset.range (cornerOpts p md).nS, (fun _ => (1 : ℝ)) j = 1 := by
    simp [cornerOpts]
  have s0 : ∀ i, (cornerPath w).start po 0 0 i = 0 := fun i => by simp [Path.start, prevFe, cornerPath]
  have hcl : ∀ s < cornerModel.nSys, ∀ i < (cornerModel.Fmat s).nCols, ∀ x : List ℝ,
      x.getD 0 0 = 0 → x.getD 1 0 = 0 → ∀ q, cornerModel.InClosedRegion s i x q := by
    intro s hs i hi x h0 h1 q n hn
    obtain rfl := corner_sys hs
    obtain rfl | rfl : n = 0 ∨ n = 1 := by
      have : n < 2 := hn
      omega
    · change 0 ≤ _ * x.getD 0 0
      rw [h0, mul_zero]
    · change 0 ≤ _ * x.getD 1 0
      rw [h1, mul_zero]
  have st : ∀ i, ((cornerPath w).startL po cornerModel 0 0).getD i 0 = 0 := by
    intro i
    change ([(cornerPath w).start po 0 0 0, (cornerPath w).start po 0 0 1, (cornerPath w).start po 0 0 2] : List ℝ).getD i 0 = 0
    rw [s0, s0, s0]
    rcases i with _ | _ | _ | i <;> rfl
  have en : ∀ i < 2, ((cornerPath w).endL cornerModel 0 0).getD i 0 = 0 := by
    intro i hi
    obtain rfl | rfl : i = 0 ∨ i = 1 := by omega
    · rfl
    · rfl
  rw [hW]
  refine ⟨?_, ?_, ?_, ?_, ?_, ?_, ?_, ?_, ?_, ?_, ?_, ?_, ?_, ?_, ?_⟩
  · intro k e hk i hi
    obtain ⟨rfl, rfl⟩ := D.fe hk
    have hi : i < 3 := hi
    rw [s0]
    obtain rfl | rfl | rfl : i = 0 ∨ i = 1 ∨ i = 2 := by omega
    · simp [cornerPath, Path.slope, cornerModel, UserModel.nSys, UserModel.Fmat, cornerF,
        Finset.sum_range_succ]
      ring
    · simp [cornerPath, Path.slope, cornerModel, UserModel.nSys, UserModel.Fmat, cornerF,
        Finset.sum_range_succ]
      ring
    · simp [cornerPath, Path.slope, cornerModel, UserModel.nSys, UserModel.Fmat, cornerF,
        Finset.sum_range_succ]
      ring
  · intro k e hk s hs
    obtain rfl := corner_sys hs
    refine ⟨fun i _ => ?_, ?_⟩
    · simp only [cornerPath]
      split
      · exact hw.1
      · exact sub_nonneg.2 hw.2
    · simp [cornerPath, cornerModel, UserModel.Fmat, cornerF, Finset.sum_range_succ]
      ring
  · intro k e hk s hs i hi _
    obtain ⟨rfl, rfl⟩ := D.fe hk
    exact ⟨hcl s hs i hi _ (st 0) (st 1) _, hcl s hs i hi _ (en 0 (by omega)) (en 1 (by omega)) _⟩
  · intro k e hk s hs i hi _
    obtain ⟨rfl, rfl⟩ := D.fe hk
    exact hcl s hs i hi _ (st 0) (st 1) _
  · intro k e hk
    obtain ⟨rfl, rfl⟩ := D.fe hk
    unfold nominalH
    rw [D.stages, D.nfe0, D.time, D.gamma]
    norm_num [cornerPath]
  · intro _ k hk
    rw [D.stages] at hk
    obtain rfl : k = 0 := by omega
    rw [D.stages, D.nfe0, D.time]
    simp [cornerPath]
  · intro _ h1; rw [D.equi] at h1; cases h1
  · intro _ k _; rfl
  · intro h0; rw [D.sot] at h0; cases h0
  · intro i _; exact ⟨bot_le, le_top⟩
  · intro k e _ i _; exact ⟨bot_le, le_top⟩
  · intro k _ i hi; exact absurd hi (by simp [cornerModel])
  · intro i hi; exact absurd hi (by simp [cornerModel])
  · intro k e _ _ i hi; exact absurd hi (by simp [UserOcp.trivial])
  · intro i hi; exact absurd hi (by simp [UserOcp.trivial])

end
end Nosnoc
