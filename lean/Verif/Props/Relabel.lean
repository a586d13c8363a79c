import Verif.Proofs.Relabel
import Verif.Props.Renumber
import Verif.Props.Ocp
import Verif.Witness.TwoStewart
/-
C126: the order in which the user lists the subsystems and their switching functions does not matter.
-/
namespace Nosnoc

section
variable {colloc : IrkScheme → Nat → List ℝ} {o : Opts} {um : UserModel} {uo : Option UserOcp}
  {po : PreOpts} {m : PreModel} {oc : PreOcp} {P : Problem} {env : Env} {σ : Equiv.Perm Nat}
  {ρ : Nat → Equiv.Perm Nat} {m' : PreModel} {oc' : PreOcp} {P' : Problem}

theorem relabel_initCheck : (um.relabel σ ρ).initCheck = um.initCheck := by
  unfold UserModel.initCheck UserModel.relabel
  simp

/-- The relabelled model is accepted. -/
theorem relabel_preprocess (h : um.Relabels σ ρ) (hi : um.initCheck = .ok ())
    (ha : um.alpha = none) (hm : um.preprocess po = .ok m) :
    ∃ m', (um.relabel σ ρ).preprocess po = .ok m' := by
  refine (C70_preprocess_iff (relabel_initCheck.trans hi) fun _ => ha).2 ?_
  obtain ⟨hc, hk⟩ := (C70_preprocess_iff hi fun _ => ha).1 ⟨m, hm⟩
  refine ⟨⟨hc.z0, hc.lbz, hc.ubz, hc.pGlobal, hc.pTimeVar, hc.time⟩, ?_⟩
  rcases hk with ⟨Fs, cs, Ss, H⟩ | ⟨Fs, gs, H⟩ | ⟨f, cs, al, H⟩
  · have hn := nSys_of_F H.F
    refine .inl ⟨reorder σ Fs, (reorder σ cs).mapIdx fun s c => c.renumber (ρ s),
      (reorder σ Ss).mapIdx fun s S => S.permuteCols (ρ s), ?_, ?_,
      ?_, ?_, ?_, ?_, ?_, ?_, ?_, ?_, ?_⟩
    · unfold UserModel.relabel; simp [H.F]
    · unfold UserModel.relabel; simp [H.c]
    · unfold UserModel.relabel; simp [H.S]
    · unfold UserModel.relabel; simp [H.g]
    · intro f hf
      obtain ⟨s, hs⟩ := List.mem_iff_getElem?.1 hf
      rw [reorder_get? h.sys hn.ge] at hs
      exact H.switching f (List.mem_iff_getElem?.2 ⟨_, hs⟩)
    · simp only [List.length_mapIdx, length_reorder]; exact H.lenCS
    · simp only [List.length_mapIdx, length_reorder]; exact H.lenFC
    · intro s hs
      rw [length_reorder, hn, ← h.lt, ← hn] at hs
      rw [relabel_Fmat h, relabel_Smat h]
      exact H.rows (σ s) hs
    · intro hp s hs
      rw [length_reorder, hn, ← h.lt, ← hn] at hs
      rw [relabel_Smat h, relabel_cVec h]
      exact H.cols hp (σ s) hs
    · intro hp s hs i hi k hk hne
      rw [length_reorder, hn] at hs
      have hs' := (h.lt s).2 hs
      rw [← hn] at hs'
      rw [relabel_Smat h] at hi hk hne
      rw [relabel_cVec h]
      have := H.used hp (σ s) hs' i hi (ρ s k) ((h.ltS hs k).2 hk) hne
      exact (h.ltC hs k).1 this
    · intro hp s hs
      rw [length_reorder, hn] at hs
      have hs' := (h.lt s).2 hs
      have h0 := (h.lt 0).2 (by omega)
      rw [← hn] at hs' h0
      rw [relabel_Smat h, relabel_Smat h]
      exact (H.equal hp _ hs').trans (H.equal hp _ h0).symm
  · have hn := nSys_of_F H.F
    refine .inr (.inl ⟨reorder σ Fs, reorder σ gs, ?_, ?_, ?_, ?_, H.stewart, ?_, ?_, ?_⟩)
    · unfold UserModel.relabel; simp [H.F]
    · unfold UserModel.relabel; simp [H.g]
    · intro h0
      exact H.nonempty (List.length_eq_zero_iff.1 (by rw [← length_reorder (σ := σ), h0]; rfl))
    · unfold UserModel.relabel
      rcases H.cS with h0 | h0
      · exact .inl (by simp [h0])
      · exact .inr (by simp [h0])
    · intro f hf
      obtain ⟨s, hs⟩ := List.mem_iff_getElem?.1 hf
      rw [reorder_get? h.sys hn.ge] at hs
      exact H.switching f (List.mem_iff_getElem?.2 ⟨_, hs⟩)
    · rw [length_reorder, length_reorder]; exact H.len
    · intro s hs
      rw [length_reorder, hn, ← h.lt, ← hn] at hs
      rw [relabel_Fmat h, relabel_gSt h]
      exact H.cols (σ s) hs
  · exact absurd H.F h.systems

theorem SetupEx.relabel (h : SetupEx colloc o um uo po m oc P) (hr : um.Relabels σ ρ) :
    ∃ m' oc' P', SetupEx colloc o (um.relabel σ ρ) uo po m' oc' P' ∧ RelabelDims po m.dims m'.dims um σ := by
  have hc := h.ok
  unfold construct at hc
  simp only [bind_eq_ok] at hc
  obtain ⟨_, hi, a, ha, b, hb, c, hcc, d, hd, hh⟩ := hc
  cases hh
  have hal : um.alpha = none := h.alpha (Option.isSome_iff_ne_none.2 hr.systems)
  obtain ⟨m', hm'⟩ := relabel_preprocess hr hi hal hb
  have e : m'.dims.nX = m.dims.nX ∧ m'.dims.nU = m.dims.nU ∧ m'.dims.nV = m.dims.nV ∧ m'.dims.nPtv = m.dims.nPtv := by
    obtain ⟨nC, nF, _, _, _, _, H⟩ := preprocess_pre hb
    obtain ⟨nC', nF', _, _, _, _, H'⟩ := preprocess_pre hm'
    rw [H.dims, H'.dims]
    exact ⟨rfl, rfl, rfl, rfl⟩
  obtain ⟨e1, e2, e3, e4⟩ := e
  obtain ⟨oc', hoc⟩ : ∃ oc', (uo.getD UserOcp.trivial).preprocess m' = .ok oc' := by
    have := C72_accepts_iff.1 ⟨_, hcc⟩
    refine C72_accepts_iff.2 ?_
    rw [e1, e2, e3]
    exact this
  obtain ⟨P', hP'⟩ := (C06_construct_iff (relabel_initCheck.trans hi) ha hm' hoc h.nS (fun _ => hal) h.exact).2
    ((C06_construct_iff hi ha hb hcc h.nS h.alpha h.exact).1 ⟨P, h.ok⟩)
  have h' : Setup colloc o (um.relabel σ ρ) uo po m' oc' P' := ⟨hP', h.nS, fun _ => hal⟩
  refine ⟨m', oc', P', ⟨h', h.exact, fun r hr => ?_⟩, ?_⟩
  · obtain ⟨s1, s2⟩ := h.sound r hr
    exact ⟨s1, by rw [e4]; exact s2⟩
  · obtain ⟨a1, a2, a3, a4, a5, a6, a7, a8, a9⟩ := h.toSetup.dims
    obtain ⟨b1, b2, b3, b4, b5, b6, b7, b8, b9⟩ := h'.dims
    refine ⟨e1, e2, b3.trans a3.symm, e3, e4, b6.trans a6.symm, b7.trans relabel_nSys, a7, a8, ?_, a9, ?_⟩
    · intro hp s hs
      rw [b8 hp s (by rw [relabel_nSys]; exact hs), relabel_Fmat hr]
    · intro hp s hs
      rw [b9 hp s (by rw [relabel_nSys]; exact hs), relabel_cVec hr]
      rfl

theorem RelabelDims.symm {d d' : Dims} (h : um.Relabels σ ρ) (hd : RelabelDims po d d' um σ) :
    RelabelDims po d' d (um.relabel σ ρ) σ.symm where
  nX := hd.nX.symm
  nU := hd.nU.symm
  nZ := hd.nZ.symm
  nV := hd.nV.symm
  nPtv := hd.nPtv.symm
  nPgl := hd.nPgl.symm
  sys' := by rw [relabel_nSys]; exact hd.sys
  sys := by rw [relabel_nSys]; exact hd.sys'
  nF := by
    intro hp s hs
    rw [relabel_nSys] at hs
    rw [hd.nF' hp s hs, relabel_Fmat h]
  nF' := by
    intro hp s hs
    rw [relabel_nSys] at hs
    rw [hd.nF hp s hs, relabel_Fmat h, Equiv.apply_symm_apply]
  nC := by
    intro hp s hs
    rw [relabel_nSys] at hs
    rw [hd.nC' hp s hs, relabel_cVec h]
    rfl
  nC' := by
    intro hp s hs
    rw [relabel_nSys] at hs
    rw [hd.nC hp s hs, relabel_cVec h, Equiv.apply_symm_apply]
    rfl

theorem relabel_spec_iff {d d' : Dims} {uo : UserOcp} (hr : um.Relabels σ ρ) (hd : RelabelDims po d d' um σ) :
    FeasibleSpec po d' (um.relabel σ ρ) uo (relabelEnv σ ρ env) ↔ FeasibleSpec po d um uo env := by
  refine ⟨fun hf => ?_, fun hf => hf.relabel hr hd⟩
  have := hf.relabel hr.symm (hd.symm hr)
  rwa [relabel_relabel hr, relabelEnv_relabelEnv] at this

/-! ### C126 -/

/-- C126: a model whose subsystems are listed in another order, and whose switching functions are listed
in another order within the subsystems (entries of `c` together with the columns of `S`), is accepted as
well, and its problem is the same up to renaming: the point with the convex coefficients, step
coefficients and multipliers renamed is feasible for the new problem iff the original point is feasible
for the original problem, and both have the same objective. -/
theorem C126_relabelling (h : SetupEx colloc o um uo po m oc P) (hb : o.mpcc ≠ .boolean)
    (hr : um.Relabels σ ρ) :
    ∃ m' oc' P', SetupEx colloc o (um.relabel σ ρ) uo po m' oc' P' ∧ ∀ env,
      (P'.form.Feasible (relabelEnv σ ρ env) ↔ P.form.Feasible env) ∧
      P'.form.cost (relabelEnv σ ρ env) = P.form.cost env := by
  obtain ⟨m', oc', P', h', hd⟩ := h.relabel hr
  refine ⟨m', oc', P', h', fun env => ⟨?_, ?_⟩⟩
  · rw [h'.iff hb, h.iff hb]
    exact relabel_spec_iff hr hd
  · rw [h'.toSetup.built.cost h'.exact', h.toSetup.built.cost h.exact']
    exact relabel_objective hr hd

/-- C126 with binary variables: the points correspond up to the values of the binary variables. -/
theorem C126_relabelling_boolean (h : SetupEx colloc o um uo po m oc P) (hb : o.mpcc = .boolean)
    (hr : um.Relabels σ ρ) :
    ∃ m' oc' P', SetupEx colloc o (um.relabel σ ρ) uo po m' oc' P' ∧ ∀ env,
      ((∃ env', (∀ s, ¬ IsBoolSym s → env' s = relabelEnv σ ρ env s) ∧ P'.form.Feasible env') ↔
        ∃ env', (∀ s, ¬ IsBoolSym s → env' s = env s) ∧ P.form.Feasible env') ∧
      P'.form.cost (relabelEnv σ ρ env) = P.form.cost env := by
  obtain ⟨m', oc', P', h', hd⟩ := h.relabel hr
  refine ⟨m', oc', P', h', fun env => ⟨?_, ?_⟩⟩
  · rw [C83_feasible_iff_boolean h' hb, C83_feasible_iff_boolean h hb]
    exact relabel_spec_iff hr hd
  · rw [h'.toSetup.built.cost h'.exact', h.toSetup.built.cost h.exact']
    exact relabel_objective hr hd

/-- C126: the relabelled model is accepted by `preprocess_model` iff the original one is. -/
theorem C126_accepted_iff (hi : um.initCheck = .ok ()) (ha : um.alpha = none) (hr : um.Relabels σ ρ) :
    (∃ m, um.preprocess po = .ok m) ↔ ∃ m, (um.relabel σ ρ).preprocess po = .ok m := by
  constructor
  · rintro ⟨m, hm⟩
    exact relabel_preprocess hr hi ha hm
  · rintro ⟨m, hm⟩
    have := relabel_preprocess hr.symm (relabel_initCheck.trans hi) ha hm
    rwa [relabel_relabel hr] at this

/-- C126: the correspondence of points is one to one. -/
theorem C126_correspondence (σ : Equiv.Perm Nat) (ρ : Nat → Equiv.Perm Nat) :
    Function.Bijective (relabelEnv σ ρ) :=
  Function.bijective_iff_has_inverse.2 ⟨relabelEnv σ.symm (undo σ ρ), fun _ => relabelEnv_relabelEnv,
    fun _ => relabelEnv_relabelEnv'⟩

/-- C126: the initial multipliers correspond as well. -/
theorem C126_initial_multipliers (hr : um.Relabels σ ρ) {s : Nat} (hs : s < um.nSys) (x z p : List ℝ)
    (i : Nat) :
    (um.relabel σ ρ).lam00St x z p s i = um.lam00St x z p (σ s) i ∧
    (um.relabel σ ρ).lam00Neg x z p s i = um.lam00Neg x z p (σ s) (ρ s i) ∧
    (um.relabel σ ρ).lam00Pos x z p s i = um.lam00Pos x z p (σ s) (ρ s i) := by
  refine ⟨?_, ?_, ?_⟩
  · unfold UserModel.lam00St
    simp only [relabel_gVal hr hs]
    rw [relabel_Fmat hr]
  · unfold UserModel.lam00Neg
    rw [relabel_cVec hr]
    rfl
  · unfold UserModel.lam00Pos
    rw [relabel_cVec hr]
    rfl

/-! ### Two different subsystems -/

/-- Four regions, separated by two switching functions; the rows are the signs in the order
`(+,+), (+,-), (-,+), (-,-)`. -/
def signsMat : SMat := ⟨4, 2, fun i k => if k = 0 then (if i < 2 then 1 else -1) else
  (if i % 2 = 0 then 1 else -1)⟩

/-- A subsystem with two regions and one with four regions. -/
noncomputable def mixModel : UserModel :=
  { twoModel with
    F := some [⟨2, fun _ i _ _ _ _ _ => i⟩, ⟨4, fun _ i _ _ _ _ _ => 10 * i⟩]
    c := some [⟨1, fun _ x _ _ => x.getD 0 0⟩, ⟨2, fun k x _ _ => x.getD 0 0 - k⟩]
    S := some [signMat, signsMat] }

theorem mix_setup :
    ∃ po m oc P, SetupEx oneColloc twoStewartOpts mixModel (some UserOcp.trivial) po m oc P := by
  obtain ⟨po, hpo⟩ : ∃ po, twoStewartOpts.preprocess oneColloc = .ok po :=
    flex_preOpts (by norm_num [twoStewartOpts, Opts.default]) (.inr ⟨radau1, rfl, by simp [radau1]⟩)
  have h1 := preprocess_opts hpo
  have e := h1.toOpts
  have e1 : po.pss = .stewart := by rw [e]; rfl
  have e2 : po.timeFreezing = false := by rw [e]; rfl
  obtain ⟨m, hm⟩ : ∃ m, mixModel.preprocess po = .ok m := by
    refine switched_ok (Fs := [⟨2, fun _ i _ _ _ _ _ => i⟩, ⟨4, fun _ i _ _ _ _ _ => 10 * i⟩])
      (cs := [⟨1, fun _ x _ _ => x.getD 0 0⟩, ⟨2, fun k x _ _ => x.getD 0 0 - k⟩])
      (Ss := [signMat, signsMat]) ⟨?_, ?_, ?_, rfl, ?_, .inr e2⟩
      ⟨rfl, rfl, rfl, rfl, ?_, rfl, le_rfl, ?_, ?_, ?_, ?_⟩ rfl
    · intro l h; cases h
    · intro l h; cases h
    · intro l h; cases h
    · intro V h; cases h
    · intro f hf
      simp only [List.mem_cons, List.not_mem_nil, or_false] at hf
      rcases hf with rfl | rfl
      · simp
      · simp
    · intro s hs
      obtain rfl | rfl : s = 0 ∨ s = 1 := by simp at hs; omega
      · rfl
      · rfl
    · intro _ s hs
      obtain rfl | rfl : s = 0 ∨ s = 1 := by simp at hs; omega
      · rfl
      · rfl
    · intro hp
      rw [e1] at hp
      cases hp
    · intro hp
      rw [e1] at hp
      cases hp
  obtain ⟨oc, hoc⟩ : ∃ oc, UserOcp.trivial.preprocess m = .ok oc := by
    obtain ⟨nC, nF, g, up, f0, acc, hp⟩ := preprocess_pre hm
    unfold UserOcp.preprocess
    rw [hp.dims]
    exact ⟨_, rfl⟩
  obtain ⟨P, hP⟩ := (C06_construct_iff (uo := some UserOcp.trivial) rfl hpo hm hoc
    (by simp [twoStewartOpts]) (fun _ => rfl) rfl).2 ⟨by simp [twoStewartOpts, Opts.default], rfl,
      by simp [twoStewartOpts, Opts.default], fun k hk => by
        have hk0 : k = 0 := by simpa [twoStewartOpts, Opts.default] using hk
        subst hk0
        exact ⟨1, rfl, Nat.one_pos⟩, by simp [twoStewartOpts, Opts.default]⟩
  exact ⟨po, m, oc, P, ⟨⟨hP, by simp [twoStewartOpts], fun _ => rfl⟩, rfl, by simp [UserOcp.trivial]⟩⟩

/-- Both subsystems swapped, and the two switching functions of the second one. -/
theorem mix_relabels : mixModel.Relabels (Equiv.swap 0 1) fun s => if s = 0 then Equiv.swap 0 1 else 1 := by
  have hn : mixModel.nSys = 2 := rfl
  have sw : ∀ s, 2 ≤ s → Equiv.swap 0 1 s = s := fun s hs =>
    Equiv.swap_apply_of_ne_of_ne (by omega) (by omega)
  refine ⟨by simp [mixModel], by rw [hn]; exact sw, ?_, ?_, ?_, ?_, ?_, ?_⟩
  · intro s hs k hk
    rw [hn] at hs
    obtain rfl | rfl : s = 0 ∨ s = 1 := by omega
    · rw [Equiv.swap_apply_left] at hk
      exact sw k hk
    · rfl
  · intro s hs k hk
    rw [hn] at hs
    obtain rfl | rfl : s = 0 ∨ s = 1 := by omega
    · rw [Equiv.swap_apply_left] at hk
      exact sw k hk
    · rfl
  · intro s hs
    rw [hn] at hs
    exact if_neg (by omega)
  · intro l hl
    cases hl
    exact le_rfl
  · intro l hl
    cases hl
    exact le_rfl
  · intro l hl
    cases hl

/-- The hypotheses are met by these two subsystems; the relabelled model is another one: its first
subsystem has four regions, and region `1` is now described by `(-,+)`. -/
example : ∃ po m oc P, SetupEx oneColloc twoStewartOpts mixModel (some UserOcp.trivial) po m oc P ∧
    twoStewartOpts.mpcc ≠ .boolean ∧
    mixModel.Relabels (Equiv.swap 0 1) (fun s => if s = 0 then Equiv.swap 0 1 else 1) ∧
    (mixModel.Fmat 0).nCols = 2 ∧
    ((mixModel.relabel (Equiv.swap 0 1) fun s => if s = 0 then Equiv.swap 0 1 else 1).Fmat 0).nCols = 4 ∧
    ((mixModel.relabel (Equiv.swap 0 1) fun s => if s = 0 then Equiv.swap 0 1 else 1).Smat 0).entry 1 0 = -1 ∧
    (mixModel.Smat 1).entry 1 0 = 1 := by
  obtain ⟨po, m, oc, P, h⟩ := mix_setup
  refine ⟨po, m, oc, P, h, by simp [twoStewartOpts, Opts.default], mix_relabels, rfl, ?_, ?_, ?_⟩
  · rw [relabel_Fmat mix_relabels, Equiv.swap_apply_left]
    rfl
  · rw [relabel_Smat mix_relabels, Equiv.swap_apply_left]
    simp [SMat.permuteCols, mixModel, UserModel.Smat, signsMat]
  · simp [mixModel, UserModel.Smat, signsMat]

end
end Nosnoc
