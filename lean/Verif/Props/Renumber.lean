import Verif.Proofs.Renumber
import Verif.Proofs.ModelFacts
import Verif.Props.Accept
import Verif.Props.Layout
import Verif.Props.Reps
import Verif.Props.Discretised
import Verif.Props.Report
import Verif.Props.Complete
/-
C102: the order in which the user lists the regions does not matter.
-/
namespace Nosnoc

section
variable {colloc : IrkScheme → Nat → List ℝ} {o : Opts} {um : UserModel} {uo : Option UserOcp}
  {po : PreOpts} {m : PreModel} {oc : PreOcp} {P : Problem} {env : Env} {π : Nat → Equiv.Perm Nat}
  {po' : PreOpts} {m' : PreModel} {oc' : PreOcp} {P' : Problem}

theorem renumber_initCheck : (um.renumber π).initCheck = um.initCheck := by
  unfold UserModel.initCheck UserModel.renumber
  simp

/-- The renumbered model is accepted. -/
theorem renumber_preprocess (h : um.Renumbers π) (hi : um.initCheck = .ok ())
    (ha : um.F ≠ none → um.alpha = none) (hm : um.preprocess po = .ok m) :
    ∃ m', (um.renumber π).preprocess po = .ok m' := by
  have ha' : (um.renumber π).F ≠ none → (um.renumber π).alpha = none := by
    intro hF
    refine ha fun h0 => hF ?_
    unfold UserModel.renumber
    simp [h0]
  refine (C70_preprocess_iff (renumber_initCheck.trans hi) ha').2 ?_
  obtain ⟨hc, hk⟩ := (C70_preprocess_iff hi ha).1 ⟨m, hm⟩
  refine ⟨⟨hc.z0, hc.lbz, hc.ubz, hc.pGlobal, hc.pTimeVar, hc.time⟩, ?_⟩
  have hn : ∀ {Fs}, um.F = some Fs → Fs.length = um.nSys := by
    intro Fs hF; unfold UserModel.nSys; rw [hF]
  rcases hk with ⟨Fs, cs, Ss, H⟩ | ⟨Fs, gs, H⟩ | ⟨f, cs, al, H⟩
  · refine .inl ⟨Fs.mapIdx fun s M => M.renumber (π s), cs, Ss.mapIdx fun s M => M.renumber (π s), ?_, H.c,
      ?_, ?_, ?_, ?_, ?_, ?_, ?_, ?_, ?_⟩
    · unfold UserModel.renumber; simp [H.F]
    · unfold UserModel.renumber; simp [H.S]
    · unfold UserModel.renumber; simp [H.g]
    · intro f hf
      obtain ⟨s, hs, rfl⟩ := List.mem_mapIdx.1 hf
      exact H.switching Fs[s] (List.getElem_mem hs)
    · rw [List.length_mapIdx]; exact H.lenCS
    · rw [List.length_mapIdx]; exact H.lenFC
    · intro s hs
      rw [List.length_mapIdx] at hs
      rw [renumber_Fmat, renumber_Smat]
      exact H.rows s hs
    · intro hp s hs
      rw [List.length_mapIdx] at hs
      rw [renumber_Smat]
      exact H.cols hp s hs
    · intro hp s hs i hi k hk hne
      rw [List.length_mapIdx] at hs
      rw [renumber_Smat] at hi hk hne
      refine H.used hp s hs (π s i) ?_ k hk hne
      have hs' : s < um.nSys := by rw [← hn H.F]; exact hs
      rw [← H.rows s hs, h s hs', H.rows s hs]
      exact hi
    · intro hp s hs
      rw [List.length_mapIdx] at hs
      rw [renumber_Smat, renumber_Smat]
      exact H.equal hp s hs
  · refine .inr (.inl ⟨Fs.mapIdx fun s M => M.renumber (π s), gs.mapIdx fun s g => g.renumber (π s), ?_, ?_, ?_, ?_,
      H.stewart, ?_, ?_, ?_⟩)
    · unfold UserModel.renumber; simp [H.F]
    · unfold UserModel.renumber; simp [H.g]
    · intro h0
      exact H.nonempty (List.length_eq_zero_iff.1 (by rw [← List.length_mapIdx, h0]; rfl))
    · rcases H.cS with h0 | h0
      · exact .inl h0
      · refine .inr ?_
        unfold UserModel.renumber; simp [h0]
    · intro f hf
      obtain ⟨s, hs, rfl⟩ := List.mem_mapIdx.1 hf
      exact H.switching Fs[s] (List.getElem_mem hs)
    · rw [List.length_mapIdx, List.length_mapIdx]; exact H.len
    · intro s hs
      rw [List.length_mapIdx] at hs
      rw [renumber_Fmat, renumber_gSt]
      exact H.cols s hs
  · refine .inr (.inr ⟨f, cs, al, ?_, H.fx, H.c, H.alpha, H.step, H.total, H.lenA, H.lenC, ?_, ?_⟩)
    · unfold UserModel.renumber; simp [H.F]
    · rw [renumber_truthy]; exact H.first
    · rw [renumber_truthy]; exact H.noG

theorem renumber_nFsys {a b : List Nat} {pss : PssMode} (h : um.nFsys pss = .ok a)
    (h' : (um.renumber π).nFsys pss = .ok b) : a = b := by
  unfold UserModel.nFsys at h h'
  rw [renumber_truthy] at h'
  cases hF : um.F with
  | some F =>
    have e : (um.renumber π).F = some (F.mapIdx fun s M => M.renumber (π s)) := by
      unfold UserModel.renumber; simp [hF]
    have e2 : (F.mapIdx fun s M => M.renumber (π s)).map UMat.nCols = F.map UMat.nCols := by
      refine List.ext_getElem (by simp) fun i _ _ => ?_
      simp [UMat.renumber]
    have ec : (um.renumber π).c = um.c := rfl
    have eS : (um.renumber π).S = um.S.map fun l => l.mapIdx fun s M => M.renumber (π s) := rfl
    rw [hF] at h
    rw [e, ec, eS] at h'
    by_cases ht : um.gStewartTruthy = true
    · simp only [ht, if_true, bind_eq_ok] at h h'
      obtain ⟨_, _, _, _, _, _, h⟩ := h
      obtain ⟨_, _, _, _, _, _, h'⟩ := h'
      cases h; cases h'
      exact e2.symm
    · rw [Bool.not_eq_true] at ht
      simp only [ht, Bool.false_eq_true, if_false, bind_eq_ok] at h h'
      obtain ⟨_, _, h⟩ := h
      obtain ⟨_, _, h'⟩ := h'
      cases hc : um.c <;> cases hS : um.S <;> simp only [hc, hS, Option.map_some, bind_eq_ok, reduceCtorEq] at h h'
      obtain ⟨_, _, _, _, h⟩ := h
      obtain ⟨_, _, _, _, h'⟩ := h'
      cases h; cases h'
      exact e2.symm
  | none =>
    have e : (um.renumber π).F = none := by unfold UserModel.renumber; simp [hF]
    have ec : (um.renumber π).c = um.c := rfl
    have ea : (um.renumber π).alpha = um.alpha := rfl
    rw [hF] at h
    rw [e, ec, ea] at h'
    exact (Except.ok.injEq _ _).mp (h.symm.trans h')

/-- Same dimensions, same layout of the algebraic variables. -/
theorem renumber_dims (hm : um.preprocess po = .ok m) (hm' : (um.renumber π).preprocess po = .ok m') :
    m'.dims = m.dims ∧ m'.zAll = m.zAll := by
  obtain ⟨nC, nF, _, _, _, _, H⟩ := preprocess_pre hm
  obtain ⟨nC', nF', _, _, _, _, H'⟩ := preprocess_pre hm'
  have h1 : nC' = nC := by
    have := H'.hnC
    have h2 := H.hnC
    unfold UserModel.nCsys at this h2
    rw [renumber_truthy, renumber_nSys] at this
    exact (Except.ok.injEq _ _).mp (this.symm.trans h2)
  have h2 : nF' = nF := (renumber_nFsys H.hnF H'.hnF).symm
  have hd : m'.dims = m.dims := by
    rw [H'.dims, H.dims, h1, h2]
    unfold dimsOf
    rw [renumber_nSys]
    rfl
  refine ⟨hd, ?_⟩
  rw [H'.zAll, H.zAll, hd]
  rfl

theorem SetupEx.renumber (h : SetupEx colloc o um uo po m oc P) (hπ : um.Renumbers π) :
    ∃ m' P', SetupEx colloc o (um.renumber π) uo po m' oc P' ∧ m'.dims = m.dims := by
  have hc := h.ok
  unfold construct at hc
  simp only [bind_eq_ok] at hc
  obtain ⟨_, hi, a, ha, b, hb, c, hcc, d, hd, hh⟩ := hc
  cases hh
  have hal : um.F ≠ none → um.alpha = none := fun hF =>
    h.alpha (Option.isSome_iff_ne_none.2 hF)
  obtain ⟨m', hm'⟩ := renumber_preprocess hπ hi hal hb
  obtain ⟨e1, e2⟩ := renumber_dims hb hm'
  have hoc : (uo.getD UserOcp.trivial).preprocess m' = .ok oc := by
    rw [← hcc]
    unfold UserOcp.preprocess
    rw [e1, e2]
  have hal' : (um.renumber π).F.isSome = true → (um.renumber π).alpha = none := by
    intro hF
    refine h.alpha ?_
    revert hF
    unfold UserModel.renumber
    simp
  obtain ⟨P', hP'⟩ := (C06_construct_iff (renumber_initCheck.trans hi) ha hm' hoc h.nS hal' h.exact).2
    ((C06_construct_iff hi ha hb hcc h.nS h.alpha h.exact).1 ⟨P, h.ok⟩)
  exact ⟨m', P', ⟨⟨hP', h.nS, hal'⟩, h.exact, by rw [e1]; exact h.sound⟩, e1⟩

theorem SetupEx.regionDims (h : SetupEx colloc o um uo po m oc P) : RegionDims po m.dims um := by
  obtain ⟨_, _, _, _, _, _, h7, h8, _⟩ := h.toSetup.dims
  exact ⟨h7, h8⟩

theorem renumber_spec_iff {d : Dims} {uo : UserOcp} (hπ : um.Renumbers π) (hd : RegionDims po d um) :
    FeasibleSpec po d (um.renumber π) uo (renumberEnv π env) ↔ FeasibleSpec po d um uo env := by
  refine ⟨fun hf => ?_, fun hf => hf.renumber hπ hd⟩
  have hd' : RegionDims po d (um.renumber π) := by
    refine ⟨by rw [renumber_nSys]; exact hd.1, fun hp s hs => ?_⟩
    rw [renumber_nSys] at hs
    rw [renumber_Fmat]
    exact hd.2 hp s hs
  have := hf.renumber hπ.symm hd'
  rwa [renumber_renumber, renumberEnv_renumberEnv] at this

/-! ### C102 -/

/-- C102: a model whose regions are listed in another order (columns of `F`, rows of `S`, entries of
`g_Stewart`, in every subsystem) is accepted as well, and its problem is the same up to renaming: the
point with the convex coefficients and multipliers renamed is feasible for the new problem iff the
original point is feasible for the original problem, and both have the same objective. -/
theorem C102_renumbering (h : SetupEx colloc o um uo po m oc P) (hb : o.mpcc ≠ .boolean)
    (hπ : um.Renumbers π) :
    ∃ m' P', SetupEx colloc o (um.renumber π) uo po m' oc P' ∧ ∀ env,
      (P'.form.Feasible (renumberEnv π env) ↔ P.form.Feasible env) ∧
      P'.form.cost (renumberEnv π env) = P.form.cost env := by
  obtain ⟨m', P', h', e⟩ := h.renumber hπ
  refine ⟨m', P', h', fun env => ⟨?_, ?_⟩⟩
  · rw [h'.iff hb, h.iff hb, e]
    exact renumber_spec_iff hπ h.regionDims
  · rw [h'.toSetup.built.cost h'.exact', h.toSetup.built.cost h.exact', e]
    exact renumber_objective hπ h.regionDims

/-- C102 with binary variables: the points correspond up to the values of the binary variables. -/
theorem C102_renumbering_boolean (h : SetupEx colloc o um uo po m oc P) (hb : o.mpcc = .boolean)
    (hπ : um.Renumbers π) :
    ∃ m' P', SetupEx colloc o (um.renumber π) uo po m' oc P' ∧ ∀ env,
      ((∃ env', (∀ s, ¬ IsBoolSym s → env' s = renumberEnv π env s) ∧ P'.form.Feasible env') ↔
        ∃ env', (∀ s, ¬ IsBoolSym s → env' s = env s) ∧ P.form.Feasible env') ∧
      P'.form.cost (renumberEnv π env) = P.form.cost env := by
  obtain ⟨m', P', h', e⟩ := h.renumber hπ
  refine ⟨m', P', h', fun env => ⟨?_, ?_⟩⟩
  · rw [C83_feasible_iff_boolean h' hb, C83_feasible_iff_boolean h hb, e]
    exact renumber_spec_iff hπ h.regionDims
  · rw [h'.toSetup.built.cost h'.exact', h.toSetup.built.cost h.exact', e]
    exact renumber_objective hπ h.regionDims

/-- C102: the renumbered model is accepted by `preprocess_model` iff the original one is. -/
theorem C102_accepted_iff (hi : um.initCheck = .ok ()) (ha : um.F ≠ none → um.alpha = none)
    (hπ : um.Renumbers π) :
    (∃ m, um.preprocess po = .ok m) ↔ ∃ m, (um.renumber π).preprocess po = .ok m := by
  constructor
  · rintro ⟨m, hm⟩
    exact renumber_preprocess hπ hi ha hm
  · rintro ⟨m, hm⟩
    have := renumber_preprocess hπ.symm (renumber_initCheck.trans hi) (fun hF => by
      refine ha fun h0 => hF ?_
      unfold UserModel.renumber
      simp [h0]) hm
    rwa [renumber_renumber] at this

/-- C102: the correspondence of points is one to one. -/
theorem C102_correspondence (π : Nat → Equiv.Perm Nat) : Function.Bijective (renumberEnv π) := by
  refine Function.bijective_iff_has_inverse.2 ⟨renumberEnv fun s => (π s).symm, fun env => ?_, fun env => ?_⟩
  · exact renumberEnv_renumberEnv
  · exact renumberEnv_renumberEnv (π := fun s => (π s).symm) (env := env)

/-- C102: the initial multipliers handed to the solver correspond as well. -/
theorem C102_initial_multipliers (hπ : um.Renumbers π) {s : Nat} (hs : s < um.nSys) (x z p : List ℝ)
    (i : Nat) :
    (um.renumber π).lam00St x z p s i = um.lam00St x z p s (π s i) ∧
    (um.renumber π).lam00Neg x z p s i = um.lam00Neg x z p s i ∧
    (um.renumber π).lam00Pos x z p s i = um.lam00Pos x z p s i := by
  refine ⟨?_, rfl, rfl⟩
  unfold UserModel.lam00St
  have e : (⨅ j : Fin ((um.renumber π).Fmat s).nCols, (um.renumber π).gVal s j x z p)
      = ⨅ j : Fin (um.Fmat s).nCols, um.gVal s j x z p := by
    rw [renumber_Fmat]
    simp only [renumber_gVal]
    let σ : Fin (um.Fmat s).nCols ≃ Fin (um.Fmat s).nCols :=
      ⟨fun j => ⟨π s j, (hπ s hs j).2 j.2⟩,
       fun j => ⟨(π s).symm j, (hπ s hs _).1 (by rw [Equiv.apply_symm_apply]; exact j.2)⟩,
       fun j => by simp, fun j => by simp⟩
    exact Equiv.iInf_comp (g := fun j : Fin (um.Fmat s).nCols => um.gVal s j x z p) σ
  rw [renumber_gVal, e]

/-- `ẋ = -sign(x)` with its two regions swapped: the renumbering is a proper one, and the point that
follows the sliding solution is feasible, so the theorem yields a feasible point of the renumbered
problem. -/
example : ∃ po m oc P env, SetupEx demoColloc (slideOpts 1 2) slideModel (some UserOcp.trivial) po m oc P ∧
    (slideOpts 1 2).mpcc ≠ .boolean ∧ slideModel.Renumbers (fun _ => Equiv.swap 0 1) ∧
    ((slideModel.renumber fun _ => Equiv.swap 0 1).Fmat 0).entry 0 0 [] [] [] [] []
      ≠ (slideModel.Fmat 0).entry 0 0 [] [] [] [] [] ∧
    P.form.Feasible env ∧
    ∃ m' P', SetupEx demoColloc (slideOpts 1 2) (slideModel.renumber fun _ => Equiv.swap 0 1)
      (some UserOcp.trivial) po m' oc P' ∧ P'.form.Feasible (renumberEnv (fun _ => Equiv.swap 0 1) env) := by
  obtain ⟨po, m, oc, P, env, h, D, _⟩ := slide_point (.inl ⟨rfl, rfl⟩)
  have hb : (slideOpts 1 2).mpcc ≠ .boolean := by simp [slideOpts, Opts.default]
  have hπ : slideModel.Renumbers fun _ => Equiv.swap 0 1 := by
    intro s hs i
    obtain rfl := slide_sys hs
    show Equiv.swap 0 1 i < 2 ↔ i < 2
    by_cases h0 : i = 0
    · subst h0; simp
    by_cases h1 : i = 1
    · subst h1; simp
    rw [Equiv.swap_apply_of_ne_of_ne h0 h1]
  obtain ⟨m', P', h', hf⟩ := C102_renumbering h hb hπ
  refine ⟨po, m, oc, P, env, h, hb, hπ, ?_, D.feas, m', P', h', (hf env).1.2 D.feas⟩
  rw [renumber_Fmat]
  norm_num [slideModel, UserModel.Fmat, UMat.renumber]

end
end Nosnoc
