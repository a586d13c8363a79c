import Verif.Witness.Jump
import Verif.Props.Solve
/-
`jumpModel` (`ẋ = -2` in both regions of `c = x`, start at 1) with RK4_SMOOTHENED initialisation, two
elements with one stage each over the horizon `[0, 1]`.
-/
namespace Nosnoc

noncomputable def fallOpts (rep : IrkRep) : Opts :=
  { Opts.default with
    useFesd := false, irkRep := rep, nS := 1, nFe := 2, initStrategy := .rk4Smoothened }

theorem fall_setup (rep : IrkRep) :
    ∃ po m oc P S, SetupEx oneColloc (fallOpts rep) jumpModel (some UserOcp.trivial) po m oc P ∧
      Solver.create oneColloc (fallOpts rep) jumpModel (some UserOcp.trivial) = .ok S ∧
      Ready jumpModel S ∧ S.m.x0 = [1] := by
  obtain ⟨po, hpo⟩ : ∃ po, (fallOpts rep).preprocess oneColloc = .ok po :=
    flex_preOpts (by norm_num [fallOpts, Opts.default]) (.inr ⟨radau1, rfl, by simp [radau1]⟩)
  have h1 := preprocess_opts hpo
  have e := h1.toOpts
  have e2 : po.timeFreezing = false := by rw [e]; rfl
  obtain ⟨m, hm⟩ : ∃ m, jumpModel.preprocess po = .ok m := by
    refine switched_ok (Fs := [⟨2, fun _ _ _ _ _ _ _ => -2⟩])
      (cs := [⟨1, fun _ x _ _ => x.getD 0 0⟩])
      (Ss := [signMat]) ⟨?_, ?_, ?_, rfl, ?_, .inr e2⟩
      ⟨rfl, rfl, rfl, rfl, ?_, rfl, le_rfl, ?_, ?_, ?_, ?_⟩ rfl
    · intro l h; cases h
    · intro l h; cases h
    · intro l h; cases h
    · intro V h; cases h
    · intro f hf
      simp only [List.mem_singleton] at hf
      rw [hf]
      simp
    · intro s hs
      obtain rfl : s = 0 := by simpa using hs
      rfl
    · intro _ s hs
      obtain rfl : s = 0 := by simpa using hs
      rfl
    · intro _ s hs i hi k hk _
      obtain rfl : s = 0 := by simpa using hs
      exact hk
    · intro _ s hs
      obtain rfl : s = 0 := by simpa using hs
      rfl
  obtain ⟨oc, hoc⟩ : ∃ oc, UserOcp.trivial.preprocess m = .ok oc := by
    obtain ⟨nC, nF, g, up, f0, acc, hp⟩ := preprocess_pre hm
    unfold UserOcp.preprocess
    rw [hp.dims]
    exact ⟨_, rfl⟩
  obtain ⟨P, hP⟩ := (C06_construct_iff (uo := some UserOcp.trivial) rfl hpo hm hoc
    (by simp [fallOpts]) (fun _ => rfl) rfl).2 ⟨by simp [fallOpts, Opts.default], rfl,
      by simp [fallOpts, Opts.default], fun k hk => by
        have hk0 : k = 0 := by simpa [fallOpts, Opts.default] using hk
        subst hk0
        exact ⟨2, rfl, Nat.two_pos⟩, by simp [fallOpts, Opts.default]⟩
  have hsu : SetupEx oneColloc (fallOpts rep) jumpModel (some UserOcp.trivial) po m oc P :=
    ⟨⟨hP, by simp [fallOpts], fun _ => rfl⟩, rfl, by simp [UserOcp.trivial]⟩
  have hd : m.dims = dimsOf jumpModel [1] [2] := by
    obtain ⟨nC, nF, g, up, f0, acc, hp⟩ := preprocess_pre hm
    have g1 := hp.hnC
    have g2 := hp.hnF
    have g3 : jumpModel.nFsys po.pss = .ok [2] := by
      rw [show po.pss = .stewart by rw [e]; rfl]
      simp [UserModel.nFsys, jumpModel, check, UserModel.gStewartTruthy, signMat]
    rw [g3] at g2
    cases g2
    have g4 : jumpModel.nCsys = .ok [1] := rfl
    rw [g4] at g1
    cases g1
    exact hp.dims
  obtain ⟨sf, hsm⟩ : ∃ sf, addSmooth jumpModel m.dims po.smoothing = .ok sf := by
    rw [hd]
    have h0 : 0 < po.smoothing := by rw [e]; simp [fallOpts, Opts.default]
    have hg : jumpModel.gStewartTruthy = false := rfl
    unfold addSmooth
    have c1 : check (jumpModel.gStewartTruthy = false) .notImplemented = .ok () := by simp [check, hg]
    have c2 : check (0 < po.smoothing) .valueError = .ok () := by simp [check, h0]
    rw [c1, c2]
    exact ⟨_, rfl⟩
  refine ⟨po, m, oc, P, ⟨po, m, P, some sf, []⟩, hsu, ?_, ?_, ?_⟩
  · unfold Solver.create
    rw [hP]
    simp only [ok_bind]
    unfold smoothFor
    rw [if_pos (by rw [e]; rfl), hsm]
    rfl
  · refine ⟨?_, ?_⟩
    · show m.x0.length = _
      rw [← hsu.toSetup.dims.1]; exact hsu.toSetup.built.ok.primal.x0
    · show P.form.w0.length = P.form.w.length
      rw [(C04_bounds_and_guess hsu.toSetup).2.2, List.length_map]
  · obtain ⟨nC, nF, g, up, f0, acc, hp⟩ := preprocess_pre hm
    exact hp.x0

end Nosnoc
