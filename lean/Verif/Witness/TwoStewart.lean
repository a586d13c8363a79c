import Verif.Witness.TwoSys
/-
The problem with two switching systems, in the Stewart representation.
-/
namespace Nosnoc

/-- Stewart representation, one implicit Euler step; otherwise the defaults (FESD). -/
noncomputable def twoStewartOpts : Opts :=
  { Opts.default with irkRep := .differentialLiftX, nS := 1, nFe := 1 }

theorem two_stewart_setup :
    ∃ po m oc P, SetupEx oneColloc twoStewartOpts twoModel (some UserOcp.trivial) po m oc P ∧
      po.rbe = true ∧ po.aIrk 0 0 = 1 := by
  obtain ⟨po, hpo⟩ : ∃ po, twoStewartOpts.preprocess oneColloc = .ok po :=
    flex_preOpts (by norm_num [twoStewartOpts, Opts.default]) (.inr ⟨radau1, rfl, by simp [radau1]⟩)
  have h1 := preprocess_opts hpo
  have e := h1.toOpts
  have e1 : po.pss = .stewart := by rw [e]; rfl
  have e2 : po.timeFreezing = false := by rw [e]; rfl
  obtain ⟨m, hm⟩ : ∃ m, twoModel.preprocess po = .ok m := by
    refine switched_ok (Fs := [⟨2, fun _ i _ _ _ _ _ => i⟩, ⟨2, fun _ i _ _ _ _ _ => i⟩])
      (cs := [⟨1, fun _ _ _ _ => 1⟩, ⟨1, fun _ _ _ _ => 1⟩])
      (Ss := [signMat, signMat]) ⟨?_, ?_, ?_, rfl, ?_, .inr e2⟩
      ⟨rfl, rfl, rfl, rfl, ?_, rfl, le_rfl, ?_, ?_, ?_, ?_⟩ rfl
    · intro l h; cases h
    · intro l h; cases h
    · intro l h; cases h
    · intro V h; cases h
    · intro f hf
      simp only [List.mem_cons, List.not_mem_nil, or_false, or_self] at hf
      rw [hf]
      simp
    · intro s hs
      obtain rfl | rfl : s = 0 ∨ s = 1 := by simp at hs; omega
      · rfl
      · rfl
    · intro _ s hs
      obtain rfl | rfl : s = 0 ∨ s = 1 := by simp at hs; omega
      · rfl
      · rfl
    · intro _ s hs i hi k hk _
      obtain rfl | rfl : s = 0 ∨ s = 1 := by simp at hs; omega
      · exact hk
      · exact hk
    · intro _ s hs
      obtain rfl | rfl : s = 0 ∨ s = 1 := by simp at hs; omega
      · rfl
      · rfl
  obtain ⟨oc, hoc⟩ : ∃ oc, UserOcp.trivial.preprocess m = .ok oc := by
    obtain ⟨nC, nF, g, up, f0, acc, hp⟩ := preprocess_pre hm
    unfold UserOcp.preprocess
    rw [hp.dims]
    exact ⟨_, rfl⟩
  obtain ⟨P, hP⟩ := (C06_construct_iff (uo := some UserOcp.trivial) rfl hpo hm hoc
    (by simp [twoStewartOpts]) (fun _ => rfl) rfl).2 ⟨by simp [twoStewartOpts, Opts.default], rfl,
      by simp [twoStewartOpts, Opts.default], fun k hk => by
        have hk0 : k = 0 := by simpa [twoStewartOpts, Opts.default] using hk
        subst hk0
        exact ⟨1, rfl, Nat.one_pos⟩, by simp [twoStewartOpts, Opts.default]⟩
  refine ⟨po, m, oc, P, ⟨⟨hP, by simp [twoStewartOpts], fun _ => rfl⟩, rfl, by simp [UserOcp.trivial]⟩,
    ?_, ?_⟩
  · exact (h1.rbe_iff (by simp [twoStewartOpts])).2 rfl
  · obtain ⟨t, ht, hA, -, -⟩ := h1.diff (by simp [twoStewartOpts])
    have : t = radau1 := by
      have h2 : generateButcher twoStewartOpts.nS twoStewartOpts.scheme = .ok radau1 := rfl
      rw [h2] at ht; cases ht; rfl
    subst this
    rw [hA]; norm_num [matFun, radau1]

end Nosnoc
