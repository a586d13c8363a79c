import Verif.Witness.Const
/-
A problem with two switching systems in the Step representation: constant switching functions with
value 1, right-hand side `i` in region `i` of each system.
-/
namespace Nosnoc

/-- Two regions, separated by one switching function. -/
def signMat : SMat := ⟨2, 1, fun i _ => if i = 0 then 1 else -1⟩

def twoModel : UserModel where
  nX := 1
  nU := 0
  nZ := 0
  nPtv := 0
  nPgl := 0
  nV := 0
  x0 := [0]
  F := some [⟨2, fun _ i _ _ _ _ _ => i⟩, ⟨2, fun _ i _ _ _ _ _ => i⟩]
  c := some [⟨1, fun _ _ _ _ => 1⟩, ⟨1, fun _ _ _ _ => 1⟩]
  S := some [signMat, signMat]
  gStewart := none
  alpha := none
  fx := none
  gz := ⟨0, fun _ _ _ _ _ => 0⟩
  z0 := none
  lbz := none
  ubz := none
  pTimeVarVal := none
  pGlobalVal := []
  tVar := none

/-- Step representation, one implicit Euler step; otherwise the defaults (FESD). -/
noncomputable def twoOpts : Opts :=
  { Opts.default with pss := .step, irkRep := .differentialLiftX, nS := 1, nFe := 1 }

theorem two_setup :
    ∃ po m oc P, SetupEx oneColloc twoOpts twoModel (some UserOcp.trivial) po m oc P ∧
      po.rbe = true ∧ po.aIrk 0 0 = 1 := by
  obtain ⟨po, hpo⟩ : ∃ po, twoOpts.preprocess oneColloc = .ok po :=
    flex_preOpts (by norm_num [twoOpts, Opts.default]) (.inr ⟨radau1, rfl, by simp [radau1]⟩)
  have h1 := preprocess_opts hpo
  have e := h1.toOpts
  have e1 : po.pss = .step := by rw [e]; rfl
  have e2 : po.timeFreezing = false := by rw [e]; rfl
  obtain ⟨m, hm⟩ : ∃ m, twoModel.preprocess po = .ok m := by
    refine switched_ok (Fs := [⟨2, fun _ i _ _ _ _ _ => i⟩, ⟨2, fun _ i _ _ _ _ _ => i⟩])
      (cs := [⟨1, fun _ _ _ _ => 1⟩, ⟨1, fun _ _ _ _ => 1⟩])
      (Ss := [signMat, signMat]) ⟨?_, ?_, ?_, rfl, ?_, .inr e2⟩
      ⟨rfl, rfl, rfl, rfl, ?_, rfl, le_rfl, ?_, ?_, ?_, ?_⟩ rfl
    · intro l h; cases h
    · intro l h; cases h
    · intro l h; cases h
    · intro V h; cases h
    · intro f hf
      simp only [List.mem_cons, List.not_mem_nil, or_false, or_self] at hf
      rw [hf]
      simp
    · intro s hs
      obtain rfl | rfl : s = 0 ∨ s = 1 := by simp at hs; omega
      · rfl
      · rfl
    · intro _ s hs
      obtain rfl | rfl : s = 0 ∨ s = 1 := by simp at hs; omega
      · rfl
      · rfl
    · intro _ s hs i hi k hk _
      obtain rfl | rfl : s = 0 ∨ s = 1 := by simp at hs; omega
      · exact hk
      · exact hk
    · intro _ s hs
      obtain rfl | rfl : s = 0 ∨ s = 1 := by simp at hs; omega
      · rfl
      · rfl
  obtain ⟨oc, hoc⟩ : ∃ oc, UserOcp.trivial.preprocess m = .ok oc := by
    obtain ⟨nC, nF, g, up, f0, acc, hp⟩ := preprocess_pre hm
    unfold UserOcp.preprocess
    rw [hp.dims]
    exact ⟨_, rfl⟩
  obtain ⟨P, hP⟩ := (C06_construct_iff (uo := some UserOcp.trivial) rfl hpo hm hoc
    (by simp [twoOpts]) (fun _ => rfl) rfl).2 ⟨by simp [twoOpts, Opts.default], rfl,
      by simp [twoOpts, Opts.default], fun k hk => by
        have hk0 : k = 0 := by simpa [twoOpts, Opts.default] using hk
        subst hk0
        exact ⟨1, rfl, Nat.one_pos⟩, by simp [twoOpts, Opts.default]⟩
  refine ⟨po, m, oc, P, ⟨⟨hP, by simp [twoOpts], fun _ => rfl⟩, rfl, by simp [UserOcp.trivial]⟩,
    ?_, ?_⟩
  · exact (h1.rbe_iff (by simp [twoOpts])).2 rfl
  · obtain ⟨t, ht, hA, -, -⟩ := h1.diff (by simp [twoOpts])
    have : t = radau1 := by
      have h2 : generateButcher twoOpts.nS twoOpts.scheme = .ok radau1 := rfl
      rw [h2] at ht; cases ht; rfl
    subst this
    rw [hA]; norm_num [matFun, radau1]

end Nosnoc
