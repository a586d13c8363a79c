import Verif.Proofs.Accept
/-
C70: the models that are accepted are exactly the consistent ones.
-/
namespace Nosnoc

variable {um : UserModel} {o : PreOpts}

/-- C70: creating a model succeeds iff exactly one of `F` and (`f_x` with `alpha`) is given and, with
`F`, exactly one of (`c` with `S`) and `g_Stewart`. -/
theorem C70_init_iff :
    um.initCheck = .ok () ↔
      ((um.F ≠ none ∧ (um.fx = none ∨ um.alpha = none)) ∨
        (um.F = none ∧ um.fx ≠ none ∧ um.alpha ≠ none)) ∧
      (um.F ≠ none →
        ((um.c ≠ none ∧ um.S ≠ none) ∧ um.gStewart = none) ∨
        ((um.c = none ∨ um.S = none) ∧ um.gStewart ≠ none)) := by
  unfold UserModel.initCheck check
  cases um.F <;> cases um.fx <;> cases um.alpha <;> cases um.c <;> cases um.S <;> cases um.gStewart <;>
    simp [bind, Except.bind]

/-- ... otherwise it raises a `ValueError`. -/
theorem C70_init_raises : um.initCheck = .ok () ∨ um.initCheck = .error .valueError := by
  unfold UserModel.initCheck check
  cases um.F <;> cases um.fx <;> cases um.alpha <;> cases um.c <;> cases um.S <;> cases um.gStewart <;>
    simp [bind, Except.bind]

/-- C70: preprocessing a created model succeeds iff the data are consistent, for each of the three kinds
of models (no `alpha` next to `F`). -/
theorem C70_preprocess_iff (hi : um.initCheck = .ok ()) (ha : um.F ≠ none → um.alpha = none) :
    (∃ m, um.preprocess o = .ok m) ↔
      CommonOk um o ∧
      ((∃ Fs cs Ss, SwitchedOk um o.pss Fs cs Ss) ∨ (∃ Fs gs, IndicatorOk um o.pss Fs gs) ∨
        ∃ f cs al, InclusionOk um o.pss f cs al) := by
  constructor
  · rintro ⟨m, h⟩
    exact ⟨common_of h, kinds_of hi (fun hF => ha (by rintro h0; simp [h0] at hF)) h⟩
  · rintro ⟨hc, ⟨Fs, cs, Ss, h⟩ | ⟨Fs, gs, h⟩ | ⟨f, cs, al, h⟩⟩
    · exact switched_ok hc h (ha (by rw [h.F]; simp))
    · exact indicator_ok hc h
    · exact inclusion_ok hc h

/-- C70: the general inclusion is rejected in Stewart's representation. -/
theorem C70_inclusion_stewart (hF : um.F = none) (hp : o.pss = .stewart) (m : PreModel) :
    um.preprocess o ≠ .ok m := by
  intro h
  obtain ⟨nC, nF, g, up, f0, acc, hpre⟩ := preprocess_pre h
  have hn := hpre.hnF
  unfold UserModel.nFsys at hn
  rw [hF] at hn
  simp only [bind_eq_ok, check_eq_ok] at hn
  obtain ⟨_, hne, _⟩ := hn
  exact hne hp

/-- C70: a system with one column only is rejected. -/
theorem C70_non_switching {Fs : List UMat} (hF : um.F = some Fs) {f : UMat} (hf : f ∈ Fs)
    (h1 : f.nCols = 1) (m : PreModel) : um.preprocess o ≠ .ok m := by
  intro h
  obtain ⟨nC, nF, g, up, f0, acc, hpre⟩ := preprocess_pre h
  have hn := hpre.hnF
  unfold UserModel.nFsys at hn
  rw [hF] at hn
  simp only [bind_eq_ok, check_eq_ok] at hn
  obtain ⟨_, hne, _⟩ := hn
  exact hne f hf h1

/-- Two systems with three and two switching functions; general position of the sizes. -/
def acceptModel : UserModel where
  nX := 2
  nU := 1
  nZ := 1
  nPtv := 1
  nPgl := 1
  nV := 0
  x0 := [0, 0]
  F := some [⟨2, fun i _ _ _ _ _ _ => i⟩, ⟨3, fun i _ _ _ _ _ _ => i⟩]
  c := some [⟨1, fun _ x _ _ => x.getD 0 0⟩, ⟨2, fun i x _ _ => x.getD i 0⟩]
  S := some [⟨2, 1, fun i _ => if i = 0 then 1 else -1⟩,
    ⟨3, 2, fun i k => if i = 0 then (if k = 0 then 1 else 0) else if k = 0 then -1 else if i = 1 then 1 else -1⟩]
  gStewart := none
  alpha := none
  fx := none
  gz := ⟨0, fun _ _ _ _ _ => 0⟩
  z0 := some [1]
  lbz := none
  ubz := none
  pTimeVarVal := none
  pGlobalVal := [3]
  tVar := none

/-- It is accepted in Stewart's representation ... -/
example (ho : o.pss = .stewart) (ht : o.timeFreezing = false) :
    acceptModel.initCheck = .ok () ∧ ∃ m, acceptModel.preprocess o = .ok m := by
  refine ⟨rfl, (C70_preprocess_iff rfl (fun _ => rfl)).2 ⟨⟨?_, ?_, ?_, rfl, ?_, .inr ht⟩,
    .inl ⟨_, _, _, rfl, rfl, rfl, rfl, ?_, rfl, le_rfl, ?_, ?_, ?_, ?_⟩⟩⟩
  · intro l h; cases h; rfl
  · intro l h; cases h
  · intro l h; cases h
  · intro V h; cases h
  · intro f hf; simp at hf; rcases hf with rfl | rfl <;> simp
  · intro s hs
    simp at hs
    have : s = 0 ∨ s = 1 := by omega
    rcases this with rfl | rfl <;> rfl
  · intro _ s hs
    simp at hs
    have : s = 0 ∨ s = 1 := by omega
    rcases this with rfl | rfl <;> rfl
  · intro h; rw [ho] at h; cases h
  · intro h; rw [ho] at h; cases h

/-- ... and rejected in the step representation, which wants the same number of regions everywhere. -/
example (ho : o.pss = .step) : ¬ ∃ m, acceptModel.preprocess o = .ok m := by
  intro h
  rcases ((C70_preprocess_iff rfl (fun _ => rfl)).1 h).2 with ⟨Fs, cs, Ss, h⟩ | ⟨Fs, gs, h⟩ | ⟨f, cs, al, h⟩
  · have hF := h.F
    cases hF
    have := h.equal ho 1 (by simp)
    simp [UserModel.Smat, acceptModel] at this
  · exact absurd h.g (by simp [acceptModel])
  · exact absurd h.F (by simp [acceptModel])

end Nosnoc
