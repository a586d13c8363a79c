import Verif.Proofs.Bind
/-
Helper lemmas: the algebraic variables of the model have the length the elements expect.
-/
namespace Nosnoc
section
variable {um : UserModel} {o : PreOpts} {m : PreModel} {nC nF : List Nat} {g up : List Vec}
  {f0 : Vec} {acc : DcsAcc}

theorem sum_getD_range (l : List Nat) (n : Nat) (h : l.length ≤ n) :
    ((List.range n).map fun s => l.getD s 0).sum = l.sum := by
  induction n generalizing l with
  | zero => simp at h; simp [h]
  | succ n ih =>
    cases l with
    | nil => simp
    | cons a l =>
      rw [List.range_succ_eq_map]
      simp only [List.map_cons, List.map_map, List.sum_cons, List.getD_cons_zero]
      rw [← ih l (by simpa using h)]
      rfl

theorem zOk_of_alphaOk (h : Pre um o m nC nF g up f0 acc) (hi : um.initCheck = .ok ())
    (ha : AlphaOk um) : ZOk o m := by
  unfold ZOk nZall
  rw [h.zAll]
  unfold UserModel.zAll zSyms
  have e : ∀ f, (m.dims.stageVars o.pss f).flatten.length = (rowSyms o m.dims 0 0 f 0).length := by
    intro f
    simp [Dims.stageVars, rowSyms, List.length_flatten, List.length_flatMap, Function.comp_def]
  have ea : (um.alphaVars m.dims o.pss).flatten.length
      = (rowSyms o m.dims 0 0 .alpha 0).length := by
    unfold UserModel.alphaVars
    cases hal : um.alpha with
    | none => exact e .alpha
    | some a =>
      have hF : um.F = none := by
        cases hF : um.F with
        | none => rfl
        | some F => rw [ha (by simp [hF])] at hal; cases hal
      unfold UserModel.initCheck at hi
      simp only [bind_eq_ok, check_eq_ok] at hi
      obtain ⟨_, hx, _⟩ := hi
      rw [hF] at hx
      cases hfx : um.fx with
      | none => rw [hfx] at hx; simp at hx
      | some f =>
        have h0 := h.hf0
        unfold UserModel.fx0 at h0
        rw [hF, hfx] at h0
        simp only [bind_eq_ok, check_eq_ok] at h0
        obtain ⟨_, hs, _⟩ := h0
        unfold UserModel.alphaVars at hs
        rw [hal] at hs
        simp only at hs ⊢
        rw [← hs]
        have hsys : m.dims.nSys = um.nSys := by rw [h.dims]; rfl
        have hnC : ∀ s, m.dims.nC s = nC.getD s 0 := by intro s; rw [h.dims]; rfl
        simp only [rowSyms, List.length_flatMap, length_blk, Dims.famLen]
        cases hp : o.pss with
        | stewart =>
          have h1 := h.stewart hp
          by_cases hn : um.nSys = 0
          · have : nC.sum = 0 := by
              have h2 := h.hnC
              unfold UserModel.nCsys at h2
              split at h2
              · cases h2; rfl
              · rw [hn] at h2; cases h2; rfl
            rw [this]
            simp
          · have := (stewartFold (d := m.dims) (by rw [fx0_length h.hf0, h.dims]; rfl) h1).1 0
              (by omega)
            obtain ⟨Fs, hFs, _⟩ := this.F
            rw [hF] at hFs; cases hFs
        | step =>
          simp only [hnC, hsys]
          have h2 := h.hnC
          unfold UserModel.nCsys at h2
          split at h2
          · cases h2
            have : ∀ n, ((List.range n).map fun s => [0].getD s 0).sum = 0 := by
              intro n
              apply List.sum_eq_zero
              intro x hx
              obtain ⟨s, _, rfl⟩ := List.mem_map.1 hx
              cases s <;> simp
            rw [this]; rfl
          · rw [mapM_eq_ok] at h2
            have := h2.length_eq
            simp only [List.length_range] at this
            exact (sum_getD_range nC _ (by omega)).symm
  simp only [List.length_append, e, ea, length_blk, Dims.mZ]

end
end Nosnoc
