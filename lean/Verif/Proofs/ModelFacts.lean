import Verif.Props.Layout
import Verif.Proofs.Bind
/-
Shapes of the user's matrices in a model that was accepted.
-/
namespace Nosnoc

section
variable {colloc : IrkScheme → Nat → List ℝ} {o : Opts} {um : UserModel} {uo : Option UserOcp}
  {po : PreOpts} {m : PreModel} {oc : PreOcp} {P : Problem} {env : Env}

theorem Setup.shapes_stewart (h : Setup colloc o um uo po m oc P) (hp : po.pss = .stewart)
    (hg : um.gStewartTruthy = false) {s : Nat} (hs : s < um.nSys) :
    (um.Smat s).rows = (um.Fmat s).nCols ∧ (um.Smat s).cols = (um.cVec s).len := by
  obtain ⟨nC, nF, g, up, f0, acc, hpre⟩ := h.built.pre
  obtain ⟨hsys, -⟩ := hpre.stewartAcc hp
  have hsys := hsys s hs
  have hlen := hsys.gLen
  have hgv := hpre.hg
  rw [hp] at hgv
  unfold UserModel.gStewartVecs at hgv
  simp only [hg, Bool.false_eq_true, if_false] at hgv
  rw [mapM_eq_ok] at hgv
  have hl := hgv.length_eq
  simp only [List.length_range] at hl
  have h2 := (List.forall₂_iff_get.1 hgv).2 s (by simpa using hs) (by omega)
  simp only [List.get_eq_getElem, List.getElem_range, bind_eq_ok] at h2
  obtain ⟨S, hS, c, hc, h2⟩ := h2
  rw [optGet_eq_ok] at hS hc
  obtain ⟨Ss, hSs, hS⟩ := hS
  obtain ⟨cs, hcs, hc⟩ := hc
  have hSK : um.Smat s = S := by simp [UserModel.Smat, hSs, hS]
  have hcK : um.cVec s = c := by simp [UserModel.cVec, hcs, hc]
  have hgs : g.getD s [] = g[s] := by
    rw [List.getD_eq_getElem?_getD, List.getElem?_eq_getElem (by omega)]; rfl
  rw [hgs] at hlen
  unfold negSmulC at h2
  split at h2
  · rename_i hcols
    injection h2 with h2
    rw [← h2, List.length_map, List.length_range] at hlen
    rw [uvec_eq, length_vec] at hcols
    rw [hSK, hcK, hsys.cols]
    exact ⟨hlen, hcols⟩
  · cases h2

theorem Setup.shapes_step (h : Setup colloc o um uo po m oc P) (hp : po.pss = .step)
    (hF : um.F.isSome = true) {s : Nat} (hs : s < um.nSys) :
    (um.Smat s).rows = (um.Fmat s).nCols ∧
    ∀ i < (um.Smat s).rows, ∀ k < (um.Smat s).cols, (um.Smat s).entry i k ≠ 0 →
      k < (um.cVec s).len := by
  obtain ⟨nC, nF, g, up, f0, acc, hpre⟩ := h.built.pre
  obtain ⟨hsys, -⟩ := hpre.stepAcc hp
  have hsys := hsys s hs
  obtain ⟨Fs, hFs⟩ := Option.isSome_iff_exists.1 hF
  refine ⟨(hsys.F Fs hFs).2.symm, fun i hi k hk hne => ?_⟩
  have hal : (um.alphaVars m.dims po.pss).getD s []
      = blk (m.dims.famLen po.pss .alpha s) (.mAlg .alpha s) := by
    unfold UserModel.alphaVars
    rw [h.alpha hF]
    simp [Dims.stageVars, dims_nSys hpre, hs]
  have hup := hpre.hup
  rw [hp] at hup
  have hcol := upsilon_cols hup hF hs hi hk hne
  rw [← hp, hal, length_blk, hp] at hcol
  rw [hsys.cLen]
  exact hcol

end
end Nosnoc
