import Verif.Props.Unique
import Verif.Props.ExactSimEx
/-
The hypotheses of C129 are met.
-/
namespace Nosnoc

theorem slide_filippov {x y : Nat → ℝ} {p : List ℝ}
    (h : slideModel.InFilippov ((List.range slideModel.nX).map x) [] p [] y) :
    (-1 ≤ y 0 ∧ y 0 ≤ 1) ∧ (0 < x 0 → y 0 = -1) ∧ (x 0 < 0 → y 0 = 1) := by
  obtain ⟨θ, h1, h2⟩ := h
  obtain ⟨n, s, r⟩ := h1 0 (by decide)
  have e := h2 0 (by decide)
  have hc : (slideModel.Fmat 0).nCols = 2 := rfl
  have hs : slideModel.nSys = 1 := rfl
  rw [hc] at n s r
  rw [hs, Finset.sum_range_one, hc] at e
  have n0 := n 0 (by decide)
  have n1 := n 1 (by decide)
  have r0 := r 0 (by decide)
  have r1 := r 1 (by decide)
  have i0 : slideModel.InClosedRegion 0 0 ((List.range slideModel.nX).map x) p → 0 ≤ x 0 := fun h => by
    have := h 0 (by decide)
    simpa [slideModel, UserModel.Smat, UserModel.cVec, signMat] using this
  have i1 : slideModel.InClosedRegion 0 1 ((List.range slideModel.nX).map x) p → x 0 ≤ 0 := fun h => by
    have := h 0 (by decide)
    simpa [slideModel, UserModel.Smat, UserModel.cVec, signMat] using this
  have e' : y 0 = -θ 0 0 + θ 0 1 := by
    rw [e]
    simp [Finset.sum_range_succ, slideModel, UserModel.Fmat]
  rw [Finset.sum_range_succ, Finset.sum_range_one] at s
  refine ⟨⟨by linarith, by linarith⟩, fun hx => ?_, fun hx => ?_⟩
  · have : θ 0 1 = 0 := by
      by_contra hne
      have := i1 (r1 hne)
      linarith
    linarith
  · have : θ 0 0 = 0 := by
      by_contra hne
      have := i0 (r0 hne)
      linarith
    linarith

/-- `-sign` is one-sided Lipschitz with constant 0. -/
theorem slide_oneSided (p : List ℝ) : slideModel.OneSided p 0 := by
  intro x x' y y' h h'
  have hn : slideModel.nX = 1 := rfl
  obtain ⟨⟨a1, a2⟩, a3, a4⟩ := slide_filippov h
  obtain ⟨⟨b1, b2⟩, b3, b4⟩ := slide_filippov h'
  rw [hn, Finset.sum_range_one, zero_mul]
  rcases lt_trichotomy (x 0) (x' 0) with hlt | heq | hgt
  · rcases lt_or_ge 0 (x' 0) with hx | hx
    · rw [b3 hx]; nlinarith
    · rw [a4 (by linarith)]; nlinarith
  · rw [heq, sub_self, zero_mul]
  · rcases lt_or_ge 0 (x 0) with hx | hx
    · rw [a3 hx]; nlinarith
    · rw [b4 (by linarith)]; nlinarith

theorem slide_exactRun (N : Nat) : ∃ po m oc P orc S R,
    ExactRun demoColloc (slideOpts 1 2 true) slideModel none po m oc P orc S [1 / 2] N none [] slideW R := by
  obtain ⟨po, m, oc, P, orc, S, L, L', R, h, hS, hon, hc, hrun, hR, hst, hpol, hsg, hpc, hw, hr⟩ := slide_sim_run N
  refine ⟨po, m, oc, P, orc, S, R, ⟨h, by simp [slideOpts, Opts.default, Opts.nfeAfter], hS, hon,
    ⟨none, L, L', false, true, hc, hrun, hR⟩, rfl, hst, hpol, rfl, .inl (by simp [slideOpts, Opts.default]), .inl rfl,
    by simp [slideOpts, Opts.default], by norm_num [slideOpts, Opts.default], by norm_num [slideOpts, Opts.default], rfl, hsg,
    hpc, rfl, hw, fun _ => (slide_colloc 1 2 true).1, .inl hr, fun i _ => ?_⟩⟩
  obtain ⟨p0, hp0, hl⟩ := (hS.inv h.toSetup).pVal0 h.toSetup.built.ok.primal.stages
  obtain ⟨-, -, -, -, d5, d6, -⟩ := h.toSetup.dims
  have hp : p0 = [] := List.eq_nil_of_length_eq_zero (by rw [hl, d5, d6]; rfl)
  have hh : S.m.pVal.headD [] = p0 := by
    cases hc : S.m.pVal with
    | nil => rw [hc] at hp0; cases hp0
    | cons a l => rw [hc] at hp0; simpa using hp0
  unfold simParams
  rw [hh, hp]
  rfl

/-- Simulations of `ẋ = -sign x` with `N` and with `M` steps: the states at common times agree. -/
example (N M : Nat) : ∃ po m oc P orc S R po' m' oc' P' orc' S' R',
    ExactRun demoColloc (slideOpts 1 2 true) slideModel none po m oc P orc S [1 / 2] N none [] slideW R ∧
    ExactRun demoColloc (slideOpts 1 2 true) slideModel none po' m' oc' P' orc' S' [1 / 2] M none [] slideW R' ∧
    ∀ (n n' : Nat) (t : ℝ), R.tGrid[n]? = some t → R'.tGrid[n']? = some t → R.xSim[n]? = R'.xSim[n']? := by
  obtain ⟨po, m, oc, P, orc, S, R, A⟩ := slide_exactRun N
  obtain ⟨po', m', oc', P', orc', S', R', A'⟩ := slide_exactRun M
  exact ⟨po, m, oc, P, orc, S, R, po', m', oc', P', orc', S', R', A, A',
    fun n n' t h1 h2 => C129_unique A A' rfl (slide_oneSided []) h1 h2⟩

end Nosnoc
