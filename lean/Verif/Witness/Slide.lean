import Verif.Witness.Jump
import Verif.Witness.Demo
import Verif.Spec.Path
import Verif.Spec.Filippov
/-
`ẋ = -sign(x)` from `x = 1/2` over `[0, 1]` with the default options (FESD, Radau IIA with two stages,
INTEGRAL; two elements in one control stage, or one element in each of two): the solution reaches the switching surface at `t = 1/2` and slides along it.
-/
namespace Nosnoc
open Polynomial

def slideModel : UserModel where
  nX := 1
  nU := 0
  nZ := 0
  nPtv := 0
  nPgl := 0
  nV := 0
  x0 := [1]
  F := some [⟨2, fun _ i _ _ _ _ _ => if i = 0 then -1 else 1⟩]
  c := some [⟨1, fun _ x _ _ => x.getD 0 0⟩]
  S := some [signMat]
  gStewart := none
  alpha := none
  fx := none
  gz := ⟨0, fun _ _ _ _ _ => 0⟩
  z0 := none
  lbz := none
  ubz := none
  pTimeVarVal := none
  pGlobalVal := []
  tVar := none

/-- Default options; `slideOpts 1 2` are the default options. -/
noncomputable def slideOpts (N nf : Nat) (pol : Bool := false) : Opts :=
  { Opts.default with nStages := N, nFe := nf, polish := pol }

theorem slideOpts_default : slideOpts 1 2 = Opts.default := rfl

theorem slide_setup_pos (p : PssMode) {N nf : Nat} (h0 : 0 < N) (h0' : 0 < nf) (pol : Bool := false) :
    ∃ po m oc P, SetupEx demoColloc { slideOpts N nf pol with pss := p } slideModel
      (some UserOcp.trivial) po m oc P ∧ po.rbe = true := by
  obtain ⟨po, hpo⟩ : ∃ po, ({ slideOpts N nf pol with pss := p } : Opts).preprocess demoColloc = .ok po :=
    flex_preOpts (by norm_num [slideOpts, Opts.default]) (.inl rfl)
  have h1 := preprocess_opts hpo
  have e := h1.toOpts
  have e2 : po.timeFreezing = false := by rw [e]; rfl
  obtain ⟨m, hm⟩ : ∃ m, slideModel.preprocess po = .ok m := by
    refine switched_ok (Fs := [⟨2, fun _ i _ _ _ _ _ => if i = 0 then -1 else 1⟩])
      (cs := [⟨1, fun _ x _ _ => x.getD 0 0⟩])
      (Ss := [signMat]) ⟨?_, ?_, ?_, rfl, ?_, .inr e2⟩
      ⟨rfl, rfl, rfl, rfl, ?_, rfl, le_rfl, ?_, ?_, ?_, ?_⟩ rfl
    · intro l h; cases h
    · intro l h; cases h
    · intro l h; cases h
    · intro V h; cases h
    · intro f hf
      simp only [List.mem_singleton] at hf
      rw [hf]
      simp
    · intro s hs
      obtain rfl : s = 0 := by simpa using hs
      rfl
    · intro _ s hs
      obtain rfl : s = 0 := by simpa using hs
      rfl
    · intro _ s hs i hi k hk _
      obtain rfl : s = 0 := by simpa using hs
      exact hk
    · intro _ s hs
      obtain rfl : s = 0 := by simpa using hs
      rfl
  obtain ⟨oc, hoc⟩ : ∃ oc, UserOcp.trivial.preprocess m = .ok oc := by
    obtain ⟨nC, nF, g, up, f0, acc, hp⟩ := preprocess_pre hm
    unfold UserOcp.preprocess
    rw [hp.dims]
    exact ⟨_, rfl⟩
  obtain ⟨P, hP⟩ := (C06_construct_iff (uo := some UserOcp.trivial) rfl hpo hm hoc
    (by simp [slideOpts, Opts.default]) (fun _ => rfl) rfl).2 ⟨by simpa [slideOpts] using h0.ne', rfl,
      by simp [slideOpts, Opts.default], fun k hk => ⟨nf, by
        show (List.replicate N nf)[k]? = some nf
        have hk : k < N := hk
        simp [hk], h0'⟩, by simp [slideOpts, Opts.default]⟩
  refine ⟨po, m, oc, P, ⟨⟨hP, by simp [slideOpts, Opts.default], fun _ => rfl⟩, rfl, by simp [UserOcp.trivial]⟩,
    ?_⟩
  obtain ⟨t, ht, hr⟩ := h1.rbe
  obtain ⟨-, -, -, htp⟩ := h1.integral rfl
  rw [htp] at ht
  have : t = 1 := by simpa [slideOpts, Opts.default, demoColloc] using ht.symm
  rw [hr, this]
  norm_num

theorem slide_setup_pss (p : PssMode) {N nf : Nat} (hN : N = 1 ∧ nf = 2 ∨ N = 2 ∧ nf = 1) :
    ∃ po m oc P, SetupEx demoColloc { slideOpts N nf with pss := p } slideModel
      (some UserOcp.trivial) po m oc P ∧ po.rbe = true :=
  slide_setup_pos p (by omega) (by omega)

theorem slide_setup {N nf : Nat} (hN : N = 1 ∧ nf = 2 ∨ N = 2 ∧ nf = 1) :
    ∃ po m oc P, SetupEx demoColloc (slideOpts N nf) slideModel (some UserOcp.trivial) po m oc P ∧
      po.rbe = true :=
  slide_setup_pss .stewart hN

/-- The trajectory: down to zero, then sliding. -/
noncomputable def slidePath : Path where
  x0 := fun _ => 1 / 2
  u := fun _ _ => 0
  v := fun _ => 0
  p := fun _ _ => 0
  speed := fun _ => 1
  H := fun _ _ => 1 / 2
  X := fun _ _ _ => 0
  theta := fun k e _ i => if k = 0 ∧ e = 0 then (if i = 0 then 1 else 0) else 1 / 2

theorem slide_sys {s : Nat} (h : s < slideModel.nSys) : s = 0 := by
  simpa [slideModel, UserModel.nSys] using h

theorem signMat_dense : signMat.IsDense := by
  refine ⟨fun i hi k hk => ?_, fun i hi j hj hij => ?_⟩
  · obtain rfl | rfl : i = 0 ∨ i = 1 := by simp [signMat] at hi; omega
    · right; rfl
    · left; rfl
  · refine ⟨0, by simp [signMat], ?_⟩
    simp only [signMat] at hi hj
    obtain ⟨rfl, rfl⟩ | ⟨rfl, rfl⟩ : (i = 0 ∧ j = 1) ∨ (i = 1 ∧ j = 0) := by omega
    · simp [signMat]; norm_num
    · simp [signMat]; norm_num

theorem signMat_partition : signMat.Partition := by
  intro σ
  cases h : σ 0
  · refine ⟨⟨1, by simp [signMat]⟩, fun k hk _ => ?_, fun i hi => ?_⟩
    · obtain rfl : k = 0 := by simpa [signMat] using hk
      simp [signMat, h]
    · have := hi 0 (by simp [signMat]) (by simp [signMat]; split <;> norm_num)
      rw [h] at this
      apply Fin.ext
      have hi2 : i.1 < 2 := i.2
      by_contra hne
      have h0 : i.1 = 0 := by simp only at hne; omega
      rw [h0] at this
      norm_num [signMat] at this
  · refine ⟨⟨0, by simp [signMat]⟩, fun k hk _ => ?_, fun i hi => ?_⟩
    · obtain rfl : k = 0 := by simpa [signMat] using hk
      simp [signMat, h]
    · have := hi 0 (by simp [signMat]) (by simp [signMat]; split <;> norm_num)
      rw [h] at this
      apply Fin.ext
      have hi2 : i.1 < 2 := i.2
      by_contra hne
      have h0 : i.1 = 1 := by simp only at hne; omega
      rw [h0] at this
      norm_num [signMat] at this

theorem slide_signs (N nf : Nat) (pol : Bool := false) : SignsOk (slideOpts N nf pol) slideModel := by
  intro s hs
  obtain rfl := slide_sys hs
  exact ⟨signMat_partition, fun _ => ⟨rfl, signMat_dense⟩, fun h => absurd h (by simp [slideOpts, Opts.default])⟩

theorem slide_pc : slideModel.PiecewiseConstant where
  noZ := rfl
  F := by
    intro s hs row i x x' u p v
    obtain rfl := slide_sys hs
    rfl
  c := by
    intro s hs n hn p
    obtain rfl := slide_sys hs
    exact ⟨fun _ => 1, 0, fun x => by simp [slideModel, UserModel.cVec]⟩

theorem slide_plain (N nf : Nat) (pol : Bool := false) : PlainProblem (slideOpts N nf pol) slideModel UserOcp.trivial where
  noGz := rfl
  noComp := rfl
  stage := fun _ => rfl
  freeze := rfl
  stepEq := by simp [slideOpts, Opts.default]
  mode := by simp [slideOpts, Opts.default]
  slack := by simp [slideOpts, Opts.default]

/-- Weights of the two-stage Radau quadrature. -/
noncomputable def slideW (j : Nat) : ℝ := if j = 0 then 3 / 4 else 1 / 4

theorem slide_weights (N nf : Nat) (pol : Bool := false) : SchemeWeights demoColloc (slideOpts N nf pol) slideW where
  nonneg := fun j _ => by unfold slideW; split <;> norm_num
  table := fun h => absurd rfl h
  quad := by
    intro _ p hp
    have hp : p.natDegree ≤ 2 := hp
    rw [p.as_sum_range' 3 (by omega)]
    simp [Finset.sum_range_succ, slideOpts, Opts.default, demoColloc, slideW, eval_finsetSum,
      derivative_monomial]
    ring

theorem slide_colloc (N nf : Nat) (pol : Bool := false) :
    CollocOk (demoColloc (slideOpts N nf pol).scheme (slideOpts N nf pol).nS) (slideOpts N nf pol).nS ∧
    ∀ t ∈ demoColloc (slideOpts N nf pol).scheme (slideOpts N nf pol).nS, 0 ≤ t ∧ t ≤ 1 := by
  refine ⟨⟨rfl, ?_, ?_⟩, ?_⟩
  · norm_num [slideOpts, Opts.default, demoColloc]
  · intro t ht _
    simpa [slideOpts, Opts.default, demoColloc] using ht.symm
  · intro t ht
    simp [slideOpts, Opts.default, demoColloc] at ht
    rcases ht with rfl | rfl <;> norm_num

end Nosnoc
