import Verif.Props.Examples
import Verif.Props.Progress
import Verif.Props.ExactSimEx
import Mathlib.Analysis.Real.Pi.Bounds
/-
The hypotheses of C117 are met by the shipped options with polishing: one step over any time between 1/2 and 4/5
(the shipped `TSIM = π / 4` among them).
-/
namespace Nosnoc

/-- The shipped options, with or without polishing, with the shipped or another `comp_tol` and `sigma_N`. -/
noncomputable def shipOpts (t : ℝ) (nf : Nat) (pol : Bool) (ct : ℝ := 1 / 10 ^ 9) (sn : ℝ := 1 / 10 ^ 8) : Opts :=
  { simplestOpts with nFe := nf, polish := pol, terminalTime := t, compTol := ct, sigmaN := sn }

section
variable {a b xm t ct sn : ℝ} {nf : Nat} {pol : Bool}

theorem simplest_setup (a b xm t : ℝ) {nf : Nat} (h0 : 0 < nf) (pol : Bool) (ct : ℝ := 1 / 10 ^ 9)
    (hct : 0 < ct := by norm_num) (sn : ℝ := 1 / 10 ^ 8) :
    ∃ po m oc P, SetupEx demoColloc (shipOpts t nf pol ct sn) (simplestModel a b xm)
      (some UserOcp.trivial) po m oc P ∧ po.rbe = true := by
  obtain ⟨po, hpo⟩ : ∃ po, (shipOpts t nf pol ct sn).preprocess demoColloc = .ok po :=
    flex_preOpts ⟨div_pos hct (by norm_num [shipOpts, simplestOpts, Opts.default]), by
      norm_num [shipOpts, simplestOpts, Opts.default]⟩ (.inl rfl)
  have h1 := preprocess_opts hpo
  have e := h1.toOpts
  have e2 : po.timeFreezing = false := by rw [e]; rfl
  obtain ⟨m, hm⟩ : ∃ m, (simplestModel a b xm).preprocess po = .ok m := by
    refine switched_ok (Fs := [⟨2, fun _ i _ _ _ _ _ => if i = 0 then a else b⟩])
      (cs := [⟨1, fun _ x _ _ => x.getD 0 0⟩])
      (Ss := [⟨2, 1, fun i _ => if i = 0 then -1 else 1⟩]) ⟨?_, ?_, ?_, rfl, ?_, .inr e2⟩
      ⟨rfl, rfl, rfl, rfl, ?_, rfl, le_rfl, ?_, ?_, ?_, ?_⟩ rfl
    · intro l h; cases h
    · intro l h; cases h
    · intro l h; cases h
    · intro V h; cases h
    · intro f hf
      simp only [List.mem_singleton] at hf
      rw [hf]
      simp
    · intro s hs
      obtain rfl : s = 0 := by simpa using hs
      rfl
    · intro _ s hs
      obtain rfl : s = 0 := by simpa using hs
      rfl
    · intro _ s hs i hi k hk _
      obtain rfl : s = 0 := by simpa using hs
      exact hk
    · intro _ s hs
      obtain rfl : s = 0 := by simpa using hs
      rfl
  obtain ⟨oc, hoc⟩ : ∃ oc, UserOcp.trivial.preprocess m = .ok oc := by
    obtain ⟨nC, nF, g, up, f0, acc, hp⟩ := preprocess_pre hm
    unfold UserOcp.preprocess
    rw [hp.dims]
    exact ⟨_, rfl⟩
  obtain ⟨P, hP⟩ := (C06_construct_iff (uo := some UserOcp.trivial) rfl hpo hm hoc
    (by simp [shipOpts, simplestOpts, Opts.default]) (fun _ => rfl) rfl).2 ⟨by simp [shipOpts, simplestOpts, Opts.default], rfl,
      by simp [shipOpts, simplestOpts, Opts.default], fun k hk => ⟨nf, by
        show (List.replicate 1 nf)[k]? = some nf
        have hk : k < 1 := hk
        simp [hk], h0⟩, by simp [shipOpts, simplestOpts, Opts.default]⟩
  refine ⟨po, m, oc, P, ⟨⟨hP, by simp [shipOpts, simplestOpts, Opts.default], fun _ => rfl⟩, rfl, by simp [UserOcp.trivial]⟩,
    ?_⟩
  obtain ⟨t, ht, hr⟩ := h1.rbe
  obtain ⟨-, -, -, htp⟩ := h1.integral rfl
  rw [htp] at ht
  have : t = 1 := by simpa [shipOpts, simplestOpts, Opts.default, demoColloc] using ht.symm
  rw [hr, this]
  norm_num

theorem simplest_plain : PlainProblem (shipOpts t nf pol ct sn) (simplestModel a b xm) UserOcp.trivial where
  noGz := rfl
  noComp := rfl
  stage := fun _ => rfl
  freeze := rfl
  stepEq := by simp [shipOpts, simplestOpts, Opts.default]
  mode := by simp [shipOpts, simplestOpts, Opts.default]
  slack := by simp [shipOpts, simplestOpts, Opts.default]

theorem simplest_weights : SchemeWeights demoColloc (shipOpts t nf pol ct sn) slideW :=
  ⟨(slide_weights 1 2 pol).nonneg, fun h => absurd rfl h, (slide_weights 1 2 pol).quad⟩

theorem simplest_colloc :
    CollocOk (demoColloc (shipOpts t nf pol ct sn).scheme (shipOpts t nf pol ct sn).nS) (shipOpts t nf pol ct sn).nS ∧
    ∀ s ∈ demoColloc (shipOpts t nf pol ct sn).scheme (shipOpts t nf pol ct sn).nS, 0 ≤ s ∧ s ≤ 1 :=
  slide_colloc 1 2 pol

theorem simplest_exactOpts : ExactSimOpts demoColloc (shipOpts t nf true ct) where
  nS := by simp [shipOpts, simplestOpts, Opts.default]
  exact := rfl
  lists := by simp [shipOpts, simplestOpts, Opts.default, Opts.nfeAfter]
  polish := rfl
  fesd := rfl
  equidistant := rfl
  mode := .inl rfl
  sot := rfl
  gamma := by simp [shipOpts, simplestOpts, Opts.default]
  weights := ⟨slideW, simplest_weights⟩
  points := fun _ => simplest_colloc.1
  ends := .inl rfl

/-- A trajectory with two segments. -/
noncomputable def simplestPath (x0 H0 H1 X1 X2 q0 q1 : ℝ) : Path where
  x0 := fun _ => x0
  u := fun _ _ => 0
  v := fun _ => 0
  p := fun _ _ => 0
  speed := fun _ => 1
  H := fun _ e => if e = 0 then H0 else H1
  X := fun _ e _ => if e = 0 then X1 else X2
  theta := fun _ e _ i => if e = 0 then (if i = 0 then q0 else 1 - q0) else (if i = 0 then q1 else 1 - q1)

/-- Values a multiplier may have. -/
def Clean (ct y : ℝ) : Prop := y = 0 ∨ y = 1 ∨ (10 * ct ≤ y ∧ 10 * ct ≤ |y - 1|)

/-- The conditions on such a trajectory. -/
structure TwoSegments (ct a b t x0 H0 H1 X1 X2 q0 q1 : ℝ) : Prop where
  h : 0 ≤ H0 ∧ 0 ≤ H1 ∧ H0 + H1 = t
  first : X1 = x0 + H0 * (a * q0 + b * (1 - q0))
  second : X2 = X1 + H1 * (a * q1 + b * (1 - q1))
  q : 0 ≤ q0 ∧ q0 ≤ 1 ∧ 0 ≤ q1 ∧ q1 ≤ 1
  left : (q0 ≠ 0 → x0 ≤ 0 ∧ X1 ≤ 0) ∧ (q1 ≠ 0 → X1 ≤ 0 ∧ X2 ≤ 0)
  right : (1 - q0 ≠ 0 → 0 ≤ x0 ∧ 0 ≤ X1) ∧ (1 - q1 ≠ 0 → 0 ≤ X1 ∧ 0 ≤ X2)
  clean : (∀ y, y = q0 ∨ y = 1 - q0 ∨ y = q1 ∨ y = 1 - q1 → Clean ct y) ∧
    ∀ y, y = x0 + 1 / 3 * (X1 - x0) ∨ y = X1 ∨ y = X1 + 1 / 3 * (X2 - X1) ∨ y = X2 →
      Clean ct |y| ∧ Clean ct (2 * |y|)

variable {x0 H0 H1 X1 X2 q0 q1 : ℝ} {po : PreOpts} {m : PreModel} {oc : PreOcp} {P : Problem} {uo : Option UserOcp}

theorem simplest_nfe (h : SetupEx demoColloc (shipOpts t 2 pol ct) (simplestModel a b xm) uo po m oc P) {k e : Nat}
    (hk : HasFE po k e) : k = 0 ∧ e < 2 := by
  have e1 : po.nStages = 1 := h.e_nStages
  have h1 := hk.1
  obtain rfl : k = 0 := by omega
  have h2 := hk.2
  unfold nfe at h2
  rw [h.e_nfeList] at h2
  exact ⟨rfl, h2⟩

theorem simplest_solves (hT : TwoSegments ct a b t x0 H0 H1 X1 X2 q0 q1)
    (h : SetupEx demoColloc (shipOpts t 2 pol ct) (simplestModel a b xm) (some UserOcp.trivial) po m oc P) :
    (simplestPath x0 H0 H1 X1 X2 q0 q1).Solves (simplestModel a b xm) UserOcp.trivial po
      (∑ j ∈ Finset.range (shipOpts t 2 pol ct).nS, slideW j) := by
  have e1 : po.nStages = 1 := h.e_nStages
  have e2 : nfe po 0 = 2 := by
    unfold nfe
    rw [h.e_nfeList]
    rfl
  have e3 : po.terminalTime = t := h.e_terminalTime
  have e4 : po.gammaH = 1 := h.e_gammaH
  have e5 : po.equidistant = true := h.e_equidistant
  have e6 : po.sot = .none := h.e_sot
  have hW : ∑ j ∈ Finset.range (shipOpts t 2 pol ct).nS, slideW j = 1 := by
    simp [shipOpts, simplestOpts, Opts.default, Finset.sum_range_succ, slideW]; norm_num
  set T := simplestPath x0 H0 H1 X1 X2 q0 q1 with hTd
  have s0 : ∀ i, T.start po 0 0 i = x0 := fun i => by simp [Path.start, prevFe, hTd, simplestPath]
  have s1 : ∀ i, T.start po 0 1 i = X1 := fun i => by simp [Path.start, prevFe, hTd, simplestPath]
  have sl0 : T.slope (simplestModel a b xm) 0 0 0 = a * q0 + b * (1 - q0) := by
    simp [Path.slope, hTd, simplestPath, simplestModel, UserModel.nSys, UserModel.Fmat, Finset.sum_range_succ]
  have sl1 : T.slope (simplestModel a b xm) 0 1 0 = a * q1 + b * (1 - q1) := by
    simp [Path.slope, hTd, simplestPath, simplestModel, UserModel.nSys, UserModel.Fmat, Finset.sum_range_succ]
  have hreg : ∀ i < 2, ∀ y : ℝ, ∀ p, (i = 0 → y ≤ 0) → (i = 1 → 0 ≤ y) →
      (simplestModel a b xm).InClosedRegion 0 i [y] p := by
    intro i hi y p g0 g1 n hn
    obtain rfl | rfl : i = 0 ∨ i = 1 := by omega
    · show 0 ≤ (-1 : ℝ) * y
      linarith [g0 rfl]
    · show 0 ≤ (1 : ℝ) * y
      linarith [g1 rfl]
  have hcl : ∀ e < 2, ∀ i < 2, T.theta 0 e 0 i ≠ 0 →
      (simplestModel a b xm).InClosedRegion 0 i (T.startL po (simplestModel a b xm) 0 e) (T.pL (simplestModel a b xm) 0) ∧
      (simplestModel a b xm).InClosedRegion 0 i (T.endL (simplestModel a b xm) 0 e) (T.pL (simplestModel a b xm) 0) := by
    intro e he i hi hθ
    obtain rfl | rfl : e = 0 ∨ e = 1 := by omega
    · have g1 : T.startL po (simplestModel a b xm) 0 0 = [x0] := by
        show [T.start po 0 0 0] = [x0]; rw [s0]
      have g2 : T.endL (simplestModel a b xm) 0 0 = [X1] := rfl
      rw [g1, g2]
      obtain rfl | rfl : i = 0 ∨ i = 1 := by omega
      · have := hT.left.1 hθ
        exact ⟨hreg 0 hi _ _ (fun _ => this.1) (by simp), hreg 0 hi _ _ (fun _ => this.2) (by simp)⟩
      · have := hT.right.1 hθ
        exact ⟨hreg 1 hi _ _ (by simp) (fun _ => this.1), hreg 1 hi _ _ (by simp) (fun _ => this.2)⟩
    · have g1 : T.startL po (simplestModel a b xm) 0 1 = [X1] := by
        show [T.start po 0 1 0] = [X1]; rw [s1]
      have g2 : T.endL (simplestModel a b xm) 0 1 = [X2] := rfl
      rw [g1, g2]
      obtain rfl | rfl : i = 0 ∨ i = 1 := by omega
      · have := hT.left.2 hθ
        exact ⟨hreg 0 hi _ _ (fun _ => this.1) (by simp), hreg 0 hi _ _ (fun _ => this.2) (by simp)⟩
      · have := hT.right.2 hθ
        exact ⟨hreg 1 hi _ _ (by simp) (fun _ => this.1), hreg 1 hi _ _ (by simp) (fun _ => this.2)⟩
  obtain ⟨h1, h2, h3⟩ := hT.h
  rw [hW]
  refine ⟨?_, ?_, ?_, ?_, ?_, ?_, ?_, ?_, ?_, ?_, ?_, ?_, ?_, ?_, ?_⟩
  · intro k e hk i hi
    obtain ⟨rfl, he⟩ := simplest_nfe h hk
    obtain rfl : i = 0 := by simpa [simplestModel] using hi
    obtain rfl | rfl : e = 0 ∨ e = 1 := by omega
    · rw [s0, sl0]
      show X1 = x0 + H0 * (1 * 1 * _)
      rw [hT.first]; ring
    · rw [s1, sl1]
      show X2 = X1 + H1 * (1 * 1 * _)
      rw [hT.second]; ring
  · intro k e hk s hs
    obtain rfl := simplest_sys hs
    obtain ⟨rfl, he⟩ := simplest_nfe h hk
    obtain ⟨c1, c2, c3, c4⟩ := hT.q
    constructor
    · intro i hi
      show 0 ≤ (if e = 0 then (if i = 0 then q0 else 1 - q0) else (if i = 0 then q1 else 1 - q1))
      split <;> split <;> linarith
    · show ∑ i ∈ Finset.range 2,
        (if e = 0 then (if i = 0 then q0 else 1 - q0) else (if i = 0 then q1 else 1 - q1)) = 1
      rw [Finset.sum_range_succ, Finset.sum_range_one]
      split <;> simp
  · intro k e hk s hs i hi hθ
    obtain rfl := simplest_sys hs
    obtain ⟨rfl, he⟩ := simplest_nfe h hk
    exact hcl e he i hi hθ
  · intro k e hk s hs i hi hθ
    obtain rfl := simplest_sys hs
    obtain ⟨rfl, he⟩ := simplest_nfe h hk
    exact fun n hn => (hcl e he i hi hθ).1 n hn
  · intro k e hk
    obtain ⟨rfl, he⟩ := simplest_nfe h hk
    unfold nominalH
    rw [e1, e2, e3, e4]
    obtain rfl | rfl : e = 0 ∨ e = 1 := by omega
    · show _ ≤ H0 ∧ H0 ≤ _
      constructor
      · linarith
      · push_cast; linarith
    · show _ ≤ H1 ∧ H1 ≤ _
      constructor
      · linarith
      · push_cast; linarith
  · intro _ k hk
    obtain rfl : k = 0 := by omega
    rw [e1, e2, e3, Finset.sum_range_succ, Finset.sum_range_one]
    show H0 + H1 = _
    rw [h3]; simp
  · intro _ h1; rw [e5] at h1; cases h1
  · intro _ k _; rfl
  · intro h0; rw [e6] at h0; cases h0
  · intro i _; exact ⟨bot_le, le_top⟩
  · intro k e _ i _; exact ⟨bot_le, le_top⟩
  · intro k _ i hi; exact absurd hi (by simp [simplestModel])
  · intro i hi; exact absurd hi (by simp [simplestModel])
  · intro k e _ _ i hi; exact absurd hi (by simp [UserOcp.trivial])
  · intro i hi; exact absurd hi (by simp [UserOcp.trivial])

theorem simplest_gmin (x : ℝ) (p : List ℝ) :
    (⨅ i : Fin ((simplestModel a b xm).Fmat 0).nCols, (simplestModel a b xm).gVal 0 i [x] [] p) = -|x| := by
  have h0 : (simplestModel a b xm).gVal 0 0 [x] [] p = x := by
    simp [UserModel.gVal, UserModel.gStewartTruthy, simplestModel, UserModel.Smat, UserModel.cVec]
  have h1 : (simplestModel a b xm).gVal 0 1 [x] [] p = -x := by
    simp [UserModel.gVal, UserModel.gStewartTruthy, simplestModel, UserModel.Smat, UserModel.cVec]
  have hc : ((simplestModel a b xm).Fmat 0).nCols = 2 := rfl
  haveI : Nonempty (Fin ((simplestModel a b xm).Fmat 0).nCols) := ⟨⟨0, by rw [hc]; norm_num⟩⟩
  apply le_antisymm
  · rcases le_total x 0 with hx | hx
    · refine (ciInf_le (Set.finite_range _).bddBelow
        (⟨0, by rw [hc]; norm_num⟩ : Fin ((simplestModel a b xm).Fmat 0).nCols)).trans ?_
      rw [abs_of_nonpos hx, neg_neg]
      exact h0.le
    · refine (ciInf_le (Set.finite_range _).bddBelow
        (⟨1, by rw [hc]; norm_num⟩ : Fin ((simplestModel a b xm).Fmat 0).nCols)).trans ?_
      rw [abs_of_nonneg hx]
      exact h1.le
  · refine le_ciInf fun i => ?_
    have h2 : i.1 < 2 := i.2
    obtain e | e : i.1 = 0 ∨ i.1 = 1 := by omega
    · rw [e, h0]; exact neg_abs_le x
    · rw [e, h1]; exact neg_le_neg (le_abs_self x)

theorem simplest_lam (x : ℝ) (p : List ℝ) {i : Nat} (hi : i < 2) :
    (simplestModel a b xm).lam00St [x] [] p 0 i = 0 ∨
    (simplestModel a b xm).lam00St [x] [] p 0 i = 2 * |x| := by
  have h0 : (simplestModel a b xm).gVal 0 0 [x] [] p = x := by
    simp [UserModel.gVal, UserModel.gStewartTruthy, simplestModel, UserModel.Smat, UserModel.cVec]
  have h1 : (simplestModel a b xm).gVal 0 1 [x] [] p = -x := by
    simp [UserModel.gVal, UserModel.gStewartTruthy, simplestModel, UserModel.Smat, UserModel.cVec]
  unfold UserModel.lam00St
  rw [simplest_gmin x]
  rcases le_total x 0 with hx | hx
  · rw [abs_of_nonpos hx]
    obtain rfl | rfl : i = 0 ∨ i = 1 := by omega
    · left; rw [h0]; ring
    · right; rw [h1]; ring
  · rw [abs_of_nonneg hx]
    obtain rfl | rfl : i = 0 ∨ i = 1 := by omega
    · right; rw [h0]; ring
    · left; rw [h1]; ring

theorem simplest_clean (hT : TwoSegments ct a b t x0 H0 H1 X1 X2 q0 q1)
    (h : SetupEx demoColloc (shipOpts t 2 pol ct) (simplestModel a b xm) uo po m oc P)
    (hr : po.rbe = true) {ρ : Nat → ℝ} (r0 : ρ 0 = 1 / 3) (r1 : ρ 1 = 1) :
    ∀ s ∈ P.form.w, IsMultiplier s →
      (simplestPath x0 H0 H1 X1 X2 q0 q1).env po (simplestModel a b xm) ρ s = 0 ∨
      (simplestPath x0 H0 H1 X1 X2 q0 q1).env po (simplestModel a b xm) ρ s = 1 ∨
      (10 * (shipOpts t 2 pol ct).compTol ≤ (simplestPath x0 H0 H1 X1 X2 q0 q1).env po (simplestModel a b xm) ρ s ∧
        10 * (shipOpts t 2 pol ct).compTol ≤
          |(simplestPath x0 H0 H1 X1 X2 q0 q1).env po (simplestModel a b xm) ρ s - 1|) := by
  intro s hs hmul
  have eS : po.nS = 2 := h.e_nS
  have hp : po.pss = .stewart := h.e_pss
  change Clean ct _
  set T := simplestPath x0 H0 H1 X1 X2 q0 q1 with hTd
  have hpt : ∀ e < 2, ∀ j < 2, Clean ct |T.pt po ρ 0 e j 0| ∧ Clean ct (2 * |T.pt po ρ 0 e j 0|) := by
    intro e he j hj
    apply hT.clean.2
    obtain rfl | rfl : e = 0 ∨ e = 1 := by omega
    · obtain rfl | rfl : j = 0 ∨ j = 1 := by omega
      · left; simp [hTd, Path.pt, Path.start, prevFe, simplestPath, r0]
      · right; left; simp [hTd, Path.pt, Path.start, prevFe, simplestPath, r1]
    · obtain rfl | rfl : j = 0 ∨ j = 1 := by omega
      · right; right; left; simp [hTd, Path.pt, Path.start, prevFe, simplestPath, r0]
      · right; right; right; simp [hTd, Path.pt, Path.start, prevFe, simplestPath, r1]
  obtain ⟨-, -, -, -, -, -, dS, dF, -⟩ := h.toSetup.dims
  rcases (C04_variables h.toSetup s).2 hs with hv | ⟨hb, -⟩
  · cases s with
    | st2 f k e j s i =>
      cases f with
      | theta =>
        apply hT.clean.1
        show (if e = 0 then (if i = 0 then q0 else 1 - q0) else (if i = 0 then q1 else 1 - q1)) = _ ∨
          (if e = 0 then (if i = 0 then q0 else 1 - q0) else (if i = 0 then q1 else 1 - q1)) = _ ∨
          (if e = 0 then (if i = 0 then q0 else 1 - q0) else (if i = 0 then q1 else 1 - q1)) = _ ∨
          (if e = 0 then (if i = 0 then q0 else 1 - q0) else (if i = 0 then q1 else 1 - q1)) = _
        split <;> split <;> simp
      | lam =>
        obtain ⟨-, hk, hj, hsy, hi⟩ := hv
        obtain ⟨rfl, he⟩ := simplest_nfe h hk
        rw [nLamPts_rbe hr, eS] at hj
        have hs' : s < (simplestModel a b xm).nSys := by rw [← dS]; exact hsy
        obtain rfl := simplest_sys hs'
        rw [dF hp 0 hs'] at hi
        change Clean ct ((simplestModel a b xm).lam00St [T.pt po ρ 0 e j 0] [] _ 0 i)
        rcases simplest_lam (a := a) (b := b) (xm := xm) (T.pt po ρ 0 e j 0) (T.pL (simplestModel a b xm) 0) hi with g | g
        · rw [g]; exact .inl rfl
        · rw [g]; exact (hpt e he j hj).2
      | mu =>
        obtain ⟨-, hk, hj, hsy, hi⟩ := hv
        obtain ⟨rfl, he⟩ := simplest_nfe h hk
        rw [nLamPts_rbe hr, eS] at hj
        have hs' : s < (simplestModel a b xm).nSys := by rw [← dS]; exact hsy
        obtain rfl := simplest_sys hs'
        have : T.env po (simplestModel a b xm) ρ (.st2 .mu 0 e j 0 i) = |T.pt po ρ 0 e j 0| := by
          show -⨅ i : Fin ((simplestModel a b xm).Fmat 0).nCols,
            (simplestModel a b xm).gVal 0 i [T.pt po ρ 0 e j 0] [] _ = _
          rw [simplest_gmin, neg_neg]
        rw [this]
        exact (hpt e he j hj).1
      | alpha => exact absurd (hp.symm.trans hv.1) (by decide)
      | lamN => exact absurd (hp.symm.trans hv.1) (by decide)
      | lamP => exact absurd (hp.symm.trans hv.1) (by decide)
    | _ => exact hmul.elim
  · exact absurd (h.e_mpcc.symm.trans hb) (by simp [shipOpts, simplestOpts, Opts.default])

/-- The parameters of the problem, for a trajectory from the stored initial state. -/
theorem simplest_params (h : SetupEx demoColloc (shipOpts t 2 pol ct) (simplestModel a b xm) uo po m oc P) {S : Solver}
    (hi : Inv po m P S) {T : Path} {ρ : Nat → ℝ} (hx : S.m.x0 = [T.x0 0]) (σ τ : ℝ) :
    ∀ s ∈ P.p, withSigma (T.env po (simplestModel a b xm) ρ) σ τ s = paramVal (simplestModel a b xm) S σ τ s := by
  have h' := h.toSetup
  have hp' : po.pss = .stewart := h.e_pss
  obtain ⟨dX, -, -, -, dT, dG, -, -, -⟩ := h'.dims
  intro s ht
  rw [p_eq h'] at ht
  unfold pHead at ht
  simp only [List.mem_append, List.mem_flatMap, blk, List.mem_map] at ht
  rcases ht with ((⟨k, hk, i, hi', rfl⟩ | ht) | ((hb | hb) | hb)) | ⟨i, hi', rfl⟩
  · exact absurd (List.mem_range.1 hi') (by simp [dT, dG, simplestModel])
  · simp at ht
    rcases ht with rfl | rfl <;> rfl
  · obtain ⟨s, i, rfl⟩ := mem_lam00Row hb
    change (simplestModel a b xm).lam00St [T.x0 0] [] (T.pL (simplestModel a b xm) 0) s i
      = (simplestModel a b xm).lam00St S.m.x0 S.m.z0 (S.m.pVal.headD []) s i
    have hz0 : S.m.z0 = [] := by
      rw [hi.z0]
      exact List.eq_nil_of_length_eq_zero (by rw [z0_length h']; rfl)
    have hp0 : S.m.pVal.headD [] = [] := by
      cases hpv : S.m.pVal with
      | nil => rfl
      | cons a l =>
        apply List.eq_nil_of_length_eq_zero
        rw [List.headD_cons, hi.pRow a (by rw [hpv]; simp), dT, dG]
        rfl
    rw [hx, hz0, hp0]
    rfl
  · exfalso
    unfold lam00Row at hb
    simp [hp', Dims.famLen, blk] at hb
  · exfalso
    unfold lam00Row at hb
    simp [hp', Dims.famLen, blk] at hb
  · obtain rfl : i = 0 := by simpa [dX, simplestModel] using hi'
    change T.x0 0 = S.m.x0.getD 0 0
    rw [hx]
    rfl

/-- A step with an exact NLP solver, reported as SUCCESS. -/
theorem simplest_stepRun {ct a b t x0 H0 H1 X1 X2 q0 q1 : ℝ} (hT : TwoSegments ct a b t x0 H0 H1 X1 X2 q0 q1) (xm : ℝ)
    (hct : 0 < ct) (hct' : ct ≤ 1 / 10) :
    ∃ po m oc P orc S L L' R b',
      SetupEx demoColloc (shipOpts t 2 true ct) (simplestModel a b xm) none po m oc P ∧ po.rbe = true ∧
      Solver.create demoColloc (shipOpts t 2 true ct) (simplestModel a b xm) none = .ok S ∧
      Reachable demoColloc (shipOpts t 2 true ct) (simplestModel a b xm) none orc S ∧ orc.Exact P ∧
      Looper.create S [x0] 1 none none = .ok L ∧ L.run orc false = (L', .ok b') ∧ L'.getResults = .ok R ∧
      R.status = [.success] := by
  obtain ⟨po, m, oc, P0, h0, hr⟩ := simplest_setup a b xm t (by omega : 0 < 2) true ct hct
  obtain ⟨P, h⟩ : ∃ P, SetupEx demoColloc (shipOpts t 2 true ct) (simplestModel a b xm) none po m oc P :=
    ⟨_, ⟨h0.toSetup.toNone, rfl, by simp [UserOcp.trivial]⟩⟩
  have h' := h.toSetup
  obtain ⟨ρ, hρ⟩ := fractions_exist h hr simplest_weights fun _ => simplest_colloc
  have r0 : ρ 0 = 1 / 3 := by
    rw [hρ.integral rfl 0 (by simp [shipOpts, simplestOpts, Opts.default])]
    simp [shipOpts, simplestOpts, Opts.default, demoColloc]
  have r1 : ρ 1 = 1 := hρ.last
  have hexact : ExactMode (shipOpts t 2 true ct) := .inl (by simp [SignedMode, shipOpts, simplestOpts, Opts.default])
  have D := (Path.point h rfl rfl hr hexact simplest_signs simplest_pc simplest_plain
    (fun _ => simplest_colloc.1) simplest_weights hρ (simplest_solves hT h0)).1
  let f : List ℝ → List ℝ := fun _ =>
    P.form.w.map ((simplestPath x0 H0 H1 X1 X2 q0 q1).env po (simplestModel a b xm) ρ)
  obtain ⟨hcr, hS, hrd⟩ := h'.create (wishOracle P f) (by simp [shipOpts, simplestOpts, Opts.default])
  have hL : (shipOpts t 2 true ct).nfeAfter.length = (shipOpts t 2 true ct).nStages := simplest_exactOpts.lists
  obtain ⟨L, hc⟩ := (C64_create_iff h' hS [x0] 1 none none).1.2 ⟨⟨rfl, rfl, rfl⟩, .inl rfl⟩
  obtain ⟨L', R, hrun, hR⟩ := C62_run_returns h' hL hS hrd Nat.one_pos rfl
    (fun _ => by simp [shipOpts, simplestOpts, Opts.default]) (.inl ⟨.inl rfl, rfl⟩)
    (fun _ s hs s' hs' => by rw [simplest_sys hs, simplest_sys hs']) hc false
  refine ⟨po, m, oc, P, wishOracle P f, _, L, L', R, _, h, hr, hcr, hS, wishOracle_exact P f, hc, hrun, hR, ?_⟩
  obtain ⟨result, calls, sim, q1, -⟩ := run_sim h' hL hS hc hrun hR
  obtain ⟨hB, -⟩ := q1 0 one_pos
  obtain ⟨x, hx, hx', -⟩ := sim.start 0 one_pos
  rw [sim.states] at hx
  have hx0 : x = [x0] := by simpa using hx.symm
  rw [sim.status]
  simp only [List.range_one, List.map_cons, List.map_nil]
  rw [(wish_polish (env := (simplestPath x0 H0 H1 X1 X2 q0 _).env po (simplestModel a b xm) ρ) h hB
    (sim.solved 0 one_pos).1 rfl (.inl rfl)
    hct' rfl (by norm_num [shipOpts, simplestOpts, Opts.default])
    (by norm_num [shipOpts, simplestOpts, Opts.default])
    (fun σ τ hσ => C98_homotopy h (by simp [Opts.RelaxesByInequality, shipOpts, simplestOpts, Opts.default]) hσ D)
    (fun σ τ => simplest_params h (hB.inv h') (by rw [hx', hx0]; rfl) σ τ)
    (fun σ τ => rfl) (simplest_clean hT h hr r0 r1)).1]

/-- An exact NLP solver with which the driver returns, all steps reported as SUCCESS. -/
theorem simplest_example {a b t x0 H0 H1 X1 X2 q0 q1 : ℝ}
    (hT : TwoSegments (1 / 10 ^ 9) a b t x0 H0 H1 X1 X2 q0 q1) (xm : ℝ) :
    ∃ (orc : Oracle) (R : SimResults),
      (∀ q, construct demoColloc { shipOpts 1 2 true with terminalTime := t / (1 : Nat) } (simplestModel a b xm) none
        = .ok q → orc.Exact q.2.2.2) ∧
      solveSimplest demoColloc orc (shipOpts 1 2 true) (simplestModel a b xm) [x0] 1 t = .ok R ∧
      ∀ s ∈ R.status, s = .success := by
  have ho : ({ shipOpts 1 2 true with terminalTime := t / (1 : Nat) } : Opts) = shipOpts t 2 true := by
    simp [shipOpts]
  obtain ⟨po, m, oc, P, orc, S, L, L', R, b', h, -, hcr, hS, hex, hc, hrun, hR, hst⟩ :=
    simplest_stepRun hT xm (by norm_num) (by norm_num)
  refine ⟨orc, R, ?_, ?_, ?_⟩
  · intro q hq
    rw [ho, h.toSetup.ok] at hq
    cases hq
    exact hex
  · unfold solveSimplest
    simp only [bind_eq_ok, check_eq_ok]
    refine ⟨(), by simp, _, by rw [ho]; exact hcr, L, hc, ?_⟩
    rw [hrun]
    exact hR
  · rw [hst]
    simp

end

theorem clean_of {y : ℝ} (h0 : 1 / 10 ^ 8 ≤ y) (h1 : y ≤ 1 - 1 / 10 ^ 8 ∨ 1 + 1 / 10 ^ 8 ≤ y) : Clean (1 / 10 ^ 9) y := by
  have e : (10 : ℝ) * (1 / 10 ^ 9) = 1 / 10 ^ 8 := by norm_num
  unfold Clean
  rw [e]
  refine .inr (.inr ⟨h0, ?_⟩)
  rcases h1 with h1 | h1
  · rw [abs_of_neg (by norm_num at h1 ⊢; linarith)]; linarith
  · rw [abs_of_pos (by norm_num at h1 ⊢; linarith)]; linarith

/-- The hypotheses of `C117_crossing` and `C117_sliding` are met by the two shipped models (`a = 3`, `b = 1` or
`-1`, `x0 = -1`) with the shipped options and polishing, for every simulation time between 1/2 and 4/5. -/
theorem simplest_met {b t : ℝ} (hb : b = 1 ∨ b = -1) (h1 : 1 / 2 ≤ t) (h2 : t ≤ 4 / 5) :
    TwoSegments (1 / 10 ^ 9) 3 b t (-1) (1 / 3) (t - 1 / 3) 0 (if b = 1 then t - 1 / 3 else 0) 1
      (if b = 1 then 0 else 1 / 4) := by
  have c0 : ∀ ct, Clean ct 0 := fun _ => .inl rfl
  have c1 : ∀ ct, Clean ct 1 := fun _ => .inr (.inl rfl)
  rcases hb with rfl | rfl
  · simp only [if_true]
    refine ⟨⟨by norm_num, by linarith, by ring⟩, by norm_num, by ring, by norm_num, by norm_num,
      ⟨by norm_num, fun _ => ⟨le_rfl, by linarith⟩⟩, ?_, ?_⟩
    · rintro y (rfl | rfl | rfl | rfl)
      · exact c1 _
      · norm_num; exact c0 _
      · exact c0 _
      · norm_num; exact c1 _
    · rintro y (rfl | rfl | rfl | rfl)
      · rw [show |(-1 : ℝ) + 1 / 3 * (0 - -1)| = 2 / 3 by rw [abs_of_neg (by norm_num)]; norm_num]
        exact ⟨clean_of (by norm_num) (.inl (by norm_num)), clean_of (by norm_num) (.inr (by norm_num))⟩
      · simp [c0]
      · rw [abs_of_pos (by linarith)]
        exact ⟨clean_of (by norm_num; linarith) (.inl (by norm_num; linarith)),
          clean_of (by norm_num; linarith) (.inl (by norm_num; linarith))⟩
      · rw [abs_of_pos (by linarith)]
        exact ⟨clean_of (by norm_num; linarith) (.inl (by norm_num; linarith)),
          clean_of (by norm_num; linarith) (.inl (by norm_num; linarith))⟩
  · have hne : ¬ (-1 : ℝ) = 1 := by norm_num
    simp only [hne, if_false]
    refine ⟨⟨by norm_num, by linarith, by ring⟩, by norm_num, by ring, by norm_num, by norm_num,
      by norm_num, ?_, ?_⟩
    · rintro y (rfl | rfl | rfl | rfl)
      · exact c1 _
      · norm_num; exact c0 _
      · exact clean_of (by norm_num) (.inl (by norm_num))
      · exact clean_of (by norm_num) (.inl (by norm_num))
    · rintro y (rfl | rfl | rfl | rfl)
      · rw [show |(-1 : ℝ) + 1 / 3 * (0 - -1)| = 2 / 3 by rw [abs_of_neg (by norm_num)]; norm_num]
        exact ⟨clean_of (by norm_num) (.inl (by norm_num)), clean_of (by norm_num) (.inr (by norm_num))⟩
      · simp [c0]
      · simp [c0]
      · simp [c0]

/-- ... and those of `C117_leaving` by the shipped model of a spontaneous switch. -/
theorem simplest_met_leaving {t : ℝ} (h1 : 31 / 40 ≤ t) (h2 : t ≤ 4 / 5) :
    TwoSegments (1 / 10 ^ 9) (-1) 1 t 0 (t / 2) (t / 2) (t / 2) t 0 0 := by
  have c0 : ∀ ct, Clean ct 0 := fun _ => .inl rfl
  have c1 : ∀ ct, Clean ct 1 := fun _ => .inr (.inl rfl)
  refine ⟨⟨by linarith, by linarith, by ring⟩, by ring, by ring, by norm_num, by norm_num,
    ⟨fun _ => ⟨le_rfl, by linarith⟩, fun _ => ⟨by linarith, by linarith⟩⟩, ?_, ?_⟩
  · rintro y (rfl | rfl | rfl | rfl)
    · exact c0 _
    · norm_num; exact c1 _
    · exact c0 _
    · norm_num; exact c1 _
  · rintro y (rfl | rfl | rfl | rfl)
    · rw [abs_of_pos (by linarith)]
      exact ⟨clean_of (by norm_num; linarith) (.inl (by norm_num; linarith)),
        clean_of (by norm_num; linarith) (.inl (by norm_num; linarith))⟩
    · rw [abs_of_pos (by linarith)]
      exact ⟨clean_of (by norm_num; linarith) (.inl (by norm_num; linarith)),
        clean_of (by norm_num; linarith) (.inl (by norm_num; linarith))⟩
    · rw [abs_of_pos (by linarith)]
      exact ⟨clean_of (by norm_num; linarith) (.inl (by norm_num; linarith)),
        clean_of (by norm_num; linarith) (.inr (by norm_num; linarith))⟩
    · rw [abs_of_pos (by linarith)]
      exact ⟨clean_of (by norm_num; linarith) (.inl (by norm_num; linarith)),
        clean_of (by norm_num; linarith) (.inr (by norm_num; linarith))⟩

/-- The shipped crossing example over the shipped time: the switching time 1/3 is found and the final state is
`π / 4 - 1 / 3`. -/
example : ∃ (orc : Oracle) (R : SimResults),
    solveSimplest demoColloc orc (shipOpts 1 2 true) (simplestModel 3 1 (-1)) [-1] 1 (Real.pi / 4) = .ok R ∧
    (1 / 3 : ℝ) ∈ R.tGrid ∧ R.tGrid.getLast? = some (Real.pi / 4) ∧
    R.xSim.getLast? = some [Real.pi / 4 - 1 / 3] := by
  have p1 := Real.pi_gt_d2
  have p2 := Real.pi_lt_d2
  obtain ⟨orc, R, hex, hR, hst⟩ := simplest_example (simplest_met (.inl rfl)
    (by linarith : 1 / 2 ≤ Real.pi / 4) (by norm_num at p2 ⊢; linarith)) (-1)
  obtain ⟨W, w1, -, k1, k2, k3, k4⟩ := C117_crossing simplest_exactOpts (by linarith) (by norm_num) (by norm_num)
    (by norm_num) hex hR hst
  obtain rfl := w1 rfl
  refine ⟨orc, R, hR, ?_, k3, ?_⟩
  · have := k4 (by norm_num) (by norm_num at p1 ⊢; linarith)
    norm_num at this ⊢
    exact this
  · rw [k1, List.getLast?_map, k3, Option.map_some, crossingSol, if_neg (by norm_num),
      if_neg (by norm_num at p1 ⊢; linarith)]
    norm_num

/-- The shipped sliding example: it ends on the surface. -/
example : ∃ (orc : Oracle) (R : SimResults),
    solveSimplest demoColloc orc (shipOpts 1 2 true) (simplestModel 3 (-1) (-1)) [-1] 1 (Real.pi / 4) = .ok R ∧
    (1 / 3 : ℝ) ∈ R.tGrid ∧ R.tGrid.getLast? = some (Real.pi / 4) ∧ R.xSim.getLast? = some [0] := by
  have p1 := Real.pi_gt_d2
  have p2 := Real.pi_lt_d2
  obtain ⟨orc, R, hex, hR, hst⟩ := simplest_example (simplest_met (.inr rfl)
    (by linarith : 1 / 2 ≤ Real.pi / 4) (by norm_num at p2 ⊢; linarith)) (-1)
  obtain ⟨W, w1, -, k1, k2, k3, k4, -⟩ := C117_sliding simplest_exactOpts (by linarith) (by norm_num) (by norm_num)
    hex hR hst
  obtain rfl := w1 rfl
  refine ⟨orc, R, hR, ?_, k3, ?_⟩
  · have := k4 (by norm_num) (by norm_num at p1 ⊢; linarith)
    norm_num at this ⊢
    exact this
  · rw [k1, List.getLast?_map, k3, Option.map_some, slidingSol, if_pos (by norm_num),
      min_eq_right (by norm_num at p1 ⊢; linarith)]

/-- The hypotheses of `C117_leaving` are met. -/
example : ∃ (orc : Oracle) (R : SimResults),
    (∀ q, construct demoColloc { shipOpts 1 2 true with terminalTime := Real.pi / 4 / (1 : Nat) }
      (simplestModel (-1) 1 0) none = .ok q → orc.Exact q.2.2.2) ∧
    solveSimplest demoColloc orc (shipOpts 1 2 true) (simplestModel (-1) 1 0) [0] 1 (Real.pi / 4) = .ok R ∧
    ∀ s ∈ R.status, s = .success := by
  have p1 := Real.pi_gt_d2
  have p2 := Real.pi_lt_d2
  exact simplest_example (simplest_met_leaving (by norm_num at p1 ⊢; linarith) (by norm_num at p2 ⊢; linarith)) 0

end Nosnoc
