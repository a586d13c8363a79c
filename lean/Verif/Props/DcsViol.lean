import Verif.Witness.Const
/-
C23-C25: concrete feasible points, and what goes wrong for sign matrices with zeros.
-/
namespace Nosnoc

/-- Three regions, the first one a half plane: `c₀ > 0`; `c₀ < 0, c₁ > 0`; `c₀ < 0, c₁ < 0`. -/
def halfSigns : SMat :=
  ⟨3, 2, fun i k => if i = 0 then (if k = 0 then 1 else 0)
    else if k = 0 then -1 else if i = 1 then 1 else -1⟩

theorem halfSigns_sign : halfSigns.IsSign := by
  intro i _ k _
  simp only [halfSigns]
  split_ifs <;> simp

/-- Its regions cover the plane without overlap. -/
theorem halfSigns_partition : halfSigns.Partition := by
  intro σ
  have h3 : ∀ i : Fin 3, i = 0 ∨ i = 1 ∨ i = 2 := by decide
  have h2 : ∀ {p : Nat → Prop}, (∀ k < 2, p k) ↔ p 0 ∧ p 1 := by
    intro p
    exact ⟨fun h => ⟨h 0 (by norm_num), h 1 (by norm_num)⟩, fun h k hk => by
      have : k = 0 ∨ k = 1 := by omega
      rcases this with rfl | rfl <;> [exact h.1; exact h.2]⟩
  have key : ∀ i : Fin 3, (∀ k < 2, halfSigns.entry i k ≠ 0 → halfSigns.entry i k = if σ k then 1 else -1) ↔
      (i = 0 ∧ σ 0 = true) ∨ (i = 1 ∧ σ 0 = false ∧ σ 1 = true) ∨ (i = 2 ∧ σ 0 = false ∧ σ 1 = false) := by
    intro i
    rw [h2]
    rcases h3 i with rfl | rfl | rfl <;> cases σ 0 <;> cases σ 1 <;> norm_num [halfSigns] <;>
      decide
  show ∃! i : Fin 3, ∀ k < 2, halfSigns.entry i k ≠ 0 → halfSigns.entry i k = if σ k then 1 else -1
  simp only [key]
  cases σ 0
  · cases σ 1
    · exact ⟨2, by simp, by simp⟩
    · exact ⟨1, by simp, by simp⟩
  · exact ⟨0, by simp, by simp⟩

/-- `c = (1, 3)`: strictly inside region 0, whatever the second switching function says. -/
def halfC (k : Nat) : ℝ := if k = 0 then 1 else 3

/-- C23 fails with zeros in `S`: the regions of `halfSigns` cover the plane without overlap, the switching
functions are `1` and `3` everywhere, so that every state is strictly inside region 0 (and in no
other region), but at a feasible point region 1 is the active one and the right-hand side is that of
region 1. Stewart's indicator `-S c` is smaller there because the row has more entries. -/
theorem C23_zeros_violated :
    ∃ (um : UserModel) (po : PreOpts) (m : PreModel) (oc : PreOcp) (P : Problem) (env : Env),
      SetupEx oneColloc (constOpts .stewart) um (some UserOcp.trivial) po m oc P ∧
      ExactMode (constOpts .stewart) ∧ um.gStewartTruthy = false ∧
      (um.Smat 0).IsSign ∧ (um.Smat 0).Partition ∧
      P.form.Feasible env ∧ env .sigma = 0 ∧ NoSlack (constOpts .stewart) env ∧
      (∀ q, 0 ≤ lam00At env q) ∧ HasFE po 0 0 ∧
      (∀ i < 3, InRegion (um.Smat 0) i (fun r => (um.cVec 0).entry r (xVal po m.dims 0 0 0 env)
        (zVal m.dims 0 0 0 env) (pVal m.dims 0 env)) ↔ i = 0) ∧
      env (.st2 .theta 0 0 0 0 0) = 0 ∧ env (.st2 .theta 0 0 0 0 1) = 1 ∧
      um.stageRhs po m.dims 0 0 0 0 env ≠ (um.Fmat 0).entry 0 0 (xVal po m.dims 0 0 0 env)
        (zVal m.dims 0 0 0 env) (uVal m.dims 0 env) (pVal m.dims 0 env) (vVal m.dims env) := by
  obtain ⟨po, m, oc, P, h, hrbe, hA⟩ := const_setup (pss := .stewart) (S := halfSigns) (c := halfC)
    (by simp [halfSigns])
  have g0 : constG halfSigns halfC 0 = -1 := by
    simp [constG, halfSigns, halfC, Finset.sum_range_succ]
  have g1 : constG halfSigns halfC 1 = -2 := by
    simp [constG, halfSigns, halfC, Finset.sum_range_succ]; norm_num
  have g2 : constG halfSigns halfC 2 = 4 := by
    simp [constG, halfSigns, halfC, Finset.sum_range_succ]; norm_num
  have hf := const_feasible h hrbe hA (r := 1) (by simp [halfSigns]) (by
    intro i hi
    have : i = 0 ∨ i = 1 ∨ i = 2 := by simp [halfSigns] at hi; omega
    rcases this with rfl | rfl | rfl <;> simp only [g0, g1, g2] <;> norm_num)
  refine ⟨_, po, m, oc, P, _, h, .inl (by simp [constOpts, Opts.default, SignedMode]), rfl,
    halfSigns_sign, halfSigns_partition, hf, rfl, by simp [NoSlack, constOpts, Opts.default],
    fun q => const_lam00 q 1, const_hasFE h, ?_, by simp [constEnvP], by simp [constEnvP], ?_⟩
  · intro i hi
    show InRegion halfSigns i halfC ↔ _
    have : i = 0 ∨ i = 1 ∨ i = 2 := by omega
    constructor
    · intro hin
      have h0 := hin 0 (by simp [halfSigns])
      rcases this with rfl | rfl | rfl
      · rfl
      · exact absurd (h0 (by simp [halfSigns])) (by norm_num [halfSigns, halfC])
      · exact absurd (h0 (by simp [halfSigns])) (by norm_num [halfSigns, halfC])
    · rintro rfl k hk hne
      have : k = 0 := by
        by_contra hk0
        exact hne (by simp [halfSigns, hk0])
      subst this
      norm_num [halfSigns, halfC]
  · have e4 : po.pss = .stewart := h.e_pss
    unfold UserModel.stageRhs
    rw [e4]
    simp [UserModel.rhsStewart, UserModel.nSys, constModel, UserModel.Fmat, constEnvP, halfSigns]

/-- The full sign matrix with two switching functions of values `1` and `-1`: region `1` (binary 01). -/
def fullC (k : Nat) : ℝ := if k = 0 then 1 else -1

theorem fullC_region : InRegion (fullSigns 2) 1 fullC := by
  intro k hk _
  have : k = 0 ∨ k = 1 := by simp [fullSigns] at hk; omega
  have hb : Nat.testBit 1 1 = false := by decide
  rcases this with rfl | rfl <;> simp [fullSigns, fullC, hb]

/-- Hypotheses of the C23 and C25 theorems are met (Stewart). -/
example : ∃ (um : UserModel) (po : PreOpts) (m : PreModel) (oc : PreOcp) (P : Problem) (env : Env),
    SetupEx oneColloc (constOpts .stewart) um (some UserOcp.trivial) po m oc P ∧
    ExactMode (constOpts .stewart) ∧ um.gStewartTruthy = false ∧
    P.form.Feasible env ∧ env .sigma = 0 ∧ NoSlack (constOpts .stewart) env ∧
    (∀ q, 0 ≤ lam00At env q) ∧ HasFE po 0 0 ∧ um.nSys = 1 ∧ (um.Smat 0).IsDense ∧
    InRegion (um.Smat 0) 1 (fun r => (um.cVec 0).entry r (xVal po m.dims 0 0 0 env)
      (zVal m.dims 0 0 0 env) (pVal m.dims 0 env)) ∧
    (um.Fmat 0).nCols = 4 ∧ env (.st2 .theta 0 0 0 0 1) = 1 ∧
    um.stageRhs po m.dims 0 0 0 0 env = 1 := by
  obtain ⟨po, m, oc, P, h, hrbe, hA⟩ := const_setup (pss := .stewart) (S := fullSigns 2) (c := fullC)
    (by simp [fullSigns])
  have hmin := fun i hi hne => dense_min (C25_full 2).2.1 (i := 1) (j := i) (by simp [fullSigns]) hi hne
    fullC_region
  have hf := const_feasible h hrbe hA (r := 1) (by simp [fullSigns]) (by
    intro i hi
    by_cases h1 : i = 1
    · rw [h1]
    · exact (hmin i hi h1).le)
  have hC := C23_rhs_partial h rfl rfl (.inl (by simp [constOpts, Opts.default, SignedMode])) hf rfl
    (by simp [NoSlack, constOpts, Opts.default]) (fun q _ => const_lam00 q 1) (const_hasFE h)
    (j := 0) (by simp [constOpts]) (fun s hs => by obtain rfl := const_sys hs; exact (C25_full 2).2.1)
    (fun _ => 1) (fun s hs => by obtain rfl := const_sys hs; simp [UserModel.Smat, constModel, fullSigns])
    (fun s hs => by obtain rfl := const_sys hs; exact fullC_region) 0
  refine ⟨_, po, m, oc, P, _, h, .inl (by simp [constOpts, Opts.default, SignedMode]), rfl, hf, rfl,
    by simp [NoSlack, constOpts, Opts.default], fun q => const_lam00 q 1, const_hasFE h, rfl,
    (C25_full 2).2.1, fullC_region, by simp [UserModel.Fmat, constModel, fullSigns], by simp [constEnvP], ?_⟩
  rw [hC]
  simp [UserModel.nSys, constModel, UserModel.Fmat]

/-- Hypotheses of the C24 and C25 theorems are met (step representation), for the matrix with a zero: the
right-hand side is that of the region the state is in. -/
example : ∃ (um : UserModel) (po : PreOpts) (m : PreModel) (oc : PreOcp) (P : Problem) (env : Env),
    SetupEx oneColloc (constOpts .step) um (some UserOcp.trivial) po m oc P ∧
    ExactMode (constOpts .step) ∧
    P.form.Feasible env ∧ env .sigma = 0 ∧ NoSlack (constOpts .step) env ∧
    (∀ q, 0 ≤ lam00At env q) ∧ HasFE po 0 0 ∧ um.nSys = 1 ∧ (um.Smat 0).IsSign ∧
    (um.Smat 0).Contradicting ∧ (um.Smat 0).Partition ∧
    InRegion (um.Smat 0) 1 (fun r => (um.cVec 0).entry r (xVal po m.dims 0 0 0 env)
      (zVal m.dims 0 0 0 env) (pVal m.dims 0 env)) ∧
    (um.Fmat 0).nCols = 3 ∧ um.stageRhs po m.dims 0 0 0 0 env = 1 := by
  let c : Nat → ℝ := fun k => if k = 0 then -1 else 3
  obtain ⟨po, m, oc, P, h, hrbe, hA⟩ := const_setup (pss := .step) (S := halfSigns) (c := c)
    (by simp [halfSigns])
  have g0 : constG halfSigns c 0 = 1 := by
    simp [constG, halfSigns, c, Finset.sum_range_succ]
  have g1 : constG halfSigns c 1 = -4 := by
    simp [constG, halfSigns, c, Finset.sum_range_succ]; norm_num
  have g2 : constG halfSigns c 2 = 2 := by
    simp [constG, halfSigns, c, Finset.sum_range_succ]; norm_num
  have hf := const_feasible h hrbe hA (r := 1) (by simp [halfSigns]) (by
    intro i hi
    have : i = 0 ∨ i = 1 ∨ i = 2 := by simp [halfSigns] at hi; omega
    rcases this with rfl | rfl | rfl <;> simp only [g0, g1, g2] <;> norm_num)
  have hin : InRegion halfSigns 1 c := by
    intro k hk _
    have : k = 0 ∨ k = 1 := by simp [halfSigns] at hk; omega
    rcases this with rfl | rfl <;> simp [halfSigns, c]
  have hcon : halfSigns.Contradicting := by
    intro i hi j hj hij
    have hi : i < 3 := hi
    have hj : j < 3 := hj
    by_cases h0 : i = 0 ∨ j = 0
    · refine ⟨0, by simp [halfSigns], ?_⟩
      rcases h0 with rfl | rfl
      · simp [halfSigns, Ne.symm hij]
      · simp [halfSigns, hij]
    · push Not at h0
      refine ⟨1, by simp [halfSigns], ?_⟩
      have : (i = 1 ∧ j = 2) ∨ (i = 2 ∧ j = 1) := by omega
      rcases this with ⟨rfl, rfl⟩ | ⟨rfl, rfl⟩ <;> simp [halfSigns]
  have hC := C24_rhs h rfl rfl (.inl (by simp [constOpts, Opts.default, SignedMode])) hf rfl
    (by simp [NoSlack, constOpts, Opts.default]) (fun q _ => const_lam00 q 1) (const_hasFE h)
    (j := 0) (by simp [constOpts]) (fun s hs => by obtain rfl := const_sys hs; exact halfSigns_sign)
    (fun s hs => by obtain rfl := const_sys hs; exact hcon)
    (fun _ => 1) (fun s hs => by obtain rfl := const_sys hs; simp [UserModel.Smat, constModel, halfSigns])
    (fun s hs => by obtain rfl := const_sys hs; exact hin) 0
  refine ⟨_, po, m, oc, P, _, h, .inl (by simp [constOpts, Opts.default, SignedMode]), hf, rfl,
    by simp [NoSlack, constOpts, Opts.default], fun q => const_lam00 q 1, const_hasFE h, rfl,
    halfSigns_sign, hcon, halfSigns_partition, hin, by simp [UserModel.Fmat, constModel, halfSigns], ?_⟩
  rw [hC]
  simp [UserModel.nSys, constModel, UserModel.Fmat]

end Nosnoc
