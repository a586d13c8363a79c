import Verif.Props.Mpcc
import Verif.Proofs.Cross
import Verif.Proofs.OptsEq
import Verif.Proofs.Recross
import Verif.Proofs.SetSigma
import Verif.Witness.Setups
import Verif.Props.Time
/-
C32, C33, C34: FESD cross complementarity.  The complementarity pairs (`thetaAt`, `lamAt`, `lamStart`)
are the ones of Verif/Spec/Pairs.lean: Stewart `θ_i ⟂ λ_i`, Step `α_i ⟂ λⁿ_i` and `1 - α_i ⟂ λᵖ_i`.
-/
namespace Nosnoc

section
variable {colloc : IrkScheme → Nat → List ℝ} {o : Opts} {um : UserModel} {uo : Option UserOcp}
  {po : PreOpts} {m : PreModel} {oc : PreOcp} {P : Problem} {env : Env}

/-- The slack is absent or zero. -/
def NoSlack (o : Opts) (env : Env) : Prop :=
  o.mpcc = .elasticIneq ∨ o.mpcc = .elasticEq ∨ o.mpcc = .elasticTwoSided → env .sElastic = 0

/-- `CompSat` does not look at the slack in the modes without one. -/
theorem compSat_slack {o : Opts} (hs : NoSlack o env) {σ τ : ℝ} {xs : List ℝ} {y : ℝ}
    (h : CompSat o σ τ (env .sElastic) xs y) : CompSat o σ τ 0 xs y := by
  by_cases hm : o.mpcc = .elasticIneq ∨ o.mpcc = .elasticEq ∨ o.mpcc = .elasticTwoSided
  · rwa [hs hm] at h
  · unfold CompSat at h ⊢
    cases hm' : o.mpcc <;> simp_all

/-- Core of C32, from the discretised problem. -/
theorem no_switch_of_nonneg {d : Dims} {uo : UserOcp} (hu : po.useFesd = true)
    (hb : po.mpcc ≠ .boolean)
    (hf : FeasibleSpec po d um uo env) (hσ : env .sigma = 0) (hs : NoSlack po.toOpts env)
    {k e : Nat} (hk : HasFE po k e) {q : Pair} (hq : IsPair po d q)
    (hl : ∀ j < nLamPts po k e, 0 ≤ lamAt k e j env q) (hl0 : 0 ≤ lamStart po k e env q)
    {j : Nat} (hj : j < po.nS) (hθ : 0 < thetaAt k e j env q) :
    (∀ j' < po.nS, lamAt k e j' env q = 0) ∧ lamStart po k e env q = 0 := by
  have z : ∀ {xs y}, (∀ x ∈ xs, 0 ≤ x) → 0 ≤ y → Compl po env xs y → ∀ x ∈ xs, x * y = 0 := by
    intro xs y hx hy hc
    unfold Compl at hc
    rw [hσ] at hc
    exact C31_exact hb hx hy (compSat_slack hs hc)
  have hpt : ∀ j' < po.nS, j' < nLamPts po k e := fun j' h => by unfold nLamPts; omega
  cases hcc : po.crossComp with
  | complementAll =>
    obtain ⟨h1, h2⟩ := hf.compAll hu hcc k e hk j hj q hq
    have fin : ∀ y, 0 ≤ y → Compl po env [thetaAt k e j env q] y → y = 0 := by
      intro y hy hc
      have := z (by simpa using hθ.le) hy hc _ (List.mem_singleton.2 rfl)
      rcases mul_eq_zero.1 this with h0 | h0
      · linarith
      · exact h0
    exact ⟨fun j' hj' => fin _ (hl j' (hpt j' hj')) (h2 j' hj'), fin _ hl0 h1⟩
  | sumLambdas =>
    have h1 := hf.compSum hu hcc k e hk j hj q hq
    have h2 := z (by
      intro x hx
      rcases List.mem_append.1 hx with hx | hx
      · obtain ⟨j', hj', rfl⟩ := List.mem_map.1 hx
        exact hl j' (List.mem_range.1 hj')
      · rw [List.mem_singleton.1 hx]; exact hl0) hθ.le h1
    have fin : ∀ x : ℝ, x * thetaAt k e j env q = 0 → x = 0 := by
      intro x hx
      rcases mul_eq_zero.1 hx with h0 | h0
      · exact h0
      · linarith
    refine ⟨fun j' hj' => fin _ (h2 _ (List.mem_append.2 (.inl ?_))),
      fin _ (h2 _ (List.mem_append.2 (.inr (List.mem_singleton.2 rfl))))⟩
    exact List.mem_map.2 ⟨j', List.mem_range.2 (hpt j' hj'), rfl⟩

/-- C32: in the modes with nonnegative multipliers, at every feasible point with exact
complementarity, a coefficient that is positive at some stage of an element forces its multiplier to
vanish at all stages of that element and at the beginning of the element. -/
theorem C32_no_switch (h : SetupEx colloc o um uo po m oc P) (hu : o.useFesd = true)
    (hm : SignedMode o.mpcc) (hf : P.form.Feasible env) (hσ : env .sigma = 0) (hs : NoSlack o env)
    (h0 : ∀ q, IsPair po m.dims q → 0 ≤ lam00At env q)
    {k e : Nat} (hk : HasFE po k e) {q : Pair} (hq : IsPair po m.dims q)
    {j : Nat} (hj : j < o.nS) (hθ : 0 < thetaAt k e j env q) :
    (∀ j' < o.nS, lamAt k e j' env q = 0) ∧ lamStart po k e env q = 0 := by
  have e1 := h.e_nS
  have e2 := h.e_useFesd
  have e3 := h.e_mpcc
  have hm' : SignedMode po.mpcc := by rw [e3]; exact hm
  have hsp := h.spec hf
  have hnb : po.mpcc ≠ .boolean := by
    rw [e3]; rcases hm with h | h | h | h <;> rw [h] <;> decide
  have hs' : NoSlack po.toOpts env := by unfold NoSlack at hs ⊢; rw [e3]; exact hs
  rw [← e1]
  exact no_switch_of_nonneg (e2.trans hu) hnb hsp hσ hs' hk hq
    (fun j' hj' => lamAt_nonneg hm' hsp.bounds hk hj' hq)
    (lamStart_nonneg hm' (e1 ▸ h.nS) h.toSetup.nfe_pos hsp.bounds h0 hk hq) (e1 ▸ hj) hθ

/-- C32 for the Fischer-Burmeister modes with COMPLEMENT_ALL, which need no sign conditions. -/
theorem C32_no_switch_fischer_burmeister (h : SetupEx colloc o um uo po m oc P)
    (hu : o.useFesd = true)
    (hm : o.mpcc = .fischerBurmeister ∨ o.mpcc = .fischerBurmeisterIpAug)
    (hc : o.crossComp = .complementAll)
    (hf : P.form.Feasible env) (hσ : env .sigma = 0)
    {k e : Nat} (hk : HasFE po k e) {q : Pair} (hq : IsPair po m.dims q)
    {j : Nat} (hj : j < o.nS) (hθ : 0 < thetaAt k e j env q) :
    (∀ j' < o.nS, lamAt k e j' env q = 0) ∧ lamStart po k e env q = 0 := by
  have e1 := h.e_nS
  have e2 := h.e_useFesd
  have e3 := h.e_mpcc
  have e4 := h.e_crossComp
  have hsp := h.spec hf
  obtain ⟨h1, h2⟩ := hsp.compAll (e2.trans hu) (e4.trans hc) k e hk j (e1 ▸ hj) q hq
  have fin : ∀ y, Compl po env [thetaAt k e j env q] y → y = 0 := by
    intro y hy
    unfold Compl at hy
    rw [hσ] at hy
    rcases mul_eq_zero.1 (C31_fischer_burmeister_pair (e3 ▸ hm) hy).2.2 with h0 | h0
    · linarith
    · exact h0
  exact ⟨fun j' hj' => fin _ (h2 j' (e1 ▸ hj')), fin _ h1⟩

/-- C32 for every mode but BOOLEAN.  Partial: the multipliers of the pair are assumed nonnegative; the
modes ELASTIC_TWO_SIDED and FISCHER_BURMEISTER(_IP_AUG) do not bound them (see
`C32_free_multipliers_violated`). -/
theorem C32_no_switch_partial (h : SetupEx colloc o um uo po m oc P) (hu : o.useFesd = true)
    (hm : o.mpcc ≠ .boolean) (hf : P.form.Feasible env) (hσ : env .sigma = 0) (hs : NoSlack o env)
    {k e : Nat} (hk : HasFE po k e) {q : Pair} (hq : IsPair po m.dims q)
    (hl : ∀ j < nLamPts po k e, 0 ≤ lamAt k e j env q) (hl0 : 0 ≤ lamStart po k e env q)
    {j : Nat} (hj : j < o.nS) (hθ : 0 < thetaAt k e j env q) :
    (∀ j' < o.nS, lamAt k e j' env q = 0) ∧ lamStart po k e env q = 0 := by
  have e1 := h.e_nS
  have e2 := h.e_useFesd
  have e3 := h.e_mpcc
  have hs' : NoSlack po.toOpts env := by unfold NoSlack at hs ⊢; rw [e3]; exact hs
  rw [← e1]
  exact no_switch_of_nonneg (e2.trans hu) (e3 ▸ hm) (h.spec hf) hσ hs' hk hq hl hl0 (e1 ▸ hj) hθ

/-- C32: with SUM_LAMBDAS the multiplier at the end point of the element vanishes as well. -/
theorem C32_no_switch_end (h : SetupEx colloc o um uo po m oc P) (hu : o.useFesd = true)
    (hc : o.crossComp = .sumLambdas)
    (hm : SignedMode o.mpcc) (hf : P.form.Feasible env) (hσ : env .sigma = 0) (hs : NoSlack o env)
    (h0 : ∀ q, IsPair po m.dims q → 0 ≤ lam00At env q)
    {k e : Nat} (hk : HasFE po k e) {q : Pair} (hq : IsPair po m.dims q)
    {j : Nat} (hj : j < o.nS) (hθ : 0 < thetaAt k e j env q) :
    ∀ j' < nLamPts po k e, lamAt k e j' env q = 0 := by
  have e1 := h.e_nS
  have e2 := h.e_useFesd
  have e3 := h.e_mpcc
  have e4 := h.e_crossComp
  have hm' : SignedMode po.mpcc := by rw [e3]; exact hm
  have hsp := h.spec hf
  have hnb : po.mpcc ≠ .boolean := by
    rw [e3]; rcases hm with h | h | h | h <;> rw [h] <;> decide
  have hs' : NoSlack po.toOpts env := by unfold NoSlack at hs ⊢; rw [e3]; exact hs
  have h1 := hsp.compSum (e2.trans hu) (e4.trans hc) k e hk j (e1 ▸ hj) q hq
  unfold Compl at h1
  rw [hσ] at h1
  have h2 := C31_exact hnb (by
      intro x hx
      rcases List.mem_append.1 hx with hx | hx
      · obtain ⟨j', hj', rfl⟩ := List.mem_map.1 hx
        exact lamAt_nonneg hm' hsp.bounds hk (List.mem_range.1 hj') hq
      · rw [List.mem_singleton.1 hx]
        exact lamStart_nonneg hm' (e1 ▸ h.nS) h.toSetup.nfe_pos hsp.bounds h0 hk hq)
    hθ.le (compSat_slack hs' h1)
  intro j' hj'
  rcases mul_eq_zero.1 (h2 _ (List.mem_append.2 (.inl
    (List.mem_map.2 ⟨j', List.mem_range.2 hj', rfl⟩)))) with h3 | h3
  · exact h3
  · linarith

/-! ### C33 -/

variable {po' : PreOpts} {m' : PreModel} {oc' : PreOcp} {P' : Problem}

theorem signed_ne_boolean {mode : MpccMode} (hm : SignedMode mode) : mode ≠ .boolean := by
  rcases hm with h | h | h | h <;> rw [h] <;> decide

/-- C33: every feasible point of the SUM_LAMBDAS problem is feasible for the COMPLEMENT_ALL problem, at
any `σ` in the inequality modes and at `σ = 0` (slack 0) in the equality modes. -/
theorem C33_sum_implies_all
    (h : SetupEx colloc { o with crossComp := .sumLambdas } um uo po m oc P)
    (h' : SetupEx colloc { o with crossComp := .complementAll } um uo po' m' oc' P')
    (hm : SignedMode o.mpcc)
    (hz : o.mpcc = .scholtesEq ∨ o.mpcc = .elasticEq → env .sigma = 0 ∧ NoSlack o env)
    (h0 : ∀ q, IsPair po m.dims q → 0 ≤ lam00At env q)
    (hf : P.form.Feasible env) : P'.form.Feasible env := by
  obtain ⟨e1, e2, e3⟩ := h.toSetup.reCross (c := .complementAll) (o := { o with crossComp := .sumLambdas }) h'.toSetup
  have S := h.spec hf
  have em : po.mpcc = o.mpcc := h.e_mpcc
  have ec : po.crossComp = .sumLambdas := h.e_crossComp
  have hm' : SignedMode po.mpcc := by rw [em]; exact hm
  have hn : 0 < po.nS := by rw [h.e_nS]; exact h.nS
  rw [h'.iff (signed_ne_boolean hm), e1, e2]
  refine S.reCross (fun hu _ k e hk j hj q hq => ?_) (fun _ hc => by cases hc)
  have hs := S.compSum hu ec k e hk j hj q hq
  have hθ : 0 ≤ thetaAt k e j env q := thetaAt_nonneg hm' S.bounds hk hj hq
  set xs := (List.range (nLamPts po k e)).map (fun j' => lamAt k e j' env q)
        ++ [lamStart po k e env q] with hxs
  have hx : ∀ x ∈ xs, 0 ≤ x := by
    intro x hx
    rcases List.mem_append.1 hx with hx | hx
    · obtain ⟨j', hj', rfl⟩ := List.mem_map.1 hx
      exact lamAt_nonneg hm' S.bounds hk (List.mem_range.1 hj') hq
    · rw [List.mem_singleton.1 hx]
      exact lamStart_nonneg hm' hn h.toSetup.nfe_pos S.bounds h0 hk hq
  have key : ∀ x ∈ xs, Compl po env [thetaAt k e j env q] x := by
    intro x hxm
    have h1 : thetaAt k e j env q * x ≤ xs.sum * thetaAt k e j env q := by
      rw [mul_comm]
      exact mul_le_mul_of_nonneg_right (List.single_le_sum hx x hxm) hθ
    have h2 : 0 ≤ thetaAt k e j env q * x := mul_nonneg hθ (hx x hxm)
    unfold Compl CompSat at hs ⊢
    rcases hm with hmm | hmm | hmm | hmm <;> simp only [em, hmm, List.sum_singleton] at hs ⊢
    · obtain ⟨hσ, _⟩ := hz (.inl hmm)
      rw [hσ] at hs ⊢
      linarith
    · linarith
    · linarith
    · obtain ⟨_, hsl⟩ := hz (.inr hmm)
      rw [hsl (.inr (.inl hmm))] at hs ⊢
      linarith
  refine ⟨key _ (List.mem_append.2 (.inr (List.mem_singleton.2 rfl))), fun j' hj' => ?_⟩
  refine key _ (List.mem_append.2 (.inl (List.mem_map.2 ⟨j', List.mem_range.2 ?_, rfl⟩)))
  unfold nLamPts; omega

/-- C33: with an explicit end point, at `σ = 0` (slack 0) the two modes have the same feasible points. -/
theorem C33_equivalent_at_zero
    (h : SetupEx colloc { o with crossComp := .sumLambdas } um uo po m oc P)
    (h' : SetupEx colloc { o with crossComp := .complementAll } um uo po' m' oc' P')
    (hm : SignedMode o.mpcc) (hr : po.rbe = true) (hσ : env .sigma = 0) (hs : NoSlack o env)
    (h0 : ∀ q, IsPair po m.dims q → 0 ≤ lam00At env q) :
    P.form.Feasible env ↔ P'.form.Feasible env := by
  refine ⟨C33_sum_implies_all h h' hm (fun _ => ⟨hσ, hs⟩) h0, fun hf => ?_⟩
  obtain ⟨e1, e2, e3⟩ := h'.toSetup.reCross (c := .sumLambdas) (o := { o with crossComp := .complementAll }) h.toSetup
  have S := h'.spec hf
  have em : po'.mpcc = o.mpcc := h'.e_mpcc
  have ec : po'.crossComp = .complementAll := h'.e_crossComp
  have hm' : SignedMode po'.mpcc := by rw [em]; exact hm
  have hn : 0 < po'.nS := by rw [h'.e_nS]; exact h'.nS
  have hr' : po'.rbe = true := by rw [e1] at hr; exact hr
  have h0' : ∀ q, IsPair po' m'.dims q → 0 ≤ lam00At env q := by
    intro q hq
    refine h0 q ?_
    rw [e1, e2]
    cases q <;> exact hq
  rw [h.iff (signed_ne_boolean hm), e1, e2]
  refine S.reCross (fun _ hc => by cases hc) (fun hu _ k e hk j hj q hq => ?_)
  have hθ : 0 ≤ thetaAt k e j env q := thetaAt_nonneg hm' S.bounds hk hj hq
  have hnl : nLamPts po' k e = po'.nS := by simp [nLamPts, extraPt, hr']
  obtain ⟨a1, a2⟩ := S.compAll hu ec k e hk j hj q hq
  have z : ∀ y, 0 ≤ y → Compl po' env [thetaAt k e j env q] y → y * thetaAt k e j env q = 0 := by
    intro y hy hc
    unfold Compl at hc
    rw [hσ] at hc
    have hs' : NoSlack po'.toOpts env := by unfold NoSlack; rw [em]; exact hs
    rw [mul_comm]
    exact C31_exact (by rw [em]; exact signed_ne_boolean hm) (by simpa using hθ) hy
      (compSat_slack hs' hc) _ (List.mem_singleton.2 rfl)
  have L : ∀ j' < po'.nS, 0 ≤ lamAt k e j' env q := fun j' hj' =>
    lamAt_nonneg hm' S.bounds hk (by rw [hnl]; exact hj') hq
  have L0 := lamStart_nonneg hm' hn h'.toSetup.nfe_pos S.bounds h0' hk hq
  have hcs := C31_complete (o := po'.toOpts) (τ := env .tau) (y := thetaAt k e j env q)
    (xs := (List.range (nLamPts po' k e)).map (fun j' => lamAt k e j' env q)
        ++ [lamStart po' k e env q])
    (by rw [em]; rcases hm with h | h | h | h <;> rw [h] <;> decide)
    (by
      intro x hx
      rcases List.mem_append.1 hx with hx | hx
      · obtain ⟨j', hj', rfl⟩ := List.mem_map.1 hx
        exact L j' (by rw [hnl] at hj'; exact List.mem_range.1 hj')
      · rw [List.mem_singleton.1 hx]; exact L0) hθ
    (by
      intro x hx
      rcases List.mem_append.1 hx with hx | hx
      · obtain ⟨j', hj', rfl⟩ := List.mem_map.1 hx
        have hj'' : j' < po'.nS := by rw [hnl] at hj'; exact List.mem_range.1 hj'
        exact z _ (L j' hj'') (a2 j' hj'')
      · rw [List.mem_singleton.1 hx]; exact z _ L0 a1)
    (fun hb => absurd (em.symm.trans hb) (signed_ne_boolean hm))
  unfold Compl
  rw [hσ]
  by_cases hsl : o.mpcc = .elasticIneq ∨ o.mpcc = .elasticEq ∨ o.mpcc = .elasticTwoSided
  · rw [hs hsl]; exact hcs
  · unfold CompSat at hcs ⊢
    rcases hm with hmm | hmm | hmm | hmm <;> simp only [em, hmm] at hcs ⊢
    · exact hcs
    · exact hcs
    · exact absurd (.inl hmm) hsl
    · exact absurd (.inr (.inl hmm)) hsl

/-- C33: with an explicit end point, a point feasible for COMPLEMENT_ALL at `σ ≥ 0` is feasible for
SUM_LAMBDAS at `(n_s + 1) σ` (mode SCHOLTES_INEQ). -/
theorem C33_all_implies_scaled_sum
    (h : SetupEx colloc { o with crossComp := .sumLambdas } um uo po m oc P)
    (h' : SetupEx colloc { o with crossComp := .complementAll } um uo po' m' oc' P')
    (hm : o.mpcc = .scholtesIneq) (hr : po.rbe = true) (hσ : 0 ≤ env .sigma)
    (hf : P'.form.Feasible env) :
    P.form.Feasible (setSigma env (((o.nS : ℝ) + 1) * env .sigma)) := by
  obtain ⟨e1, e2, e3⟩ := h'.toSetup.reCross (c := .sumLambdas) (o := { o with crossComp := .complementAll }) h.toSetup
  have S := h'.spec hf
  have em : po'.mpcc = o.mpcc := h'.e_mpcc
  have en : po'.nS = o.nS := h'.e_nS
  have ec : po'.crossComp = .complementAll := h'.e_crossComp
  have hr' : po'.rbe = true := by rw [e1] at hr; exact hr
  set c := ((o.nS : ℝ) + 1) * env .sigma with hc
  have hle : env .sigma ≤ c := by
    rw [hc]
    have : (0 : ℝ) ≤ o.nS := Nat.cast_nonneg _
    nlinarith
  have S' := S.setSigma (c := c) (fun xs y hxy => by
    unfold Compl CompSat at hxy ⊢
    simp only [em, hm] at hxy ⊢
    exact hxy.trans hle)
  rw [h.iff (by rw [hm]; decide), e1, e2]
  refine S'.reCross (fun _ hc => by cases hc) (fun hu _ k e hk j hj q hq => ?_)
  have hnl : nLamPts po' k e = po'.nS := by simp [nLamPts, extraPt, hr']
  obtain ⟨a1, a2⟩ := S.compAll hu ec k e hk j hj q hq
  unfold Compl CompSat at a1 a2 ⊢
  simp only [em, hm, List.sum_singleton, setSigma_thetaAt, setSigma_lamAt, setSigma_lamStart] at a1 a2 ⊢
  rw [hnl, List.sum_append, List.sum_singleton, add_mul]
  have hb : ∀ n ≤ po'.nS, ((List.range n).map fun j' => lamAt k e j' env q).sum
      * thetaAt k e j env q ≤ n * env .sigma := by
    intro n
    induction n with
    | zero => intro _; simp
    | succ n ih =>
      intro hle
      rw [List.range_succ, List.map_append, List.sum_append, add_mul]
      have := ih (by omega)
      have := a2 n (by omega)
      push_cast
      simp only [List.map_cons, List.map_nil, List.sum_singleton]
      nlinarith
  have h1 := hb po'.nS le_rfl
  show _ ≤ c
  rw [hc, ← en]
  nlinarith

/-! ### C34 -/

/-- Within the variable bounds the documented bounds hold. -/
theorem InBounds.doc (h : Setup colloc o um uo po m oc P)
    (hb : P.form.InBounds (P.form.w.map env)) {s : Sym} (hs : IsVar po m.dims s) :
    (varDoc po um (uo.getD UserOcp.trivial) s).lb ≤ ((env s : ℝ) : EReal) ∧
      ((env s : ℝ) : EReal) ≤ (varDoc po um (uo.getD UserOcp.trivial) s).ub := by
  obtain ⟨c1, c2, _⟩ := C04_bounds_and_guess h
  obtain ⟨i, hi, hs'⟩ := List.getElem_of_mem ((C04_variables h s).1 hs)
  have hsi : P.form.w[i]? = some s := by rw [List.getElem?_eq_getElem hi, hs']
  exact hb i _ _ _ (by rw [List.getElem?_map, hsi]; rfl) (by rw [c1, List.getElem?_map, hsi]; rfl)
    (by rw [c2, List.getElem?_map, hsi]; rfl)

/-- C34: the products the residual is the maximum of.  With FESD: all products of a coefficient at a
stage with the multipliers at all stages of the same element and at its beginning; without FESD: the
products stage by stage. -/
theorem C34_residual_bounds (h : Setup colloc o um uo po m oc P) (tol : ℝ)
    (hr : P.compRes env < tol) {k e : Nat} (hk : HasFE po k e) {j : Nat} (hj : j < o.nS) {q : Pair}
    (hq : IsPair po m.dims q) :
    (o.useFesd = true →
      (∀ j' < o.nS, thetaAt k e j env q * lamAt k e j' env q < tol) ∧
      thetaAt k e j env q * lamStart po k e env q < tol) ∧
    (o.useFesd = false → thetaAt k e j env q * lamAt k e j env q < tol) := by
  have e1 := h.e_nS
  have e2 := h.e_useFesd
  have key : ∀ x ∈ P.compVec, x env < tol := fun x hx =>
    lt_of_le_of_lt (le_mmax (List.mem_map.2 ⟨x, hx, rfl⟩)) hr
  refine ⟨fun hu => ⟨fun j' hj' => ?_, ?_⟩, fun hu => ?_⟩
  · exact key (fun env => thetaAt k e j env q * lamAt k e j' env q)
      (h.compVec_mem.2 ⟨k, e, j, q, hk, e1 ▸ hj, hq, by
        rw [if_pos (e2.trans hu)]; exact .inr ⟨j', e1 ▸ hj', rfl⟩⟩)
  · exact key (fun env => thetaAt k e j env q * lamStart po k e env q)
      (h.compVec_mem.2 ⟨k, e, j, q, hk, e1 ▸ hj, hq, by
        rw [if_pos (e2.trans hu)]; exact .inl rfl⟩)
  · exact key (fun env => thetaAt k e j env q * lamAt k e j env q)
      (h.compVec_mem.2 ⟨k, e, j, q, hk, e1 ▸ hj, hq, by
        rw [if_neg (by rw [e2, hu]; simp)]⟩)

/-- C34: in the modes with nonnegative multipliers, a residual below `tol` at a point within the
bounds certifies that the products lie in `[0, tol)`. -/
theorem C34_certificate (h : Setup colloc o um uo po m oc P) (hm : SignedMode o.mpcc)
    (hb : P.form.InBounds (P.form.w.map env))
    (h0 : ∀ q, IsPair po m.dims q → 0 ≤ lam00At env q) (tol : ℝ) (hr : P.compRes env < tol)
    {k e : Nat} (hk : HasFE po k e) {j : Nat} (hj : j < o.nS) {q : Pair} (hq : IsPair po m.dims q) :
    (o.useFesd = true →
      (∀ j' < o.nS, thetaAt k e j env q * lamAt k e j' env q ∈ Set.Ico 0 tol) ∧
      thetaAt k e j env q * lamStart po k e env q ∈ Set.Ico 0 tol) ∧
    (o.useFesd = false → thetaAt k e j env q * lamAt k e j env q ∈ Set.Ico 0 tol) := by
  have e1 := h.e_nS
  have hm' : SignedMode po.mpcc := by rw [h.e_mpcc]; exact hm
  obtain ⟨a, b⟩ := C34_residual_bounds h tol hr hk hj hq
  have hd : ∀ s, IsVar po m.dims s → _ := fun s hs => InBounds.doc h hb hs
  have t := thetaAt_nonneg hm' hd hk (e1 ▸ hj) hq
  have l : ∀ j' < o.nS, 0 ≤ lamAt k e j' env q := fun j' hj' =>
    lamAt_nonneg hm' hd hk (by unfold nLamPts; omega) hq
  have l0 := lamStart_nonneg hm' (e1 ▸ h.nS) h.nfe_pos hd h0 hk hq
  exact ⟨fun hu => ⟨fun j' hj' => ⟨mul_nonneg t (l j' hj'), (a hu).1 j' hj'⟩,
    mul_nonneg t l0, (a hu).2⟩, fun hu => ⟨mul_nonneg t (l j hj), b hu⟩⟩

/-- C34: the residual is attained: if there is any pair at all it equals one of the products. -/
theorem C34_residual_attained (h : Setup colloc o um uo po m oc P) {q : Pair}
    (hq : IsPair po m.dims q) : ∃ k e j q', HasFE po k e ∧ j < o.nS ∧ IsPair po m.dims q' ∧
      ((o.useFesd = true ∧ P.compRes env = thetaAt k e j env q' * lamStart po k e env q') ∨
       (o.useFesd = true ∧ ∃ j' < o.nS, P.compRes env = thetaAt k e j env q' * lamAt k e j' env q') ∨
       (o.useFesd = false ∧ P.compRes env = thetaAt k e j env q' * lamAt k e j env q')) := by
  have e1 := h.e_nS
  have e2 := h.e_useFesd
  have hn : 0 < po.nS := e1 ▸ h.nS
  have hs := h.built.ok.primal.stages
  have hk : HasFE po 0 0 := ⟨by omega, h.nfe_pos 0 (by omega)⟩
  have hne : evalVec P.compVec env ≠ [] := by
    intro h0
    have h1 : P.compVec = [] := List.map_eq_nil_iff.1 h0
    by_cases hu : po.useFesd = true
    · have := (h.compVec_mem (x := fun env => thetaAt 0 0 0 env q * lamStart po 0 0 env q)).2
        ⟨0, 0, 0, q, hk, hn, hq, by rw [if_pos hu]; exact .inl rfl⟩
      rw [h1] at this; simp at this
    · have := (h.compVec_mem (x := fun env => thetaAt 0 0 0 env q * lamAt 0 0 0 env q)).2
        ⟨0, 0, 0, q, hk, hn, hq, by rw [if_neg hu]⟩
      rw [h1] at this; simp at this
  obtain ⟨x, hx, hv⟩ := List.mem_map.1 (mmax_mem hne)
  obtain ⟨k, e, j, q', hk', hj, hq', hx⟩ := h.compVec_mem.1 hx
  refine ⟨k, e, j, q', hk', e1 ▸ hj, hq', ?_⟩
  by_cases hu : po.useFesd = true
  · rw [if_pos hu] at hx
    rcases hx with rfl | ⟨j', hj', rfl⟩
    · exact .inl ⟨e2 ▸ hu, hv.symm⟩
    · exact .inr (.inl ⟨e2 ▸ hu, j', e1 ▸ hj', hv.symm⟩)
  · rw [if_neg hu] at hx
    subst hx
    exact .inr (.inr ⟨by rw [← e2]; simpa using hu, hv.symm⟩)

end

/-! ### The hypotheses are satisfiable -/

theorem demo_lam00 (po : PreOpts) (q : Pair) : lam00At (demoEnv po) q = 0 := by cases q <;> rfl

/-- C32, C34: the demo problem (FESD, Radau, SUM_LAMBDAS) at its feasible point, where `θ = 1/2`. -/
example : ∃ po m oc P env q,
    SetupEx demoColloc Opts.default demoModel (some demoOcp) po m oc P ∧ SignedMode Opts.default.mpcc ∧
    P.form.Feasible env ∧ env .sigma = 0 ∧ NoSlack Opts.default env ∧
    (∀ q, IsPair po m.dims q → 0 ≤ lam00At env q) ∧ HasFE po 0 1 ∧ IsPair po m.dims q ∧
    0 < thetaAt 0 1 0 env q ∧ P.compRes env < 1 / 10 ^ 8 := by
  obtain ⟨po, m, oc, P, h, hf, hd, e⟩ := demo_setup demo_default
  have e2 : po.nStages = 1 := h.e_nStages
  have e5 : po.nfeList = [2] := h.e_nfeList
  have e4 : po.pss = .stewart := h.e_pss
  have hq : IsPair po m.dims (.region 0 0) := by rw [hd]; exact ⟨e4, by decide, by decide⟩
  refine ⟨po, m, oc, P, demoEnv po, .region 0 0, h, .inr (.inl rfl), hf, rfl, ?_, ?_, ?_, hq, ?_, ?_⟩
  · intro _; rfl
  · intro q _; rw [demo_lam00]
  · exact ⟨by omega, by simp [nfe, e5]⟩
  · rw [demo_thetaAt]; norm_num
  · obtain ⟨k, e, j, q', _, _, _, hr⟩ := C34_residual_attained (env := demoEnv po) h.toSetup hq
    simp only [demo_lamAt, demo_lamStart, mul_zero] at hr
    have : P.compRes (demoEnv po) = 0 := by
      rcases hr with ⟨_, hr⟩ | ⟨_, _, _, hr⟩ | ⟨_, hr⟩ <;> exact hr
    rw [this]
    norm_num

/-- C33: both problems are constructed for the demo problem. -/
example : ∃ po m oc P po' m' oc' P' env,
    SetupEx demoColloc { Opts.default with crossComp := .sumLambdas } demoModel (some demoOcp)
      po m oc P ∧
    SetupEx demoColloc { Opts.default with crossComp := .complementAll } demoModel (some demoOcp)
      po' m' oc' P' ∧ po.rbe = true ∧ P.form.Feasible env ∧ env .sigma = 0 := by
  obtain ⟨po, m, oc, P, h, hf, hd, e⟩ := demo_setup
    (o := { Opts.default with crossComp := .sumLambdas })
    (by constructor <;> simp [Opts.default, Opts.nfeAfter])
  obtain ⟨po', m', oc', P', h', _⟩ := demo_setup
    (o := { Opts.default with crossComp := .complementAll })
    (by constructor <;> simp [Opts.default, Opts.nfeAfter])
  refine ⟨po, m, oc, P, po', m', oc', P', demoEnv po, h, h', ?_, hf, rfl⟩
  obtain ⟨c, hc, hb⟩ := h.toSetup.built.opts.rbe
  obtain ⟨_, _, _, htp⟩ := h.toSetup.built.opts.integral rfl
  rw [htp] at hc
  have : c = 1 := by
    simp [demoColloc, Opts.default] at hc
    exact hc.symm
  rw [hb, this]
  simp

end Nosnoc
