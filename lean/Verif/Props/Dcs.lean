import Verif.Props.Cross
import Verif.Props.Layout
import Verif.Proofs.DcsAlg
import Verif.Proofs.ModelFacts
/-
C23, C24, C25: what the algebraic part of a feasible point says about the discontinuous right-hand side.
Vocabulary: Verif/Spec/Dcs.lean (regions, Stewart's conditions, step conditions), Verif/Spec/User.lean
(`gVal`, `regionWeight`, right-hand sides).  Points that meet the hypotheses: Verif/Props/DcsViol.lean.
-/
namespace Nosnoc

/-- The modes and settings in which exact complementarity with signs is imposed at every stage: the four
modes with sign bounds, and Fischer-Burmeister unless multipliers are summed. -/
def ExactMode (o : Opts) : Prop :=
  SignedMode o.mpcc ∨ ((o.mpcc = .fischerBurmeister ∨ o.mpcc = .fischerBurmeisterIpAug) ∧
    (o.useFesd = true → o.crossComp = .complementAll))

section
variable {colloc : IrkScheme → Nat → List ℝ} {o : Opts} {um : UserModel} {uo : Option UserOcp}
  {po : PreOpts} {m : PreModel} {oc : PreOcp} {P : Problem} {env : Env}

/-- At a feasible point with `σ = 0` the pairs of a stage are nonnegative and complementary. -/
theorem stage_pairs (h : SetupEx colloc o um uo po m oc P) (hm : ExactMode o)
    (hf : P.form.Feasible env) (hσ : env .sigma = 0) (hs : NoSlack o env)
    (h0 : ∀ q, IsPair po m.dims q → 0 ≤ lam00At env q)
    {k e : Nat} (hk : HasFE po k e) {j : Nat} (hj : j < o.nS) {q : Pair} (hq : IsPair po m.dims q) :
    0 ≤ thetaAt k e j env q ∧ 0 ≤ lamAt k e j env q ∧ thetaAt k e j env q * lamAt k e j env q = 0 := by
  have e1 := h.e_nS
  have e2 := h.e_useFesd
  have e3 := h.e_mpcc
  have hsp := h.spec hf
  have hj' : j < po.nS := e1 ▸ hj
  rcases hm with hm | ⟨hm, hc⟩
  · have hm' : SignedMode po.mpcc := by rw [e3]; exact hm
    have hθ := thetaAt_nonneg hm' hsp.bounds hk hj' hq
    have hl := lamAt_nonneg hm' hsp.bounds hk (j := j) (by unfold nLamPts; omega) hq
    refine ⟨hθ, hl, ?_⟩
    cases hu : o.useFesd with
    | true =>
      rcases hθ.eq_or_lt with h1 | h1
      · rw [← h1, zero_mul]
      · rw [(C32_no_switch h hu hm hf hσ hs h0 hk hq hj h1).1 j hj, mul_zero]
    | false =>
      have h1 := hsp.compStd (e2.trans hu) k e hk j hj' q hq
      unfold Compl at h1
      rw [hσ] at h1
      have hs' : NoSlack po.toOpts env := by unfold NoSlack at hs ⊢; rw [e3]; exact hs
      rw [mul_comm]
      exact C31_exact (signed_ne_boolean hm') (by simpa using hl) hθ (compSat_slack hs' h1) _
        (List.mem_singleton.2 rfl)
  · cases hu : o.useFesd with
    | true =>
      have h1 := (hsp.compAll (e2.trans hu) (h.e_crossComp.trans (hc hu)) k e hk j hj' q hq).2 j hj'
      unfold Compl at h1
      rw [hσ] at h1
      exact C31_fischer_burmeister_pair (e3 ▸ hm) h1
    | false =>
      have h1 := hsp.compStd (e2.trans hu) k e hk j hj' q hq
      unfold Compl at h1
      rw [hσ] at h1
      obtain ⟨a, b, c⟩ := C31_fischer_burmeister_pair (e3 ▸ hm) h1
      exact ⟨b, a, by rw [mul_comm]; exact c⟩

/-! ### C23: Stewart -/

/-- C23: at every stage of a feasible point (with `σ = 0`), the multipliers of every subsystem satisfy
Stewart's conditions for the user's indicator functions at the state of that stage. -/
theorem C23_stage_conditions (h : SetupEx colloc o um uo po m oc P) (hp : o.pss = .stewart)
    (hm : ExactMode o) (hf : P.form.Feasible env) (hσ : env .sigma = 0) (hs : NoSlack o env)
    (h0 : ∀ q, IsPair po m.dims q → 0 ≤ lam00At env q)
    {k e : Nat} (hk : HasFE po k e) {j : Nat} (hj : j < o.nS) {s : Nat} (hsys : s < um.nSys) :
    StewartStage (n := (um.Fmat s).nCols)
      (fun i => um.gVal s i (xVal po m.dims k e j env) (zVal m.dims k e j env) (pVal m.dims k env))
      (fun i => env (.st2 .theta k e j s i)) (fun i => env (.st2 .lam k e j s i))
      (env (.st2 .mu k e j s 0)) := by
  have e1 := h.e_nS
  have hp' : po.pss = .stewart := h.e_pss.trans hp
  obtain ⟨-, -, -, -, -, -, d1, d2, -⟩ := h.toSetup.dims
  have pair : ∀ i : Fin (um.Fmat s).nCols, IsPair po m.dims (.region s i) := fun i =>
    ⟨hp', by omega, by rw [d2 hp' s hsys]; exact i.2⟩
  have key := fun i => stage_pairs h hm hf hσ hs h0 hk hj (pair i)
  obtain ⟨a1, a2, _⟩ := (h.spec hf).alg k e hk j (e1 ▸ hj)
  constructor
  · intro i
    unfold UserModel.Switching at a1
    rw [hp'] at a1
    exact a1 s hsys i i.2
  · have := a2 hp' s hsys
    rwa [Finset.sum_range] at this
  · exact fun i => (key i).1
  · exact fun i => (key i).2.1
  · exact fun i => (key i).2.2

/-- C23: whatever the indicator functions, only regions with the smallest indicator value are active. -/
theorem C23_active_minimal (h : SetupEx colloc o um uo po m oc P) (hp : o.pss = .stewart)
    (hm : ExactMode o) (hf : P.form.Feasible env) (hσ : env .sigma = 0) (hs : NoSlack o env)
    (h0 : ∀ q, IsPair po m.dims q → 0 ≤ lam00At env q)
    {k e : Nat} (hk : HasFE po k e) {j : Nat} (hj : j < o.nS) {s : Nat} (hsys : s < um.nSys)
    {i : Nat} (hi : i < (um.Fmat s).nCols) (hθ : env (.st2 .theta k e j s i) ≠ 0)
    {i' : Nat} (hi' : i' < (um.Fmat s).nCols) :
    um.gVal s i (xVal po m.dims k e j env) (zVal m.dims k e j env) (pVal m.dims k env)
      ≤ um.gVal s i' (xVal po m.dims k e j env) (zVal m.dims k e j env) (pVal m.dims k env) :=
  (C23_stage_conditions h hp hm hf hσ hs h0 hk hj hsys).argmin (i := ⟨i, hi⟩) hθ ⟨i', hi'⟩

/-- C23: Stewart's conditions at a point strictly inside region `i` of a sign matrix without zeros have
exactly one solution, and its `θ` is the `i`-th unit vector. -/
theorem C23_unique_solution {S : SMat} (hS : S.IsDense) {c : Nat → ℝ} (i : Fin S.rows)
    (hc : InRegion S i c) :
    (∃! t : (Fin S.rows → ℝ) × (Fin S.rows → ℝ) × ℝ,
      StewartStage (fun r => -∑ k ∈ Finset.range S.cols, S.entry r k * c k) t.1 t.2.1 t.2.2) ∧
    ∀ θ lam mu, StewartStage (fun r => -∑ k ∈ Finset.range S.cols, S.entry r k * c k) θ lam mu →
      θ = fun r => if r = i then 1 else 0 := by
  have hmin : ∀ r : Fin S.rows, r ≠ i → -∑ k ∈ Finset.range S.cols, S.entry i k * c k
      < -∑ k ∈ Finset.range S.cols, S.entry r k * c k := fun r hr =>
    dense_min hS i.2 r.2 (fun hri => hr (Fin.ext hri)) hc
  refine ⟨⟨⟨_, _, _⟩, stewart_exists fun r hr => (hmin r hr).le, ?_⟩, fun θ lam mu h => h.select hmin⟩
  rintro ⟨θ, lam, mu⟩ h
  obtain ⟨h1, h2⟩ := h.mult hmin
  rw [Prod.mk.injEq, Prod.mk.injEq]
  exact ⟨h.select hmin, h2, h1⟩

/-- C23: with switching functions `c` and sign matrix `S`, at a stage whose state is strictly inside
region `i`, `θ` is the `i`-th unit vector.  Partial: `S` has no zeros; with zeros the claim is false
(`C23_zeros_violated`). -/
theorem C23_selects_partial (h : SetupEx colloc o um uo po m oc P) (hp : o.pss = .stewart)
    (hg : um.gStewartTruthy = false)
    (hm : ExactMode o) (hf : P.form.Feasible env) (hσ : env .sigma = 0) (hs : NoSlack o env)
    (h0 : ∀ q, IsPair po m.dims q → 0 ≤ lam00At env q)
    {k e : Nat} (hk : HasFE po k e) {j : Nat} (hj : j < o.nS) {s : Nat} (hsys : s < um.nSys)
    (hS : (um.Smat s).IsDense) {i : Nat} (hi : i < (um.Smat s).rows)
    (hc : InRegion (um.Smat s) i fun r => (um.cVec s).entry r (xVal po m.dims k e j env)
      (zVal m.dims k e j env) (pVal m.dims k env)) :
    ∀ r < (um.Fmat s).nCols, env (.st2 .theta k e j s r) = if r = i then 1 else 0 := by
  have hrows := (h.toSetup.shapes_stewart (h.e_pss.trans hp) hg hsys).1
  have hst := C23_stage_conditions h hp hm hf hσ hs h0 hk hj hsys
  intro r hr
  have := hst.select (i := ⟨i, by omega⟩) (fun r hr' => by
    unfold UserModel.gVal
    rw [hg]
    exact dense_min hS hi (by have := r.2; omega) (fun hri => hr' (Fin.ext hri)) hc)
  have h1 := congrFun this ⟨r, hr⟩
  simpa [Fin.ext_iff] using h1

/-- C23: the right-hand side used by the discretisation is then the sum over the subsystems of the
columns of `F` belonging to the regions the state is in.  Partial as `C23_selects_partial`. -/
theorem C23_rhs_partial (h : SetupEx colloc o um uo po m oc P) (hp : o.pss = .stewart)
    (hg : um.gStewartTruthy = false)
    (hm : ExactMode o) (hf : P.form.Feasible env) (hσ : env .sigma = 0) (hs : NoSlack o env)
    (h0 : ∀ q, IsPair po m.dims q → 0 ≤ lam00At env q)
    {k e : Nat} (hk : HasFE po k e) {j : Nat} (hj : j < o.nS)
    (hS : ∀ s < um.nSys, (um.Smat s).IsDense) (i : Nat → Nat)
    (hi : ∀ s < um.nSys, i s < (um.Smat s).rows)
    (hc : ∀ s < um.nSys, InRegion (um.Smat s) (i s) fun r => (um.cVec s).entry r
      (xVal po m.dims k e j env) (zVal m.dims k e j env) (pVal m.dims k env)) (row : Nat) :
    um.stageRhs po m.dims k e j row env = ∑ s ∈ Finset.range um.nSys,
      (um.Fmat s).entry row (i s) (xVal po m.dims k e j env) (zVal m.dims k e j env)
        (uVal m.dims k env) (pVal m.dims k env) (vVal m.dims env) := by
  have hp' := h.e_pss.trans hp
  unfold UserModel.stageRhs
  rw [hp']
  unfold UserModel.rhsStewart
  refine Finset.sum_congr rfl fun s hs' => ?_
  have hs' := Finset.mem_range.1 hs'
  have hrows := (h.toSetup.shapes_stewart hp' hg hs').1
  have hth := C23_selects_partial h hp hg hm hf hσ hs h0 hk hj hs' (hS s hs') (hi s hs') (hc s hs')
  rw [Finset.sum_eq_single (i s)]
  · beta_reduce
    rw [hth _ (by rw [← hrows]; exact hi s hs'), if_pos rfl, mul_one]
  · intro r hr hne
    beta_reduce
    rw [hth r (Finset.mem_range.1 hr), if_neg hne, mul_zero]
  · intro hn
    exact absurd (Finset.mem_range.2 (by rw [← hrows]; exact hi s hs')) hn

/-! ### C24: Step -/

/-- C24: at every stage of a feasible point (with `σ = 0`), the step multipliers of every subsystem
satisfy the step conditions for the user's switching functions at the state of that stage. -/
theorem C24_stage_conditions (h : SetupEx colloc o um uo po m oc P) (hp : o.pss = .step)
    (hm : ExactMode o) (hf : P.form.Feasible env) (hσ : env .sigma = 0) (hs : NoSlack o env)
    (h0 : ∀ q, IsPair po m.dims q → 0 ≤ lam00At env q)
    {k e : Nat} (hk : HasFE po k e) {j : Nat} (hj : j < o.nS) {s : Nat} (hsys : s < um.nSys) :
    StepStage (n := (um.cVec s).len)
      (fun i => (um.cVec s).entry i (xVal po m.dims k e j env) (zVal m.dims k e j env)
        (pVal m.dims k env))
      (fun i => env (.st2 .alpha k e j s i)) (fun i => env (.st2 .lamN k e j s i))
      (fun i => env (.st2 .lamP k e j s i)) := by
  have e1 := h.e_nS
  have hp' : po.pss = .step := h.e_pss.trans hp
  obtain ⟨-, -, -, -, -, -, d1, -, d3⟩ := h.toSetup.dims
  have pn : ∀ i : Fin (um.cVec s).len, IsPair po m.dims (.neg s i) := fun i =>
    ⟨hp', by omega, by rw [d3 hp' s hsys]; exact i.2⟩
  have pp : ∀ i : Fin (um.cVec s).len, IsPair po m.dims (.pos s i) := fun i =>
    ⟨hp', by omega, by rw [d3 hp' s hsys]; exact i.2⟩
  have kn := fun i => stage_pairs h hm hf hσ hs h0 hk hj (pn i)
  have kp := fun i => stage_pairs h hm hf hσ hs h0 hk hj (pp i)
  obtain ⟨a1, -, -⟩ := (h.spec hf).alg k e hk j (e1 ▸ hj)
  constructor
  · intro i
    unfold UserModel.Switching at a1
    rw [hp'] at a1
    exact a1 s hsys i i.2
  · exact fun i => (kn i).1
  · intro i
    have : 0 ≤ 1 - env (.st2 .alpha k e j s i) := (kp i).1
    linarith
  · exact fun i => (kn i).2.1
  · exact fun i => (kp i).2.1
  · exact fun i => (kn i).2.2
  · exact fun i => (kp i).2.2

/-- C24: the step multiplier is 1 where the switching function is positive and 0 where it is negative. -/
theorem C24_alpha (h : SetupEx colloc o um uo po m oc P) (hp : o.pss = .step)
    (hm : ExactMode o) (hf : P.form.Feasible env) (hσ : env .sigma = 0) (hs : NoSlack o env)
    (h0 : ∀ q, IsPair po m.dims q → 0 ≤ lam00At env q)
    {k e : Nat} (hk : HasFE po k e) {j : Nat} (hj : j < o.nS) {s : Nat} (hsys : s < um.nSys)
    {i : Nat} (hi : i < (um.cVec s).len) :
    (0 < (um.cVec s).entry i (xVal po m.dims k e j env) (zVal m.dims k e j env) (pVal m.dims k env) →
      env (.st2 .alpha k e j s i) = 1) ∧
    ((um.cVec s).entry i (xVal po m.dims k e j env) (zVal m.dims k e j env) (pVal m.dims k env) < 0 →
      env (.st2 .alpha k e j s i) = 0) :=
  ⟨(C24_stage_conditions h hp hm hf hσ hs h0 hk hj hsys).pos (i := ⟨i, hi⟩),
    (C24_stage_conditions h hp hm hf hσ hs h0 hk hj hsys).neg (i := ⟨i, hi⟩)⟩

/-- C24: the step conditions are solvable at every point. -/
theorem C24_solvable {n : Nat} (c : Fin n → ℝ) : ∃ α lamN lamP, StepStage c α lamN lamP :=
  ⟨_, _, _, step_exists c⟩

/-- C24: when the rows of every `S` contradict each other pairwise and the state is strictly inside one
region of every subsystem, the right-hand side is the sum of the columns of `F` of these regions. -/
theorem C24_rhs (h : SetupEx colloc o um uo po m oc P) (hp : o.pss = .step)
    (hF : um.F.isSome = true)
    (hm : ExactMode o) (hf : P.form.Feasible env) (hσ : env .sigma = 0) (hs : NoSlack o env)
    (h0 : ∀ q, IsPair po m.dims q → 0 ≤ lam00At env q)
    {k e : Nat} (hk : HasFE po k e) {j : Nat} (hj : j < o.nS)
    (hS : ∀ s < um.nSys, (um.Smat s).IsSign) (hC : ∀ s < um.nSys, (um.Smat s).Contradicting)
    (i : Nat → Nat) (hi : ∀ s < um.nSys, i s < (um.Smat s).rows)
    (hc : ∀ s < um.nSys, InRegion (um.Smat s) (i s) fun r => (um.cVec s).entry r
      (xVal po m.dims k e j env) (zVal m.dims k e j env) (pVal m.dims k env)) (row : Nat) :
    um.stageRhs po m.dims k e j row env = ∑ s ∈ Finset.range um.nSys,
      (um.Fmat s).entry row (i s) (xVal po m.dims k e j env) (zVal m.dims k e j env)
        (uVal m.dims k env) (pVal m.dims k env) (vVal m.dims env) := by
  have hp' := h.e_pss.trans hp
  obtain ⟨Fs, hFs⟩ := Option.isSome_iff_exists.1 hF
  unfold UserModel.stageRhs
  rw [hp', hFs]
  unfold UserModel.rhsStep UserModel.rhsStewart
  refine Finset.sum_congr rfl fun s hs' => ?_
  have hs' := Finset.mem_range.1 hs'
  obtain ⟨hrows, hused⟩ := h.toSetup.shapes_step hp' hF hs'
  have hal : ∀ r < (um.Smat s).cols, (um.Smat s).entry (i s) r ≠ 0 →
      env (.st2 .alpha k e j s r) = (1 + (um.Smat s).entry (i s) r) / 2 := fun r hr hne =>
    region_alpha (α := fun r => env (.st2 .alpha k e j s r)) (hS s hs') (hi s hs') (hc s hs')
      (fun r hr hne => (C24_alpha h hp hm hf hσ hs h0 hk hj hs' (hused _ (hi s hs') r hr hne)).1)
      (fun r hr hne => (C24_alpha h hp hm hf hσ hs h0 hk hj hs' (hused _ (hi s hs') r hr hne)).2)
      hr hne
  rw [Finset.sum_eq_single (i s)]
  · beta_reduce
    rw [weight_self (hS s hs') (hi s hs') hal, mul_one]
  · intro r hr hne
    beta_reduce
    rw [weight_other (hS s hs') (hi s hs') hal (hC s hs' _ (hi s hs') r
      (by rw [hrows]; exact Finset.mem_range.1 hr) hne.symm), mul_zero]
  · intro hn
    exact absurd (Finset.mem_range.2 (by rw [← hrows]; exact hi s hs')) hn

/-! ### C25: Filippov combinations -/

/-- C25: at every feasible point, for every value of the homotopy parameter, the right-hand side at every
stage is a convex combination of the columns of `F` for every subsystem, in the Stewart representation
always, in the step representation when the regions cover the space without overlap (in particular
for the full sign matrix, `C25_full`).  The weights are `θ` and the region weights of `α`. -/
theorem C25_filippov (h : SetupEx colloc o um uo po m oc P) (hm : SignedMode o.mpcc)
    (hF : um.F.isSome = true)
    (hS : o.pss = .step → ∀ s < um.nSys, (um.Smat s).IsSign ∧ (um.Smat s).Partition)
    (hf : P.form.Feasible env) {k e : Nat} (hk : HasFE po k e) {j : Nat} (hj : j < o.nS) :
    ∃ w : Nat → Nat → ℝ,
      (∀ s < um.nSys, (∀ i < (um.Fmat s).nCols, 0 ≤ w s i) ∧
        ∑ i ∈ Finset.range (um.Fmat s).nCols, w s i = 1) ∧
      (∀ s < um.nSys, ∀ i < (um.Fmat s).nCols, w s i = match o.pss with
        | .stewart => env (.st2 .theta k e j s i)
        | .step => regionWeight (um.Smat s) i fun r => env (.st2 .alpha k e j s r)) ∧
      ∀ row, um.stageRhs po m.dims k e j row env = um.rhsStewart row (xVal po m.dims k e j env)
        (zVal m.dims k e j env) (uVal m.dims k env) (pVal m.dims k env) (vVal m.dims env) w := by
  have e1 := h.e_nS
  have e3 := h.e_mpcc
  have hm' : SignedMode po.mpcc := by rw [e3]; exact hm
  have hsp := h.spec hf
  have hj' : j < po.nS := e1 ▸ hj
  obtain ⟨-, -, -, -, -, -, d1, d2, d3⟩ := h.toSetup.dims
  obtain ⟨Fs, hFs⟩ := Option.isSome_iff_exists.1 hF
  cases hp : o.pss with
  | stewart =>
    have hp' := h.e_pss.trans hp
    refine ⟨fun s i => env (.st2 .theta k e j s i), fun s hs => ⟨fun i hi => ?_, ?_⟩,
      fun s hs i hi => rfl, fun row => ?_⟩
    · exact thetaAt_nonneg (q := .region s i) hm' hsp.bounds hk hj'
        ⟨hp', by omega, by rw [d2 hp' s hs]; exact hi⟩
    · exact (hsp.alg k e hk j hj').2.1 hp' s hs
    · unfold UserModel.stageRhs
      rw [hp']
  | step =>
    have hp' := h.e_pss.trans hp
    have hal : ∀ s < um.nSys, ∀ r < (um.cVec s).len,
        0 ≤ env (.st2 .alpha k e j s r) ∧ env (.st2 .alpha k e j s r) ≤ 1 := by
      intro s hs r hr
      have h1 : 0 ≤ thetaAt k e j env (.neg s r) := thetaAt_nonneg hm' hsp.bounds hk hj'
        ⟨hp', by omega, by rw [d3 hp' s hs]; exact hr⟩
      have h2 : 0 ≤ thetaAt k e j env (.pos s r) := thetaAt_nonneg hm' hsp.bounds hk hj'
        ⟨hp', by omega, by rw [d3 hp' s hs]; exact hr⟩
      exact ⟨h1, by simp only [thetaAt] at h2; linarith⟩
    refine ⟨fun s i => regionWeight (um.Smat s) i fun r => env (.st2 .alpha k e j s r),
      fun s hs => ⟨fun i hi => ?_, ?_⟩, fun s hs i hi => rfl, fun row => ?_⟩
    · obtain ⟨hrows, hused⟩ := h.toSetup.shapes_step hp' hF hs
      have hi' : i < (um.Smat s).rows := by omega
      exact (weight_mem (hS hp s hs).1 hi' fun r hr hne => hal s hs r (hused i hi' r hr hne)).1
    · rw [← (h.toSetup.shapes_step hp' hF hs).1]
      exact sum_weights (hS hp s hs).1 (hS hp s hs).2 _
    · unfold UserModel.stageRhs
      rw [hp', hFs]
      rfl

/-- C25: the region weights of the step representation sum to 1 for every value of the multipliers, and
lie between 0 and 1 when the multipliers do. -/
theorem C25_weights {S : SMat} (hS : S.IsSign) (hp : S.Partition) (α : Nat → ℝ) :
    ∑ i ∈ Finset.range S.rows, regionWeight S i α = 1 ∧
    ((∀ k < S.cols, 0 ≤ α k ∧ α k ≤ 1) →
      ∀ i < S.rows, 0 ≤ regionWeight S i α ∧ regionWeight S i α ≤ 1) :=
  ⟨sum_weights hS hp α, fun h _ hi => weight_mem hS hi fun k hk _ => h k hk⟩

/-- The full sign matrix with `n` switching functions: row `i` has the signs given by the binary digits
of `i`. -/
noncomputable def fullSigns (n : Nat) : SMat := ⟨2 ^ n, n, fun i k => if i.testBit k then 1 else -1⟩

/-- C25: the full sign matrix covers the space without overlap. -/
theorem C25_full (n : Nat) :
    (fullSigns n).IsSign ∧ (fullSigns n).IsDense ∧ (fullSigns n).Partition := by
  have inj : ∀ {i j : Nat}, i < 2 ^ n → j < 2 ^ n → (∀ k < n, i.testBit k = j.testBit k) → i = j := by
    intro i j hi hj h
    refine Nat.eq_of_testBit_eq fun k => ?_
    by_cases hk : k < n
    · exact h k hk
    · have : ∀ x < 2 ^ n, x.testBit k = false := fun x hx =>
        Nat.testBit_lt_two_pow (hx.trans_le (Nat.pow_le_pow_right (by norm_num) (not_lt.1 hk)))
      rw [this i hi, this j hj]
  have ne : ∀ i k, (fullSigns n).entry i k ≠ 0 := by
    intro i k
    simp only [fullSigns]
    split <;> norm_num
  refine ⟨?_, ⟨?_, ?_⟩, ?_⟩
  · intro i _ k _
    simp only [fullSigns]
    split <;> simp
  · intro i _ k _
    simp only [fullSigns]
    split <;> simp
  · intro i hi j hj hij
    by_contra hn
    push Not at hn
    refine hij (inj hi hj fun k hk => ?_)
    have := hn k hk
    simp only [fullSigns] at this
    revert this
    cases i.testBit k <;> cases j.testBit k <;> norm_num
  · intro σ
    refine ⟨⟨Nat.ofBits (fun k : Fin n => σ k), Nat.ofBits_lt_two_pow _⟩, ?_, ?_⟩
    · intro k hk _
      have hk' : k < n := hk
      simp [fullSigns, Nat.testBit_ofBits_lt _ k hk']
    · rintro ⟨i, hi⟩ h
      refine Fin.ext (inj hi (Nat.ofBits_lt_two_pow _) fun k hk => ?_)
      have := h k hk (ne i k)
      rw [Nat.testBit_ofBits_lt _ k hk]
      simp only [fullSigns] at this
      revert this
      cases i.testBit k <;> cases σ k <;> norm_num

end
end Nosnoc
