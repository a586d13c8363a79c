import Verif.Props.Dcs
import Verif.Props.Dynamics
import Verif.Props.CrossViol
import Verif.Props.DcsViol
/-
C85: on a finite element the discontinuous system stays in one mode.
C86: modes only change on the switching surface, at boundaries of finite elements.
Vocabulary: Verif/Spec/UserDisc.lean (values of states, algebraic variables, parameters at stages and ends
of elements), Verif/Spec/Dcs.lean (sign matrices), Verif/Spec/User.lean (`gVal`, right-hand sides).
-/
namespace Nosnoc

section
variable {colloc : IrkScheme → Nat → List ℝ} {o : Opts} {um : UserModel} {uo : Option UserOcp}
  {po : PreOpts} {m : PreModel} {oc : PreOcp} {P : Problem} {env : Env}

/-- What C85 and C86 assume about the point: it is feasible, with exact complementarity (`σ = 0`, no
slack), and the initial multipliers (parameters) are nonnegative. -/
structure ExactPoint (o : Opts) (po : PreOpts) (m : PreModel) (P : Problem) (env : Env) : Prop where
  fesd : o.useFesd = true
  mode : ExactMode o
  feas : P.form.Feasible env
  sigma : env .sigma = 0
  slack : NoSlack o env
  lam00 : ∀ q, IsPair po m.dims q → 0 ≤ lam00At env q

/-- Cross complementarity of one pair. -/
theorem ExactPoint.pair (D : ExactPoint o po m P env) (h : SetupEx colloc o um uo po m oc P)
    {k e : Nat} (hk : HasFE po k e) {q : Pair} (hq : IsPair po m.dims q) {j : Nat} (hj : j < o.nS)
    (hθ : thetaAt k e j env q ≠ 0) :
    (∀ j' < o.nS, lamAt k e j' env q = 0) ∧ lamStart po k e env q = 0 := by
  have hpos : 0 < thetaAt k e j env q :=
    lt_of_le_of_ne (stage_pairs h D.mode D.feas D.sigma D.slack D.lam00 hk hj hq).1 hθ.symm
  rcases D.mode with hm | ⟨hm, hc⟩
  · exact C32_no_switch h D.fesd hm D.feas D.sigma D.slack D.lam00 hk hq hj hpos
  · exact C32_no_switch_fischer_burmeister h D.fesd hm (hc D.fesd) D.feas D.sigma hk hq hj hpos

theorem lastLam_stage (hr : po.rbe = true ∨ e + 1 = nfe po k) : lastLam po k e = po.nS - 1 := by
  unfold lastLam extraPt
  rw [if_neg]
  · rfl
  · rintro ⟨_, h1, h2⟩
    rcases hr with hr | hr
    · rw [hr] at h1; cases h1
    · omega

/-- The multiplier at the last point of the element vanishes too. -/
theorem ExactPoint.last (D : ExactPoint o po m P env) (h : SetupEx colloc o um uo po m oc P)
    {k e : Nat} (hk : HasFE po k e) {q : Pair} (hq : IsPair po m.dims q) {j : Nat} (hj : j < o.nS)
    (hr : po.rbe = true ∨ o.crossComp = .sumLambdas ∨ e + 1 = nfe po k)
    (hθ : thetaAt k e j env q ≠ 0) : lamAt k e (lastLam po k e) env q = 0 := by
  have hpos : 0 < thetaAt k e j env q :=
    lt_of_le_of_ne (stage_pairs h D.mode D.feas D.sigma D.slack D.lam00 hk hj hq).1 hθ.symm
  have e1 : po.nS = o.nS := h.e_nS
  have stg : po.rbe = true ∨ e + 1 = nfe po k → lamAt k e (lastLam po k e) env q = 0 := by
    intro hr
    rw [lastLam_stage hr, e1]
    exact (D.pair h hk hq hj hθ).1 _ (by omega)
  rcases hr with hr | hr | hr
  · exact stg (.inl hr)
  · rcases D.mode with hm | ⟨_, hc⟩
    · refine C32_no_switch_end h D.fesd hr hm D.feas D.sigma D.slack D.lam00 hk hq hj hpos _ ?_
      unfold lastLam nLamPts
      omega
    · rw [hc D.fesd] at hr; cases hr
  · exact stg (.inr hr)

/-- The multipliers at the beginning of an element are nonnegative. -/
theorem ExactPoint.start_nonneg (D : ExactPoint o po m P env) (h : SetupEx colloc o um uo po m oc P)
    {k e : Nat} (hk : HasFE po k e) {q : Pair} (hq : IsPair po m.dims q) :
    0 ≤ lamStart po k e env q := by
  have e1 := h.e_nS
  have hsp := h.spec D.feas
  rcases D.mode with hm | ⟨hm, hc⟩
  · exact lamStart_nonneg (by rw [h.e_mpcc]; exact hm) (e1 ▸ h.nS) h.toSetup.nfe_pos hsp.bounds
      D.lam00 hk hq
  · have h1 := (hsp.compAll (h.e_useFesd.trans D.fesd) (h.e_crossComp.trans (hc D.fesd)) k e hk 0
      (by rw [e1]; exact h.nS) q hq).1
    unfold Compl at h1
    rw [D.sigma] at h1
    exact (C31_fischer_burmeister_pair (h.e_mpcc ▸ hm) h1).2.1

/-- The switching equations hold at the end of every element, with the last multipliers of it. -/
theorem switching_end (h : SetupEx colloc o um uo po m oc P) (hu : o.useFesd = true)
    (hf : P.form.Feasible env)
    {k e : Nat} (hk : HasFE po k e) :
    um.Switching po k e (lastLam po k e) (xEndVal po m.dims k e env)
      (zVal m.dims k e (o.nS - 1) env) (pVal m.dims k env) env := by
  have e1 : po.nS = o.nS := h.e_nS
  have hsp := h.spec hf
  cases hr : po.rbe with
  | true =>
    have := (hsp.alg k e hk (o.nS - 1) (by have := h.nS; omega)).1
    rw [C16_last_stage_is_end h hf hr hk] at this
    rw [lastLam_stage (.inl hr), e1]
    exact this
  | false =>
    have := hsp.boundary hr (h.e_useFesd.trans hu) k e hk
    rwa [e1] at this

theorem ExactPoint.switching_end (D : ExactPoint o po m P env) (h : SetupEx colloc o um uo po m oc P)
    {k e : Nat} (hk : HasFE po k e) :
    um.Switching po k e (lastLam po k e) (xEndVal po m.dims k e env)
      (zVal m.dims k e (o.nS - 1) env) (pVal m.dims k env) env :=
  Nosnoc.switching_end h D.fesd D.feas hk

/-! ### C85, Stewart representation -/

/-- C85: a region that is active at some stage of an element has the smallest indicator value at every
stage of that element. -/
theorem C85_active_minimal (h : SetupEx colloc o um uo po m oc P) (D : ExactPoint o po m P env)
    (hp : o.pss = .stewart) {k e : Nat} (hk : HasFE po k e) {j : Nat} (hj : j < o.nS) {s : Nat}
    (hsys : s < um.nSys) {i : Nat} (hi : i < (um.Fmat s).nCols)
    (hθ : env (.st2 .theta k e j s i) ≠ 0) {j' : Nat} (hj' : j' < o.nS)
    {i' : Nat} (hi' : i' < (um.Fmat s).nCols) :
    um.gVal s i (xVal po m.dims k e j' env) (zVal m.dims k e j' env) (pVal m.dims k env)
      ≤ um.gVal s i' (xVal po m.dims k e j' env) (zVal m.dims k e j' env) (pVal m.dims k env) := by
  have hp' : po.pss = .stewart := h.e_pss.trans hp
  obtain ⟨-, -, -, -, -, -, d1, d2, -⟩ := h.toSetup.dims
  have pair : ∀ i < (um.Fmat s).nCols, IsPair po m.dims (.region s i) := fun i hi =>
    ⟨hp', by omega, by rw [d2 hp' s hsys]; exact hi⟩
  have C := C23_stage_conditions h hp D.mode D.feas D.sigma D.slack D.lam00 hk hj' hsys
  have h1 := C.eq ⟨i, hi⟩
  have h2 := C.eq ⟨i', hi'⟩
  have h3 := C.lam_nonneg ⟨i', hi'⟩
  have h4 : env (.st2 .lam k e j' s i) = 0 := (D.pair h hk (pair i hi) hj hθ).1 j' hj'
  dsimp only at h1 h2 h3
  rw [h1, h2, h4]
  linarith

/-- C85: if at some stage of an element region `i` has the strictly smallest indicator value, then the
whole element is in mode `i`: `θ` is the `i`-th unit vector at all its stages. -/
theorem C85_mode_constant (h : SetupEx colloc o um uo po m oc P) (D : ExactPoint o po m P env)
    (hp : o.pss = .stewart) {k e : Nat} (hk : HasFE po k e) {j : Nat} (hj : j < o.nS) {s : Nat}
    (hsys : s < um.nSys) {i : Nat} (hi : i < (um.Fmat s).nCols)
    (hmin : ∀ i' < (um.Fmat s).nCols, i' ≠ i →
      um.gVal s i (xVal po m.dims k e j env) (zVal m.dims k e j env) (pVal m.dims k env)
        < um.gVal s i' (xVal po m.dims k e j env) (zVal m.dims k e j env) (pVal m.dims k env))
    {j' : Nat} (hj' : j' < o.nS) :
    ∀ r < (um.Fmat s).nCols, env (.st2 .theta k e j' s r) = if r = i then 1 else 0 := by
  have C := C23_stage_conditions h hp D.mode D.feas D.sigma D.slack D.lam00 hk hj' hsys
  have zero : ∀ r < (um.Fmat s).nCols, r ≠ i → env (.st2 .theta k e j' s r) = 0 := by
    intro r hr hne
    by_contra hn
    exact absurd (C85_active_minimal h D hp hk hj' hsys hr hn hj hi) (not_le.2 (hmin r hr hne))
  intro r hr
  split
  · rename_i he
    subst he
    have := C.sum
    rw [Finset.sum_eq_single (⟨r, hr⟩ : Fin (um.Fmat s).nCols) (fun b _ hb => zero b b.2 fun hc => hb (Fin.ext hc))
      (by simp)] at this
    exact this
  · exact zero r hr ‹_›

/-- C85: the element then follows one smooth vector field: the right-hand side at every stage is the sum
of the columns of `F` of the regions selected at one stage `j s` per subsystem. -/
theorem C85_rhs (h : SetupEx colloc o um uo po m oc P) (D : ExactPoint o po m P env)
    (hp : o.pss = .stewart) {k e : Nat} (hk : HasFE po k e) (j i : Nat → Nat)
    (hj : ∀ s < um.nSys, j s < o.nS) (hi : ∀ s < um.nSys, i s < (um.Fmat s).nCols)
    (hmin : ∀ s < um.nSys, ∀ i' < (um.Fmat s).nCols, i' ≠ i s →
      um.gVal s (i s) (xVal po m.dims k e (j s) env) (zVal m.dims k e (j s) env) (pVal m.dims k env)
        < um.gVal s i' (xVal po m.dims k e (j s) env) (zVal m.dims k e (j s) env) (pVal m.dims k env))
    {j' : Nat} (hj' : j' < o.nS) (row : Nat) :
    um.stageRhs po m.dims k e j' row env = ∑ s ∈ Finset.range um.nSys,
      (um.Fmat s).entry row (i s) (xVal po m.dims k e j' env) (zVal m.dims k e j' env)
        (uVal m.dims k env) (pVal m.dims k env) (vVal m.dims env) := by
  have hp' := h.e_pss.trans hp
  unfold UserModel.stageRhs
  rw [hp']
  unfold UserModel.rhsStewart
  refine Finset.sum_congr rfl fun s hs' => ?_
  have hs' := Finset.mem_range.1 hs'
  have hth := C85_mode_constant h D hp hk (hj s hs') hs' (hi s hs') (hmin s hs') hj'
  rw [Finset.sum_eq_single (i s)]
  · beta_reduce
    rw [hth _ (hi s hs'), if_pos rfl, mul_one]
  · intro r hr hne
    beta_reduce
    rw [hth r (Finset.mem_range.1 hr), if_neg hne, mul_zero]
  · intro hn
    exact absurd (Finset.mem_range.2 (hi s hs')) hn

/-! ### C85, Step representation -/

/-- C85: if a switching function is positive at some stage of an element, its step variable is 1 and it is
nonnegative at all stages of the element; if it is negative, the step variable is 0 and it is nonpositive
at all stages. -/
theorem C85_step (h : SetupEx colloc o um uo po m oc P) (D : ExactPoint o po m P env)
    (hp : o.pss = .step) {k e : Nat} (hk : HasFE po k e) {j : Nat} (hj : j < o.nS) {s : Nat}
    (hsys : s < um.nSys) {i : Nat} (hi : i < (um.cVec s).len) {j' : Nat} (hj' : j' < o.nS) :
    (0 < (um.cVec s).entry i (xVal po m.dims k e j env) (zVal m.dims k e j env) (pVal m.dims k env) →
      env (.st2 .alpha k e j' s i) = 1 ∧
      0 ≤ (um.cVec s).entry i (xVal po m.dims k e j' env) (zVal m.dims k e j' env)
        (pVal m.dims k env)) ∧
    ((um.cVec s).entry i (xVal po m.dims k e j env) (zVal m.dims k e j env) (pVal m.dims k env) < 0 →
      env (.st2 .alpha k e j' s i) = 0 ∧
      (um.cVec s).entry i (xVal po m.dims k e j' env) (zVal m.dims k e j' env)
        (pVal m.dims k env) ≤ 0) := by
  have hp' : po.pss = .step := h.e_pss.trans hp
  have hd := h.toSetup.dims
  have dN : m.dims.nSys = um.nSys := hd.2.2.2.2.2.2.1
  have dC : i < m.dims.nC s := by
    rw [hd.2.2.2.2.2.2.2.2 hp' s hsys]; exact hi
  have C := C24_stage_conditions h hp D.mode D.feas D.sigma D.slack D.lam00 hk hj hsys
  have C' := C24_stage_conditions h hp D.mode D.feas D.sigma D.slack D.lam00 hk hj' hsys
  have c1 := C.eq ⟨i, hi⟩
  have c2 := C.lamN_nonneg ⟨i, hi⟩
  have c3 := C.lamP_nonneg ⟨i, hi⟩
  have c1' := C'.eq ⟨i, hi⟩
  have c2' := C'.lamN_nonneg ⟨i, hi⟩
  have c3' := C'.lamP_nonneg ⟨i, hi⟩
  dsimp only at c1 c2 c3 c1' c2' c3'
  have pn : IsPair po m.dims (.neg s i) := ⟨hp', by omega, dC⟩
  have pp : IsPair po m.dims (.pos s i) := ⟨hp', by omega, dC⟩
  constructor
  · intro hc
    have ha : env (.st2 .alpha k e j' s i) = 1 := by
      by_contra hn
      have : lamAt k e j env (.pos s i) = 0 :=
        (D.pair h hk pp hj' (by unfold thetaAt; intro h0; apply hn; linarith)).1 j hj
      have : env (.st2 .lamP k e j s i) = 0 := this
      linarith
    refine ⟨ha, ?_⟩
    have : env (.st2 .lamN k e j' s i) = 0 :=
      (D.pair h hk pn hj' (by simp [thetaAt, ha])).1 j' hj'
    linarith
  · intro hc
    have ha : env (.st2 .alpha k e j' s i) = 0 := by
      by_contra hn
      have : env (.st2 .lamN k e j s i) = 0 := (D.pair h hk pn hj' hn).1 j hj
      linarith
    refine ⟨ha, ?_⟩
    have : env (.st2 .lamP k e j' s i) = 0 :=
      (D.pair h hk pp hj' (by simp [thetaAt, ha])).1 j' hj'
    linarith

/-! ### C86 -/

theorem prevFe_lamStart {k e k' e' : Nat} (hn : prevFe po k' e' = some (k, e)) (q : Pair) :
    lamStart po k' e' env q = lamAt k e (lastLam po k e) env q := by
  unfold lamStart
  rw [hn]

/-- C86: a region that is active on an element has the smallest indicator value already where the element
begins, that is at the end of the previous element. -/
theorem C86_minimal_at_start (h : SetupEx colloc o um uo po m oc P) (D : ExactPoint o po m P env)
    (hp : o.pss = .stewart) {k e k' e' : Nat} (hk : HasFE po k e) (hk' : HasFE po k' e')
    (hn : prevFe po k' e' = some (k, e)) {j' : Nat} (hj' : j' < o.nS) {s : Nat} (hsys : s < um.nSys)
    {i' : Nat} (hi' : i' < (um.Fmat s).nCols) (hθ' : env (.st2 .theta k' e' j' s i') ≠ 0) :
    ∀ r < (um.Fmat s).nCols,
      um.gVal s i' (xEndVal po m.dims k e env) (zVal m.dims k e (o.nS - 1) env) (pVal m.dims k env)
        ≤ um.gVal s r (xEndVal po m.dims k e env) (zVal m.dims k e (o.nS - 1) env)
          (pVal m.dims k env) := by
  have hp' : po.pss = .stewart := h.e_pss.trans hp
  obtain ⟨-, -, -, -, -, -, d1, d2, -⟩ := h.toSetup.dims
  have pair : ∀ i < (um.Fmat s).nCols, IsPair po m.dims (.region s i) := fun i hi =>
    ⟨hp', by omega, by rw [d2 hp' s hsys]; exact hi⟩
  have sw := D.switching_end h hk
  unfold UserModel.Switching at sw
  rw [hp'] at sw
  intro r hr
  rw [sw s hsys i' hi', sw s hsys r hr]
  have z : env (.st2 .lam k e (lastLam po k e) s i') = 0 := by
    have := (D.pair h hk' (pair i' hi') hj' hθ').2
    rwa [prevFe_lamStart hn] at this
  have n : 0 ≤ env (.st2 .lam k e (lastLam po k e) s r) := by
    have := D.start_nonneg h hk' (pair r hr)
    rwa [prevFe_lamStart hn] at this
  rw [z]
  linarith

/-- C86, Stewart representation: if region `i` is active on an element and region `i'` on the next one,
then the common boundary is on the switching surface: there both indicators are equal (and no other one is
smaller).  Partial: needs a scheme whose last stage is the end point, or SUM_LAMBDAS, or the boundary of a
control stage; without any of these the claim is false (`C86_gauss_violated`). -/
theorem C86_switch_on_surface_partial (h : SetupEx colloc o um uo po m oc P)
    (D : ExactPoint o po m P env) (hp : o.pss = .stewart) {k e k' e' : Nat} (hk : HasFE po k e)
    (hk' : HasFE po k' e') (hn : prevFe po k' e' = some (k, e))
    (hr : po.rbe = true ∨ o.crossComp = .sumLambdas ∨ e + 1 = nfe po k)
    {j j' : Nat} (hj : j < o.nS) (hj' : j' < o.nS) {s : Nat} (hsys : s < um.nSys) {i i' : Nat}
    (hi : i < (um.Fmat s).nCols) (hθ : env (.st2 .theta k e j s i) ≠ 0)
    (hi' : i' < (um.Fmat s).nCols) (hθ' : env (.st2 .theta k' e' j' s i') ≠ 0) :
    um.gVal s i (xEndVal po m.dims k e env) (zVal m.dims k e (o.nS - 1) env) (pVal m.dims k env)
      = um.gVal s i' (xEndVal po m.dims k e env) (zVal m.dims k e (o.nS - 1) env)
          (pVal m.dims k env) ∧
    ∀ r < (um.Fmat s).nCols,
      um.gVal s i (xEndVal po m.dims k e env) (zVal m.dims k e (o.nS - 1) env) (pVal m.dims k env)
        ≤ um.gVal s r (xEndVal po m.dims k e env) (zVal m.dims k e (o.nS - 1) env)
          (pVal m.dims k env) := by
  have hp' : po.pss = .stewart := h.e_pss.trans hp
  obtain ⟨-, -, -, -, -, -, d1, d2, -⟩ := h.toSetup.dims
  have pair : ∀ i < (um.Fmat s).nCols, IsPair po m.dims (.region s i) := fun i hi =>
    ⟨hp', by omega, by rw [d2 hp' s hsys]; exact hi⟩
  have sw := D.switching_end h hk
  unfold UserModel.Switching at sw
  rw [hp'] at sw
  have z : env (.st2 .lam k e (lastLam po k e) s i) = 0 := D.last h hk (pair i hi) hj hr hθ
  have z' : env (.st2 .lam k e (lastLam po k e) s i') = 0 := by
    have := (D.pair h hk' (pair i' hi') hj' hθ').2
    rwa [prevFe_lamStart hn] at this
  have heq : um.gVal s i (xEndVal po m.dims k e env) (zVal m.dims k e (o.nS - 1) env)
      (pVal m.dims k env) = um.gVal s i' (xEndVal po m.dims k e env)
        (zVal m.dims k e (o.nS - 1) env) (pVal m.dims k env) := by
    rw [sw s hsys i hi, sw s hsys i' hi', z, z']
  refine ⟨heq, fun r hr => ?_⟩
  rw [heq]
  exact C86_minimal_at_start h D hp hk hk' hn hj' hsys hi' hθ' r hr

/-- Two rows of a sign matrix with all sign combinations that both minimise `-S c`: the switching
functions in which the rows differ are zero. -/
theorem SMat.zero_of_min {S : SMat} (hS : S.IsDense) (hP : S.Partition) {c : Nat → ℝ} {i i' : Nat}
    (hi : i < S.rows) (hi' : i' < S.rows)
    (h : ∀ r < S.rows, -∑ k ∈ Finset.range S.cols, S.entry i k * c k
      ≤ -∑ k ∈ Finset.range S.cols, S.entry r k * c k)
    (h' : ∀ r < S.rows, -∑ k ∈ Finset.range S.cols, S.entry i' k * c k
      ≤ -∑ k ∈ Finset.range S.cols, S.entry r k * c k)
    {n : Nat} (hn : n < S.cols) (hne : S.entry i n ≠ S.entry i' n) : c n = 0 := by
  have key : ∀ a, a < S.rows → (∀ r < S.rows, -∑ k ∈ Finset.range S.cols, S.entry a k * c k
      ≤ -∑ k ∈ Finset.range S.cols, S.entry r k * c k) → 0 ≤ S.entry a n * c n := by
    intro a ha hm
    obtain ⟨r, hr, _⟩ := hP fun k =>
      if k = n then decide (S.entry a k = -1) else decide (S.entry a k = 1)
    have hval : ∀ k < S.cols, S.entry r k = if k = n then -(S.entry a k : ℝ) else S.entry a k := by
      intro k hk
      have h1 := hr k hk (by rcases hS.1 r r.2 k hk with h | h <;> rw [h] <;> norm_num)
      rw [h1]
      by_cases hkn : k = n
      · simp only [hkn, if_true]
        rcases hS.1 a ha n hn with h | h <;> simp [h]
      · simp only [hkn, if_false]
        rcases hS.1 a ha k hk with h | h <;> simp [h]
        norm_num
    have h2 := hm r r.2
    have h3 : ∑ k ∈ Finset.range S.cols, S.entry r k * c k
        = ∑ k ∈ Finset.range S.cols, S.entry a k * c k - 2 * (S.entry a n * c n) := by
      have : ∀ k ∈ Finset.range S.cols, (S.entry r k : ℝ) * c k
          = S.entry a k * c k - if k = n then 2 * (S.entry a n * c n) else 0 := by
        intro k hk
        rw [hval k (Finset.mem_range.1 hk)]
        by_cases hkn : k = n
        · subst hkn; simp; ring
        · simp [hkn]
      rw [Finset.sum_congr rfl this, Finset.sum_sub_distrib, Finset.sum_ite_eq']
      simp [hn]
    rw [h3] at h2
    linarith
  have k1 := key i hi h
  have k2 := key i' hi' h'
  rcases hS.1 i hi n hn with a | a <;> rcases hS.1 i' hi' n hn with b | b <;> rw [a] at k1 hne <;>
    rw [b] at k2 hne <;> first | exact absurd rfl hne | linarith

/-- C86 in terms of the switching functions: with a sign matrix containing all sign combinations, every
switching function in which the two active regions differ is zero where the mode changes.  Partial as
`C86_switch_on_surface_partial`. -/
theorem C86_switching_function_zero_partial (h : SetupEx colloc o um uo po m oc P)
    (D : ExactPoint o po m P env) (hp : o.pss = .stewart) (hg : um.gStewartTruthy = false)
    {k e k' e' : Nat} (hk : HasFE po k e)
    (hk' : HasFE po k' e') (hn : prevFe po k' e' = some (k, e))
    (hr : po.rbe = true ∨ o.crossComp = .sumLambdas ∨ e + 1 = nfe po k)
    {j j' : Nat} (hj : j < o.nS) (hj' : j' < o.nS) {s : Nat} (hsys : s < um.nSys)
    (hS : (um.Smat s).IsDense) (hP : (um.Smat s).Partition) {i i' : Nat}
    (hi : i < (um.Fmat s).nCols) (hθ : env (.st2 .theta k e j s i) ≠ 0)
    (hi' : i' < (um.Fmat s).nCols) (hθ' : env (.st2 .theta k' e' j' s i') ≠ 0)
    {n : Nat} (hn' : n < (um.Smat s).cols) (hne : (um.Smat s).entry i n ≠ (um.Smat s).entry i' n) :
    (um.cVec s).entry n (xEndVal po m.dims k e env) (zVal m.dims k e (o.nS - 1) env)
      (pVal m.dims k env) = 0 := by
  have hrows := (h.toSetup.shapes_stewart (h.e_pss.trans hp) hg hsys).1
  obtain ⟨h1, h2⟩ := C86_switch_on_surface_partial h D hp hk hk' hn hr hj hj' hsys hi hθ hi' hθ'
  have h3 := C86_minimal_at_start h D hp hk hk' hn hj' hsys hi' hθ'
  unfold UserModel.gVal at h2 h3
  rw [hg] at h2 h3
  exact SMat.zero_of_min hS hP (by rw [hrows]; exact hi) (by rw [hrows]; exact hi')
    (fun r hr => h2 r (by rw [← hrows]; exact hr)) (fun r hr => h3 r (by rw [← hrows]; exact hr))
    hn' hne

/-- C86, Step representation: if a step variable is not 0 on an element and not 1 on the next one, or
the other way round, its switching function is zero at the common boundary.  Partial as
`C86_switch_on_surface_partial`. -/
theorem C86_step_partial (h : SetupEx colloc o um uo po m oc P)
    (D : ExactPoint o po m P env) (hp : o.pss = .step) {k e k' e' : Nat} (hk : HasFE po k e)
    (hk' : HasFE po k' e') (hn : prevFe po k' e' = some (k, e))
    (hr : po.rbe = true ∨ o.crossComp = .sumLambdas ∨ e + 1 = nfe po k)
    {j j' : Nat} (hj : j < o.nS) (hj' : j' < o.nS) {s : Nat} (hsys : s < um.nSys) {i : Nat}
    (hi : i < (um.cVec s).len)
    (hα : env (.st2 .alpha k e j s i) ≠ 0 ∧ env (.st2 .alpha k' e' j' s i) ≠ 1 ∨
      env (.st2 .alpha k e j s i) ≠ 1 ∧ env (.st2 .alpha k' e' j' s i) ≠ 0) :
    (um.cVec s).entry i (xEndVal po m.dims k e env) (zVal m.dims k e (o.nS - 1) env)
      (pVal m.dims k env) = 0 := by
  have hp' : po.pss = .step := h.e_pss.trans hp
  have hd := h.toSetup.dims
  have dN : m.dims.nSys = um.nSys := hd.2.2.2.2.2.2.1
  have dC : i < m.dims.nC s := by
    rw [hd.2.2.2.2.2.2.2.2 hp' s hsys]; exact hi
  have pn : IsPair po m.dims (.neg s i) := ⟨hp', by omega, dC⟩
  have pp : IsPair po m.dims (.pos s i) := ⟨hp', by omega, dC⟩
  have sw := D.switching_end h hk
  unfold UserModel.Switching at sw
  rw [hp'] at sw
  rw [sw s hsys i hi]
  have t1 : ∀ {x : ℝ}, x ≠ 1 → 1 - x ≠ 0 := fun hx h0 => hx (by linarith)
  rcases hα with ⟨a, b⟩ | ⟨a, b⟩
  · have z : env (.st2 .lamN k e (lastLam po k e) s i) = 0 := D.last h hk pn hj hr a
    have z' : env (.st2 .lamP k e (lastLam po k e) s i) = 0 := by
      have := (D.pair h hk' pp hj' (t1 b)).2
      rwa [prevFe_lamStart hn] at this
    rw [z, z', sub_zero]
  · have z : env (.st2 .lamP k e (lastLam po k e) s i) = 0 := D.last h hk pp hj hr (t1 a)
    have z' : env (.st2 .lamN k e (lastLam po k e) s i) = 0 := by
      have := (D.pair h hk' pn hj' b).2
      rwa [prevFe_lamStart hn] at this
    rw [z, z', sub_zero]

/-! ### Examples -/

theorem gaussOne_exact {cc : CrossCompMode} {a b : ℝ} {po m oc P}
    (h : SetupEx oneColloc (gaussOneOpts cc) flexModel (some UserOcp.trivial) po m oc P)
    (hd : m.dims = flexDims) (ha : 1 ≤ a) (ha' : a ≤ 2) (hb : b ≤ 2)
    (hc2 : cc = .sumLambdas → a = 2) :
    ExactPoint (gaussOneOpts cc) po m P (gaussOnePt a b).env where
  fesd := rfl
  mode := .inl (by simp [gaussOneOpts, Opts.default, SignedMode])
  feas := gaussOne_feasible h hd ha ha' hb hc2
  sigma := rfl
  slack := by simp [NoSlack, gaussOneOpts, Opts.default]
  lam00 q _ := by cases q <;> exact le_refl _

theorem gaussOne_hasFE {cc : CrossCompMode} {po m oc P}
    (h : SetupEx oneColloc (gaussOneOpts cc) flexModel (some UserOcp.trivial) po m oc P) :
    HasFE po 0 0 ∧ HasFE po 0 1 := by
  have e2 : po.nStages = 1 := h.e_nStages
  have e5 : po.nfeList = [2] := h.e_nfeList
  exact ⟨⟨by omega, by simp [nfe, e5]⟩, ⟨by omega, by simp [nfe, e5]⟩⟩

/-- C86 fails with COMPLEMENT_ALL and a scheme whose last stage is not the end point: exact feasible
point, region 0 on the first element, region 1 on the second one, and the switching function is -1/2 at
their common boundary: the multipliers at the end of an element are only complementary to the weights of
the next one. -/
theorem C86_gauss_violated : ∃ po m oc P env,
    SetupEx oneColloc (gaussOneOpts .complementAll) flexModel (some UserOcp.trivial) po m oc P ∧
    ExactPoint (gaussOneOpts .complementAll) po m P env ∧
    HasFE po 0 0 ∧ HasFE po 0 1 ∧ prevFe po 0 1 = some (0, 0) ∧
    env (.st2 .theta 0 0 0 0 0) = 1 ∧ env (.st2 .theta 0 1 0 0 1) = 1 ∧
    (flexModel.cVec 0).entry 0 (xEndVal po m.dims 0 0 env) (zVal m.dims 0 0 0 env)
      (pVal m.dims 0 env) = -1 / 2 := by
  obtain ⟨po, m, oc, P, h, hd⟩ := gaussOne_setup .complementAll
  have hE := gaussOne_hasFE h
  refine ⟨po, m, oc, P, (gaussOnePt (3 / 2) (3 / 2)).env, h,
    gaussOne_exact h hd (by norm_num) (by norm_num) (by norm_num) (fun hc => absurd hc (by decide)),
    hE.1, hE.2, rfl, rfl, rfl, ?_⟩
  rw [hd]
  have hown : ownEnd po = true := by
    have e1 : po.irkRep = .differential := h.e_irkRep
    simp [ownEnd, e1]
  have hx : xEndVal po flexDims 0 0 (gaussOnePt (3 / 2) (3 / 2)).env = [-2] := by
    simp only [xEndVal, endX, hown, if_true]
    rfl
  rw [hx, flex_zVal]
  show (-2 : ℝ) + (if (0 : Nat) = 0 then 3 / 2 else 3 / 2) = -1 / 2
  norm_num

/-- Non-vacuity of C85 and C86: a trajectory that crosses the switching surface at the boundary of two
elements (both modes of cross complementarity), with region 0 strictly minimal at the stage of the first
element. -/
example (cc : CrossCompMode) : ∃ po m oc P env,
    SetupEx oneColloc (gaussOneOpts cc) flexModel (some UserOcp.trivial) po m oc P ∧
    ExactPoint (gaussOneOpts cc) po m P env ∧ HasFE po 0 0 ∧ HasFE po 0 1 ∧
    prevFe po 0 1 = some (0, 0) ∧
    env (.st2 .theta 0 0 0 0 0) ≠ 0 ∧ env (.st2 .theta 0 1 0 0 1) ≠ 0 ∧
    flexModel.gVal 0 0 (xVal po m.dims 0 0 0 env) (zVal m.dims 0 0 0 env) (pVal m.dims 0 env)
      < flexModel.gVal 0 1 (xVal po m.dims 0 0 0 env) (zVal m.dims 0 0 0 env) (pVal m.dims 0 env) ∧
    (flexModel.cVec 0).entry 0 (xEndVal po m.dims 0 0 env) (zVal m.dims 0 0 0 env)
      (pVal m.dims 0 env) = 0 := by
  obtain ⟨po, m, oc, P, h, hd⟩ := gaussOne_setup cc
  have hE := gaussOne_hasFE h
  have D := gaussOne_exact (a := 2) (b := 1) h hd (by norm_num) (by norm_num) (by norm_num)
    (fun _ => rfl)
  have t0 : (gaussOnePt 2 1).env (.st2 .theta 0 0 0 0 0) = 1 := rfl
  have t1 : (gaussOnePt 2 1).env (.st2 .theta 0 1 0 0 1) = 1 := rfl
  have C := C23_stage_conditions h rfl D.mode D.feas D.sigma D.slack D.lam00 hE.1 (j := 0)
    (by simp [gaussOneOpts]) (s := 0) (by decide)
  refine ⟨po, m, oc, P, _, h, D, hE.1, hE.2, rfl, by rw [t0]; norm_num, by rw [t1]; norm_num, ?_, ?_⟩
  · have h0 := C.eq ⟨0, by decide⟩
    have h1 := C.eq ⟨1, by decide⟩
    dsimp only at h0 h1
    have l0 : (gaussOnePt 2 1).env (.st2 .lam 0 0 0 0 0) = lamOf (2 - 1) 0 := rfl
    have l1 : (gaussOnePt 2 1).env (.st2 .lam 0 0 0 0 1) = lamOf (2 - 1) 1 := rfl
    rw [h0, h1, l0, l1]
    norm_num [lamOf]
  · rw [hd]
    have hown : ownEnd po = true := by
      have e1 : po.irkRep = .differential := h.e_irkRep
      simp [ownEnd, e1]
    have hx : xEndVal po flexDims 0 0 (gaussOnePt 2 1).env = [-2] := by
      simp only [xEndVal, endX, hown, if_true]
      rfl
    rw [hx, flex_zVal]
    show (-2 : ℝ) + (if (0 : Nat) = 0 then 2 else 1) = 0
    norm_num

/-- Non-vacuity of C85 in the step representation: two switching functions of opposite signs. -/
example : ∃ (um : UserModel) (po : PreOpts) (m : PreModel) (oc : PreOcp) (P : Problem) (env : Env),
    SetupEx oneColloc (constOpts .step true) um (some UserOcp.trivial) po m oc P ∧
    ExactPoint (constOpts .step true) po m P env ∧ HasFE po 0 0 ∧ um.nSys = 1 ∧
    0 < (um.cVec 0).entry 0 (xVal po m.dims 0 0 0 env) (zVal m.dims 0 0 0 env) (pVal m.dims 0 env) ∧
    (um.cVec 0).entry 1 (xVal po m.dims 0 0 0 env) (zVal m.dims 0 0 0 env) (pVal m.dims 0 env) < 0 := by
  obtain ⟨po, m, oc, P, h, hrbe, hA⟩ := const_setup (pss := .step) (fesd := true) (S := fullSigns 2)
    (c := fullC) (by simp [fullSigns])
  have hmin := fun i hi hne => dense_min (C25_full 2).2.1 (i := 1) (j := i) (by simp [fullSigns]) hi hne
    fullC_region
  have hf := const_feasible h hrbe hA (r := 1) (by simp [fullSigns]) (by
    intro i hi
    by_cases h1 : i = 1
    · rw [h1]
    · exact (hmin i hi h1).le)
  refine ⟨_, po, m, oc, P, _, h, ⟨rfl, .inl (by simp [constOpts, Opts.default, SignedMode]), hf, rfl,
    by simp [NoSlack, constOpts, Opts.default], fun q _ => const_lam00 q 1⟩, const_hasFE h, rfl, ?_, ?_⟩
  · show 0 < fullC 0
    norm_num [fullC]
  · show fullC 1 < 0
    norm_num [fullC]

/-- Non-vacuity of C86 in the step representation: sliding on the switching surface over several elements
and control stages. -/
example : ∃ po m oc P env,
    SetupEx demoColloc gaussOpts demoModel (some demoOcp) po m oc P ∧
    ExactPoint gaussOpts po m P env ∧ HasFE po 0 1 ∧ HasFE po 1 0 ∧
    prevFe po 1 0 = some (0, 1) ∧ 1 + 1 = nfe po 0 ∧
    env (.st2 .alpha 0 1 0 0 0) ≠ 0 ∧ env (.st2 .alpha 1 0 1 0 0) ≠ 1 := by
  obtain ⟨po, m, oc, P, h, hf, _⟩ := demo_setup demo_gauss
  have e2 : po.nStages = 2 := h.e_nStages
  have e5 : po.nfeList = [2, 3] := h.e_nfeList
  refine ⟨po, m, oc, P, demoEnv po, h, ⟨rfl, .inl (by simp [gaussOpts, SignedMode]), hf, rfl,
    fun _ => rfl, fun q _ => by cases q <;> exact le_rfl⟩, ⟨by omega, by simp [nfe, e5]⟩,
    ⟨by omega, by simp [nfe, e5]⟩, by simp [prevFe, nfe, e5], by simp [nfe, e5], ?_, ?_⟩
  · show (1 / 2 : ℝ) ≠ 0; norm_num
  · show (1 / 2 : ℝ) ≠ 1; norm_num

end
end Nosnoc
