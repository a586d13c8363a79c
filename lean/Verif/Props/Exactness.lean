import Verif.Spec.Filippov
import Verif.Spec.Root
import Verif.Props.Modes
import Verif.Props.Tables
import Mathlib.Analysis.Calculus.Deriv.Add
import Mathlib.Analysis.Calculus.Deriv.Mul
/-
C92: for piecewise constant systems FESD is exact.  A point that meets the hypotheses: the end of
Verif/Props/Complete.lean.
-/
namespace Nosnoc
open Polynomial

section
variable {colloc : IrkScheme → Nat → List ℝ} {o : Opts} {um : UserModel} {uo : Option UserOcp}
  {po : PreOpts} {m : PreModel} {oc : PreOcp} {P : Problem} {env : Env}

/-- A row of a full sign matrix that minimises `-S c` has no sign opposite to `c`. -/
theorem SMat.closed_of_min {S : SMat} (hS : S.IsDense) (hP : S.Partition) {c : Nat → ℝ} {a : Nat}
    (ha : a < S.rows)
    (hm : ∀ r < S.rows, -∑ k ∈ Finset.range S.cols, S.entry a k * c k
      ≤ -∑ k ∈ Finset.range S.cols, S.entry r k * c k)
    {n : Nat} (hn : n < S.cols) : 0 ≤ S.entry a n * c n := by
  obtain ⟨r, hr, _⟩ := hP fun k =>
    if k = n then decide (S.entry a k = -1) else decide (S.entry a k = 1)
  have hval : ∀ k < S.cols, S.entry r k = if k = n then -(S.entry a k : ℝ) else S.entry a k := by
    intro k hk
    have h1 := hr k hk (by rcases hS.1 r r.2 k hk with h | h <;> rw [h] <;> norm_num)
    rw [h1]
    by_cases hkn : k = n
    · simp only [hkn, if_true]
      rcases hS.1 a ha n hn with h | h <;> simp [h]
    · simp only [hkn, if_false]
      rcases hS.1 a ha k hk with h | h <;> simp [h]
      norm_num
  have h2 := hm r r.2
  have h3 : ∑ k ∈ Finset.range S.cols, S.entry r k * c k
      = ∑ k ∈ Finset.range S.cols, S.entry a k * c k - 2 * (S.entry a n * c n) := by
    have : ∀ k ∈ Finset.range S.cols, (S.entry r k : ℝ) * c k
        = S.entry a k * c k - if k = n then 2 * (S.entry a n * c n) else 0 := by
      intro k hk
      rw [hval k (Finset.mem_range.1 hk)]
      by_cases hkn : k = n
      · subst hkn; simp; ring
      · simp [hkn]
    rw [Finset.sum_congr rfl this, Finset.sum_sub_distrib, Finset.sum_ite_eq']
    simp [hn]
  rw [h3] at h2
  linarith

/-! ### The pieces on one element -/

/-- The weight of region `i` of system `s` at stage `j`. -/
noncomputable def wgt (o : Opts) (um : UserModel) (env : Env) (k e j s i : Nat) : ℝ :=
  match o.pss with
  | .stewart => env (.st2 .theta k e j s i)
  | .step => regionWeight (um.Smat s) i fun r => env (.st2 .alpha k e j s r)

theorem weights_of_nonneg (h : SetupEx colloc o um uo po m oc P) (hf : P.form.Feasible env)
    {k e j : Nat} (nn : ∀ q, IsPair po m.dims q → 0 ≤ thetaAt k e j env q)
    (hF : um.F.isSome = true) (hS : SignsOk o um) (hk : HasFE po k e) (hj : j < o.nS) :
    (∀ s < um.nSys, (∀ i < (um.Fmat s).nCols, 0 ≤ wgt o um env k e j s i) ∧
        ∑ i ∈ Finset.range (um.Fmat s).nCols, wgt o um env k e j s i = 1) ∧
      ∀ row, um.stageRhs po m.dims k e j row env = um.rhsStewart row (xVal po m.dims k e j env)
        (zVal m.dims k e j env) (uVal m.dims k env) (pVal m.dims k env) (vVal m.dims env)
        (wgt o um env k e j) := by
  have e1 := h.e_nS
  have hsp := h.spec hf
  have hj' : j < po.nS := e1 ▸ hj
  obtain ⟨-, -, -, -, -, -, d1, d2, d3⟩ := h.toSetup.dims
  obtain ⟨Fs, hFs⟩ := Option.isSome_iff_exists.1 hF
  cases hp : o.pss with
  | stewart =>
    have hp' := h.e_pss.trans hp
    have hw : ∀ s i, wgt o um env k e j s i = env (.st2 .theta k e j s i) := by
      intro s i; unfold wgt; rw [hp]
    refine ⟨fun s hs => ⟨fun i hi => ?_, ?_⟩, fun row => ?_⟩
    · rw [hw]
      exact nn (.region s i) ⟨hp', by omega, by rw [d2 hp' s hs]; exact hi⟩
    · simp only [hw]
      exact (hsp.alg k e hk j hj').2.1 hp' s hs
    · unfold UserModel.stageRhs
      rw [hp']
      have : wgt o um env k e j = fun s i => env (.st2 .theta k e j s i) := by
        funext s i; exact hw s i
      rw [this]
  | step =>
    have hp' := h.e_pss.trans hp
    have hw : ∀ s i, wgt o um env k e j s i
        = regionWeight (um.Smat s) i fun r => env (.st2 .alpha k e j s r) := by
      intro s i; unfold wgt; rw [hp]
    have hal : ∀ s < um.nSys, ∀ r < (um.cVec s).len,
        0 ≤ env (.st2 .alpha k e j s r) ∧ env (.st2 .alpha k e j s r) ≤ 1 := by
      intro s hs r hr
      have h1 : 0 ≤ thetaAt k e j env (.neg s r) := nn _
        ⟨hp', by omega, by rw [d3 hp' s hs]; exact hr⟩
      have h2 : 0 ≤ thetaAt k e j env (.pos s r) := nn _
        ⟨hp', by omega, by rw [d3 hp' s hs]; exact hr⟩
      exact ⟨h1, by simp only [thetaAt] at h2; linarith⟩
    refine ⟨fun s hs => ⟨fun i hi => ?_, ?_⟩, fun row => ?_⟩
    · obtain ⟨hrows, hused⟩ := h.toSetup.shapes_step hp' hF hs
      have hi' : i < (um.Smat s).rows := by omega
      rw [hw]
      exact (weight_mem ((hS s hs).2.2 hp) hi' fun r hr hne => hal s hs r (hused i hi' r hr hne)).1
    · rw [← (h.toSetup.shapes_step hp' hF hs).1]
      simp only [hw]
      exact sum_weights ((hS s hs).2.2 hp) (hS s hs).1 _
    · unfold UserModel.stageRhs
      rw [hp', hFs]
      have : wgt o um env k e j
          = fun s i => regionWeight (um.Smat s) i fun r => env (.st2 .alpha k e j s r) := by
        funext s i; exact hw s i
      rw [this]
      rfl

theorem ExactPoint.weights (h : SetupEx colloc o um uo po m oc P) (D : ExactPoint o po m P env)
    (hF : um.F.isSome = true) (hS : SignsOk o um) {k e : Nat} (hk : HasFE po k e) {j : Nat}
    (hj : j < o.nS) :
    (∀ s < um.nSys, (∀ i < (um.Fmat s).nCols, 0 ≤ wgt o um env k e j s i) ∧
        ∑ i ∈ Finset.range (um.Fmat s).nCols, wgt o um env k e j s i = 1) ∧
      ∀ row, um.stageRhs po m.dims k e j row env = um.rhsStewart row (xVal po m.dims k e j env)
        (zVal m.dims k e j env) (uVal m.dims k env) (pVal m.dims k env) (vVal m.dims env)
        (wgt o um env k e j) :=
  weights_of_nonneg h D.feas (fun q hq =>
    (stage_pairs h D.mode D.feas D.sigma D.slack D.lam00 hk hj hq).1) hF hS hk hj

/-- The multipliers at the last point of an element are nonnegative. -/
theorem ExactPoint.last_nonneg (D : ExactPoint o po m P env) (h : SetupEx colloc o um uo po m oc P)
    {k e : Nat} (hk : HasFE po k e) {q : Pair} (hq : IsPair po m.dims q) :
    0 ≤ lamAt k e (lastLam po k e) env q := by
  have e1 : po.nS = o.nS := h.e_nS
  have hn := h.nS
  by_cases hl : po.rbe = true ∨ e + 1 = nfe po k
  · rw [lastLam_stage hl, e1]
    exact (stage_pairs h D.mode D.feas D.sigma D.slack D.lam00 hk (by omega) hq).2.1
  · have h2 : HasFE po k (e + 1) := by
      refine ⟨hk.1, ?_⟩
      have := hk.2
      have : e + 1 ≠ nfe po k := fun h => hl (.inr h)
      omega
    have := D.start_nonneg h h2 hq
    rwa [prevFe_lamStart (k := k) (e := e) (by simp [prevFe])] at this

theorem startVal_prev {k e k' e' : Nat} (hn : prevFe po k e = some (k', e')) :
    startVal po m.dims k e env = xEndVal po m.dims k' e' env := by
  unfold prevFe at hn
  unfold startVal
  split at hn
  · cases hn; rw [if_pos ‹_›]
  · rw [if_neg ‹_›]
    split at hn
    · cases hn; rw [if_pos ‹_›]
    · cases hn

theorem startVal_first {k e : Nat} (hn : prevFe po k e = none) :
    startVal po m.dims k e env = (List.range m.dims.nX).map fun i => env (.x0 i) := by
  unfold prevFe at hn
  unfold startVal
  split at hn
  · cases hn
  · rw [if_neg ‹_›]
    split at hn
    · cases hn
    · rw [if_neg ‹_›]

theorem prev_hasFE (h : Setup colloc o um uo po m oc P) {k e k' e' : Nat} (hk : HasFE po k e)
    (hn : prevFe po k e = some (k', e')) : HasFE po k' e' := by
  unfold prevFe at hn
  split at hn
  · cases hn; exact ⟨hk.1, by have := hk.2; omega⟩
  · split at hn
    · cases hn
      have := hk.1
      exact ⟨by omega, by have := h.nfe_pos (k - 1) (by omega); omega⟩
    · cases hn

theorem zVal_nil (hz : m.dims.nZ = 0) (k e j : Nat) : zVal m.dims k e j env = [] := by
  unfold zVal; rw [hz]; rfl

/-- At both ends of an element, the multipliers `L` of the pairs solve the switching equations. -/
def SwitchAt (um : UserModel) (po : PreOpts) (x p : List ℝ) (L : Pair → ℝ) : Prop :=
  match po.pss with
  | .stewart => ∀ s < um.nSys, ∃ mu, ∀ i < (um.Fmat s).nCols,
      um.gVal s i x [] p = L (.region s i) - mu
  | .step => ∀ s < um.nSys, ∀ i < (um.cVec s).len,
      (um.cVec s).entry i x [] p = L (.pos s i) - L (.neg s i)

theorem switch_end (h : SetupEx colloc o um uo po m oc P) (hu : o.useFesd = true)
    (hf : P.form.Feasible env)
    (hz : m.dims.nZ = 0) {k e : Nat} (hk : HasFE po k e) :
    SwitchAt um po (xEndVal po m.dims k e env) (pVal m.dims k env)
      (lamAt k e (lastLam po k e) env) := by
  have sw := switching_end h hu hf hk
  rw [zVal_nil hz] at sw
  unfold UserModel.Switching at sw
  unfold SwitchAt
  cases hp : po.pss with
  | stewart => rw [hp] at sw; exact fun s hs => ⟨_, fun i hi => sw s hs i hi⟩
  | step => rw [hp] at sw; exact fun s hs i hi => sw s hs i hi

theorem switch_start (h : SetupEx colloc o um uo po m oc P) (hu : o.useFesd = true)
    (hf : P.form.Feasible env)
    (hz : m.dims.nZ = 0) (h0 : um.InitialMultipliers po m.dims env) {k e : Nat} (hk : HasFE po k e) :
    ∃ k' < po.nStages, SwitchAt um po (startVal po m.dims k e env) (pVal m.dims k' env)
      (lamStart po k e env) := by
  cases hn : prevFe po k e with
  | none =>
    refine ⟨0, by have := hk.1; omega, ?_⟩
    rw [startVal_first hn]
    have : lamStart po k e env = lam00At env := by
      funext q; unfold lamStart; rw [hn]
    rw [this]
    unfold UserModel.InitialMultipliers at h0
    unfold SwitchAt
    cases hp : po.pss with
    | stewart => rw [hp] at h0; exact h0
    | step => rw [hp] at h0; exact h0
  | some q =>
    obtain ⟨k', e'⟩ := q
    have hk' := prev_hasFE h.toSetup hk hn
    refine ⟨k', hk'.1, ?_⟩
    rw [startVal_prev hn]
    have : lamStart po k e env = lamAt k' e' (lastLam po k' e') env := by
      funext q; exact prevFe_lamStart hn q
    rw [this]
    exact switch_end h hu hf hz hk'

theorem ExactPoint.switch_end (D : ExactPoint o po m P env) (h : SetupEx colloc o um uo po m oc P)
    (hz : m.dims.nZ = 0) {k e : Nat} (hk : HasFE po k e) :
    SwitchAt um po (xEndVal po m.dims k e env) (pVal m.dims k env)
      (lamAt k e (lastLam po k e) env) :=
  Nosnoc.switch_end h D.fesd D.feas hz hk

theorem ExactPoint.switch_start (D : ExactPoint o po m P env) (h : SetupEx colloc o um uo po m oc P)
    (hz : m.dims.nZ = 0) (h0 : um.InitialMultipliers po m.dims env) {k e : Nat} (hk : HasFE po k e) :
    ∃ k' < po.nStages, SwitchAt um po (startVal po m.dims k e env) (pVal m.dims k' env)
      (lamStart po k e env) :=
  Nosnoc.switch_start h D.fesd D.feas hz h0 hk

/-- A region with positive weight whose multipliers vanish contains the point in its closure. -/
theorem SwitchAt.closed (h : SetupEx colloc o um uo po m oc P) (hF : um.F.isSome = true)
    (hS : SignsOk o um) {x p : List ℝ} {L : Pair → ℝ} (hsw : SwitchAt um po x p L)
    (nn : ∀ q, IsPair po m.dims q → 0 ≤ L q) {k e j : Nat}
    (hz : ∀ q, IsPair po m.dims q → thetaAt k e j env q ≠ 0 → L q = 0)
    {s : Nat} (hs : s < um.nSys) {i : Nat} (hi : i < (um.Fmat s).nCols)
    (hw : wgt o um env k e j s i ≠ 0) : um.InClosedRegion s i x p := by
  obtain ⟨-, -, -, -, -, -, d1, d2, d3⟩ := h.toSetup.dims
  cases hp : o.pss with
  | stewart =>
    have hp' := h.e_pss.trans hp
    obtain ⟨hP, hD, -⟩ := hS s hs
    obtain ⟨hg, hD⟩ := hD hp
    have hrows := (h.toSetup.shapes_stewart hp' hg hs).1
    unfold SwitchAt at hsw
    rw [hp'] at hsw
    obtain ⟨mu, hmu⟩ := hsw s hs
    have pair : ∀ i < (um.Fmat s).nCols, IsPair po m.dims (.region s i) := fun i hi =>
      ⟨hp', by omega, by rw [d2 hp' s hs]; exact hi⟩
    have h0 : L (.region s i) = 0 := hz _ (pair i hi) (by unfold wgt at hw; rw [hp] at hw; exact hw)
    intro n hn
    refine SMat.closed_of_min hD hP (c := fun n => (um.cVec s).entry n x [] p) (by omega) ?_ hn
    intro r hr
    have a := hmu i hi
    have b := hmu r (by omega)
    have c := nn _ (pair r (by omega))
    unfold UserModel.gVal at a b
    rw [hg] at a b
    simp only [Bool.false_eq_true, if_false] at a b
    rw [a, b, h0]
    linarith
  | step =>
    have hp' := h.e_pss.trans hp
    obtain ⟨hrows, hused⟩ := h.toSetup.shapes_step hp' hF hs
    have hi' : i < (um.Smat s).rows := by omega
    unfold SwitchAt at hsw
    rw [hp'] at hsw
    intro n hn
    rcases (hS s hs).2.2 hp i hi' n hn with hs1 | hs1 | hs1
    · have hne : (um.Smat s).entry i n ≠ 0 := by rw [hs1]; norm_num
      have hc := hused i hi' n hn hne
      have fac : (1 - (um.Smat s).entry i n) / 2 + (um.Smat s).entry i n * env (.st2 .alpha k e j s n)
          ≠ 0 := by
        intro h0
        apply hw
        unfold wgt; rw [hp]
        exact Finset.prod_eq_zero (Finset.mem_filter.2 ⟨Finset.mem_range.2 hn, hne⟩) h0
      have := hz (.pos s n) ⟨hp', by omega, by rw [d3 hp' s hs]; exact hc⟩
        (by unfold thetaAt; intro h0; apply fac; rw [hs1]; linarith)
      have n1 := nn (.neg s n) ⟨hp', by omega, by rw [d3 hp' s hs]; exact hc⟩
      rw [hsw s hs n hc, hs1, this]
      linarith
    · rw [hs1, zero_mul]
    · have hne : (um.Smat s).entry i n ≠ 0 := by rw [hs1]; norm_num
      have hc := hused i hi' n hn hne
      have fac : (1 - (um.Smat s).entry i n) / 2 + (um.Smat s).entry i n * env (.st2 .alpha k e j s n)
          ≠ 0 := by
        intro h0
        apply hw
        unfold wgt; rw [hp]
        exact Finset.prod_eq_zero (Finset.mem_filter.2 ⟨Finset.mem_range.2 hn, hne⟩) h0
      have := hz (.neg s n) ⟨hp', by omega, by rw [d3 hp' s hs]; exact hc⟩
        (by unfold thetaAt; intro h0; apply fac; rw [hs1]; simp only at h0; rw [h0]; norm_num)
      have n1 := nn (.pos s n) ⟨hp', by omega, by rw [d3 hp' s hs]; exact hc⟩
      rw [hsw s hs n hc, hs1, this]
      linarith

/-- A region used at some stage of an element contains the beginning and the end of the element in its
closure. -/
theorem ExactPoint.closed (D : ExactPoint o po m P env) (h : SetupEx colloc o um uo po m oc P)
    (hF : um.F.isSome = true) (hS : SignsOk o um) (hz : m.dims.nZ = 0)
    (h0 : um.InitialMultipliers po m.dims env) (hc : um.SameSwitching po m.dims env)
    {k e : Nat} (hk : HasFE po k e)
    (hr : po.rbe = true ∨ o.crossComp = .sumLambdas ∨ e + 1 = nfe po k) {j : Nat} (hj : j < o.nS)
    {s : Nat} (hs : s < um.nSys) {i : Nat} (hi : i < (um.Fmat s).nCols)
    (hw : wgt o um env k e j s i ≠ 0) :
    um.InClosedRegion s i (startVal po m.dims k e env) (pVal m.dims k env) ∧
    um.InClosedRegion s i (xEndVal po m.dims k e env) (pVal m.dims k env) := by
  constructor
  · obtain ⟨k', hk', hsw⟩ := D.switch_start h hz h0 hk
    have := SwitchAt.closed h hF hS hsw (fun q hq => D.start_nonneg h hk hq)
      (fun q hq hθ => (D.pair h hk hq hj hθ).2) hs hi hw
    intro n hn
    have := this n hn
    rw [hc k' hk' s hs, ← hc k hk.1 s hs] at this
    exact this
  · exact SwitchAt.closed h hF hS (D.switch_end h hz hk) (fun q hq => D.last_nonneg h hk hq)
      (fun q hq hθ => D.last h hk hq hj hr hθ) hs hi hw

/-! ### Weights of the scheme -/

theorem SchemeWeights.sum_pos (h : SetupEx colloc o um uo po m oc P) {b : Nat → ℝ}
    (hb : SchemeWeights colloc o b) : 0 < ∑ j ∈ Finset.range o.nS, b j := by
  by_cases hr : o.irkRep = .integral
  · have := hb.quad hr X (by rw [natDegree_X]; have := h.nS; omega)
    simp at this
    rw [← this]
    norm_num
  · obtain ⟨t, ht, -⟩ := h.toSetup.built.opts.diff hr
    have hp := (C20_valid ht).positive
    refine Finset.sum_pos (fun j hj => ?_) ⟨0, Finset.mem_range.2 h.nS⟩
    rw [hb.table hr t ht j (Finset.mem_range.1 hj)]
    exact_mod_cast hp j (Finset.mem_range.1 hj)

theorem SchemeWeights.step (h : SetupEx colloc o um uo po m oc P) (hf : P.form.Feasible env)
    {b : Nat → ℝ} (hb : SchemeWeights colloc o b)
    (hc : o.irkRep = .integral → CollocOk (colloc o.scheme o.nS) o.nS) {k e : Nat}
    (hk : HasFE po k e) {i : Nat} (hi : i < um.nX) :
    (xEndVal po m.dims k e env).getD i 0 = (startVal po m.dims k e env).getD i 0
      + hVal po k e env * ∑ j ∈ Finset.range o.nS,
          b j * (sotVal po k env * um.stageRhs po m.dims k e j i env) := by
  by_cases hr : o.irkRep = .integral
  · obtain ⟨p, hdeg, h0, h1, hs⟩ := C17_collocation h hf hr (hc hr) hk i hi
    have := hb.quad hr p hdeg
    rw [h0, h1] at this
    rw [sub_eq_iff_eq_add'.1 this, Finset.mul_sum]
    congr 1
    refine Finset.sum_congr rfl fun j hj => ?_
    rw [(hs j (Finset.mem_range.1 hj)).2]
    ring
  · obtain ⟨t, ht, hst⟩ := C17_runge_kutta h hf hr
    have hst := hst k e hk
    rw [hst.finish i hi]
    congr 2
    refine Finset.sum_congr rfl fun j hj => ?_
    rw [hb.table hr t ht j (Finset.mem_range.1 hj), hst.slope j (Finset.mem_range.1 hj) i hi]

/-- The convex multipliers of an element: the averages of those of its stages. -/
noncomputable def avgW (o : Opts) (um : UserModel) (env : Env) (b : Nat → ℝ) (k e s i : Nat) : ℝ :=
  (∑ j ∈ Finset.range o.nS, b j * wgt o um env k e j s i) / ∑ j ∈ Finset.range o.nS, b j

/-- On the segment between the two ends of an element, the slope belongs to the Filippov set. -/
theorem ExactPoint.segment (D : ExactPoint o po m P env) (h : SetupEx colloc o um uo po m oc P)
    (hF : um.F.isSome = true) (hS : SignsOk o um) (hpc : um.PiecewiseConstant)
    (h0 : um.InitialMultipliers po m.dims env) (hsame : um.SameSwitching po m.dims env)
    {b : Nat → ℝ} (hb : SchemeWeights colloc o b)
    (hc : o.irkRep = .integral → CollocOk (colloc o.scheme o.nS) o.nS) {k e : Nat}
    (hk : HasFE po k e) (hr : po.rbe = true ∨ o.crossComp = .sumLambdas ∨ e + 1 = nfe po k) :
    ∃ y : Nat → ℝ,
      (∀ i < um.nX, (xEndVal po m.dims k e env).getD i 0 = (startVal po m.dims k e env).getD i 0
        + hVal po k e env * ((∑ j ∈ Finset.range o.nS, b j) * sotVal po k env * y i)) ∧
      ∀ x : Nat → ℝ, ∀ r : ℝ, 0 ≤ r → r ≤ 1 →
        (∀ i < um.nX, x i = (1 - r) * (startVal po m.dims k e env).getD i 0
          + r * (xEndVal po m.dims k e env).getD i 0) →
        um.InFilippov ((List.range um.nX).map x) (uVal m.dims k env) (pVal m.dims k env)
          (vVal m.dims env) y := by
  have hz : m.dims.nZ = 0 := by rw [h.toSetup.dims.2.2.1, hpc.noZ]
  have hW := hb.sum_pos h
  refine ⟨fun row => ∑ s ∈ Finset.range um.nSys, ∑ i ∈ Finset.range (um.Fmat s).nCols,
      (um.Fmat s).entry row i [] [] (uVal m.dims k env) (pVal m.dims k env) (vVal m.dims env)
        * avgW o um env b k e s i, fun i hi => ?_, fun x r hr0 hr1 hx => ?_⟩
  · rw [hb.step h D.feas hc hk hi]
    congr 2
    have : ∀ j ∈ Finset.range o.nS, b j * (sotVal po k env * um.stageRhs po m.dims k e j i env)
        = ∑ s ∈ Finset.range um.nSys, ∑ i' ∈ Finset.range (um.Fmat s).nCols,
          sotVal po k env * ((um.Fmat s).entry i i' [] [] (uVal m.dims k env) (pVal m.dims k env)
            (vVal m.dims env) * (b j * wgt o um env k e j s i')) := by
      intro j hj
      rw [(D.weights h hF hS hk (Finset.mem_range.1 hj)).2 i, zVal_nil hz]
      unfold UserModel.rhsStewart
      rw [Finset.mul_sum, Finset.mul_sum]
      refine Finset.sum_congr rfl fun s hs => ?_
      rw [Finset.mul_sum, Finset.mul_sum]
      refine Finset.sum_congr rfl fun i' _ => ?_
      rw [hpc.F s (Finset.mem_range.1 hs) i i' (xVal po m.dims k e j env) []]
      ring
    rw [Finset.sum_congr rfl this, Finset.sum_comm, Finset.mul_sum]
    refine Finset.sum_congr rfl fun s _ => ?_
    rw [Finset.sum_comm, Finset.mul_sum]
    refine Finset.sum_congr rfl fun i' _ => ?_
    rw [← Finset.mul_sum, ← Finset.mul_sum]
    unfold avgW
    field_simp
  · refine ⟨avgW o um env b k e, fun s hs => ⟨fun i hi => ?_, ?_, fun i hi hne => ?_⟩,
      fun row _ => ?_⟩
    · refine div_nonneg (Finset.sum_nonneg fun j hj => mul_nonneg (hb.nonneg j (Finset.mem_range.1 hj))
        (((D.weights h hF hS hk (Finset.mem_range.1 hj)).1 s hs).1 i hi)) hW.le
    · unfold avgW
      rw [← Finset.sum_div, Finset.sum_comm]
      rw [div_eq_one_iff_eq hW.ne']
      refine Finset.sum_congr rfl fun j hj => ?_
      rw [← Finset.mul_sum, ((D.weights h hF hS hk (Finset.mem_range.1 hj)).1 s hs).2, mul_one]
    · have : ∃ j < o.nS, wgt o um env k e j s i ≠ 0 := by
        by_contra hn
        push Not at hn
        apply hne
        unfold avgW
        rw [Finset.sum_eq_zero, zero_div]
        intro j hj
        rw [hn j (Finset.mem_range.1 hj), mul_zero]
      obtain ⟨j, hj, hw⟩ := this
      obtain ⟨c1, c2⟩ := D.closed h hF hS hz h0 hsame hk hr hj hs hi hw
      intro n hn
      obtain ⟨a, b', hab⟩ := hpc.c s hs n hn (pVal m.dims k env)
      have k1 := c1 n hn
      have k2 := c2 n hn
      rw [hab] at k1 k2 ⊢
      have e1 : ∑ i ∈ Finset.range um.nX, a i * ((List.range um.nX).map x).getD i 0
          = (1 - r) * ∑ i ∈ Finset.range um.nX, a i * (startVal po m.dims k e env).getD i 0
            + r * ∑ i ∈ Finset.range um.nX, a i * (xEndVal po m.dims k e env).getD i 0 := by
        rw [Finset.mul_sum, Finset.mul_sum, ← Finset.sum_add_distrib]
        refine Finset.sum_congr rfl fun i hi => ?_
        have hi := Finset.mem_range.1 hi
        have : ((List.range um.nX).map x).getD i 0 = x i := by
          simp [List.getD_eq_getElem?_getD, hi]
        rw [this, hx i hi]
        ring
      rw [e1]
      have := add_nonneg (mul_nonneg (sub_nonneg.2 hr1) k1) (mul_nonneg hr0 k2)
      calc (0 : ℝ) ≤ _ := this
        _ = _ := by ring
    · refine Finset.sum_congr rfl fun s hs => Finset.sum_congr rfl fun i _ => ?_
      rw [hpc.F s (Finset.mem_range.1 hs) row i ((List.range um.nX).map x) []]

end

/-! ### Gluing the segments -/

section
variable (N : Nat) (nf : Nat → Nat) (hh : Nat → Nat → ℝ)

/-- Grid points. -/
noncomputable def gridT (k e : Nat) : ℝ :=
  ∑ k' ∈ Finset.range k, ∑ e' ∈ Finset.range (nf k'), hh k' e' + ∑ e' ∈ Finset.range e, hh k e'

/-- The continuous piecewise linear function with slope `d k e` on segment `(k, e)`. -/
noncomputable def polygon (x0 : ℝ) (d : Nat → Nat → ℝ) (t : ℝ) : ℝ :=
  x0 + ∑ k ∈ Finset.range N, ∑ e ∈ Finset.range (nf k),
    d k e * max 0 (min (t - gridT nf hh k e) (hh k e))

theorem polygon_continuous (x0 : ℝ) (d : Nat → Nat → ℝ) : Continuous (polygon N nf hh x0 d) := by
  unfold polygon
  refine continuous_const.add (continuous_finsetSum _ fun k _ => continuous_finsetSum _ fun e _ => ?_)
  exact continuous_const.mul (continuous_const.max ((continuous_id.sub continuous_const).min
    continuous_const))

variable {N nf hh} (hnn : ∀ k < N, ∀ e < nf k, 0 ≤ hh k e)
include hnn

theorem gridT_mono_stage {k k' : Nat} (hk : k' ≤ N) (hkk : k ≤ k') : gridT nf hh k 0 ≤ gridT nf hh k' 0 := by
  unfold gridT
  simp only [Finset.range_zero, Finset.sum_empty, add_zero]
  refine Finset.sum_le_sum_of_subset_of_nonneg (Finset.range_subset_range.2 hkk) fun i hi _ => ?_
  exact Finset.sum_nonneg fun e he => hnn i (by have := Finset.mem_range.1 hi; omega) e
    (Finset.mem_range.1 he)

theorem gridT_mono_elem {k e e' : Nat} (hk : k < N) (he : e' ≤ nf k) (hee : e ≤ e') :
    gridT nf hh k e ≤ gridT nf hh k e' := by
  unfold gridT
  refine add_le_add le_rfl ?_
  refine Finset.sum_le_sum_of_subset_of_nonneg (Finset.range_subset_range.2 hee) fun i hi _ => ?_
  exact hnn k hk i (by have := Finset.mem_range.1 hi; omega)

omit hnn in
theorem gridT_succ (k e : Nat) : gridT nf hh k (e + 1) = gridT nf hh k e + hh k e := by
  unfold gridT
  rw [Finset.sum_range_succ]; ring

omit hnn in
theorem gridT_stage (k : Nat) : gridT nf hh (k + 1) 0 = gridT nf hh k (nf k) := by
  unfold gridT
  rw [Finset.sum_range_succ]; simp

theorem polygon_segment (x0 : ℝ) (d : Nat → Nat → ℝ) {k e : Nat} (hk : k < N) (he : e < nf k) {t : ℝ}
    (h1 : gridT nf hh k e ≤ t) (h2 : t ≤ gridT nf hh k e + hh k e) :
    polygon N nf hh x0 d t = x0
      + (∑ k' ∈ Finset.range k, ∑ e' ∈ Finset.range (nf k'), d k' e' * hh k' e'
        + ∑ e' ∈ Finset.range e, d k e' * hh k e') + d k e * (t - gridT nf hh k e) := by
  have full : ∀ k' e', k' < N → e' < nf k' → gridT nf hh k' (e' + 1) ≤ t →
      max 0 (min (t - gridT nf hh k' e') (hh k' e')) = hh k' e' := by
    intro k' e' hk' he' ht
    rw [gridT_succ] at ht
    rw [min_eq_right (by linarith), max_eq_right (hnn k' hk' e' he')]
  have none : ∀ k' e', t ≤ gridT nf hh k' e' →
      max 0 (min (t - gridT nf hh k' e') (hh k' e')) = 0 := by
    intro k' e' ht
    exact max_eq_left ((min_le_left _ _).trans (by linarith))
  unfold polygon
  have later : ∀ k' ∈ Finset.range N, k' ∉ Finset.range (k + 1) →
      ∑ e' ∈ Finset.range (nf k'), d k' e' * max 0 (min (t - gridT nf hh k' e') (hh k' e')) = 0 := by
    intro k' hk' hk2
    have hk' := Finset.mem_range.1 hk'
    have hk2 : k + 1 ≤ k' := by simpa using hk2
    refine Finset.sum_eq_zero fun e' he' => ?_
    have he' := Finset.mem_range.1 he'
    rw [none k' e', mul_zero]
    calc t ≤ gridT nf hh k (e + 1) := by rw [gridT_succ]; exact h2
      _ ≤ gridT nf hh k (nf k) := gridT_mono_elem hnn hk le_rfl he
      _ = gridT nf hh (k + 1) 0 := (gridT_stage k).symm
      _ ≤ gridT nf hh k' 0 := gridT_mono_stage hnn hk'.le hk2
      _ ≤ gridT nf hh k' e' := gridT_mono_elem hnn hk' he'.le (Nat.zero_le _)
  rw [← Finset.sum_subset (Finset.range_subset_range.2 (show k + 1 ≤ N by omega)) later,
    Finset.sum_range_succ]
  have laterE : ∀ e' ∈ Finset.range (nf k), e' ∉ Finset.range (e + 1) →
      d k e' * max 0 (min (t - gridT nf hh k e') (hh k e')) = 0 := by
    intro e' he' he2
    have he' := Finset.mem_range.1 he'
    have he2 : e + 1 ≤ e' := by simpa using he2
    rw [none k e', mul_zero]
    calc t ≤ gridT nf hh k (e + 1) := by rw [gridT_succ]; exact h2
      _ ≤ gridT nf hh k e' := gridT_mono_elem hnn hk he'.le he2
  rw [← Finset.sum_subset (Finset.range_subset_range.2 (show e + 1 ≤ nf k by omega)) laterE,
    Finset.sum_range_succ]
  have own : max 0 (min (t - gridT nf hh k e) (hh k e)) = t - gridT nf hh k e := by
    rw [min_eq_left (by linarith), max_eq_right (by linarith)]
  rw [own]
  have early : ∑ k' ∈ Finset.range k, ∑ e' ∈ Finset.range (nf k'),
        d k' e' * max 0 (min (t - gridT nf hh k' e') (hh k' e'))
      = ∑ k' ∈ Finset.range k, ∑ e' ∈ Finset.range (nf k'), d k' e' * hh k' e' := by
    refine Finset.sum_congr rfl fun k' hk' => Finset.sum_congr rfl fun e' he' => ?_
    have hk' := Finset.mem_range.1 hk'
    have he' := Finset.mem_range.1 he'
    rw [full k' e' (by omega) he']
    calc gridT nf hh k' (e' + 1) ≤ gridT nf hh k' (nf k') := gridT_mono_elem hnn (by omega) le_rfl he'
      _ = gridT nf hh (k' + 1) 0 := (gridT_stage k').symm
      _ ≤ gridT nf hh k 0 := gridT_mono_stage hnn hk.le hk'
      _ ≤ gridT nf hh k e := gridT_mono_elem hnn hk he.le (Nat.zero_le _)
      _ ≤ t := h1
  have earlyE : ∑ e' ∈ Finset.range e, d k e' * max 0 (min (t - gridT nf hh k e') (hh k e'))
      = ∑ e' ∈ Finset.range e, d k e' * hh k e' := by
    refine Finset.sum_congr rfl fun e' he' => ?_
    have he' := Finset.mem_range.1 he'
    rw [full k e' hk (by omega)]
    exact (gridT_mono_elem hnn hk he.le he').trans h1
  rw [early, earlyE]
  ring

theorem polygon_deriv (x0 : ℝ) (d : Nat → Nat → ℝ) {k e : Nat} (hk : k < N) (he : e < nf k) {t : ℝ}
    (h1 : gridT nf hh k e < t) (h2 : t < gridT nf hh k e + hh k e) :
    HasDerivAt (polygon N nf hh x0 d) (d k e) t := by
  have ev : polygon N nf hh x0 d =ᶠ[nhds t] fun t => x0
      + (∑ k' ∈ Finset.range k, ∑ e' ∈ Finset.range (nf k'), d k' e' * hh k' e'
        + ∑ e' ∈ Finset.range e, d k e' * hh k e') + d k e * (t - gridT nf hh k e) := by
    filter_upwards [Ioo_mem_nhds h1 h2] with y hy
    exact polygon_segment hnn x0 d hk he hy.1.le hy.2.le
  refine HasDerivAt.congr_of_eventuallyEq ?_ ev
  have := (((hasDerivAt_id t).sub_const (gridT nf hh k e)).const_mul (d k e)).const_add (x0
      + (∑ k' ∈ Finset.range k, ∑ e' ∈ Finset.range (nf k'), d k' e' * hh k' e'
        + ∑ e' ∈ Finset.range e, d k e' * hh k e'))
  simpa using this

end

section
variable {colloc : IrkScheme → Nat → List ℝ} {o : Opts} {um : UserModel} {uo : Option UserOcp}
  {po : PreOpts} {m : PreModel} {oc : PreOcp} {P : Problem} {env : Env}

/-- The state at the beginning of an element is the initial state plus the increments of all earlier
elements. -/
theorem startVal_telescope (h : Setup colloc o um uo po m oc P) (δ : Nat → Nat → ℝ) {i : Nat}
    (hi : i < m.dims.nX)
    (hδ : ∀ k e, HasFE po k e → (xEndVal po m.dims k e env).getD i 0
      = (startVal po m.dims k e env).getD i 0 + δ k e) :
    ∀ k < po.nStages, ∀ e < nfe po k, (startVal po m.dims k e env).getD i 0 = env (.x0 i)
      + (∑ k' ∈ Finset.range k, ∑ e' ∈ Finset.range (nfe po k'), δ k' e'
        + ∑ e' ∈ Finset.range e, δ k e') := by
  have inE : ∀ k < po.nStages, ∀ a, (startVal po m.dims k 0 env).getD i 0 = a →
      ∀ e < nfe po k, (startVal po m.dims k e env).getD i 0
        = a + ∑ e' ∈ Finset.range e, δ k e' := by
    intro k hk a ha e
    induction e with
    | zero => intro _; simpa using ha
    | succ e ih =>
      intro he
      rw [startVal_prev (k' := k) (e' := e) (by simp [prevFe]), hδ k e ⟨hk, by omega⟩,
        ih (by omega), Finset.sum_range_succ]
      ring
  have main : ∀ k < po.nStages, (startVal po m.dims k 0 env).getD i 0 = env (.x0 i)
      + ∑ k' ∈ Finset.range k, ∑ e' ∈ Finset.range (nfe po k'), δ k' e' := by
    intro k
    induction k with
    | zero =>
      intro _
      rw [startVal_first (by simp [prevFe])]
      simp [List.getD_eq_getElem?_getD, hi]
    | succ k ih =>
      intro hk
      have hp := h.nfe_pos k (by omega)
      rw [startVal_prev (k' := k) (e' := nfe po k - 1) (by simp [prevFe]),
        hδ k _ ⟨by omega, by omega⟩, inE k (by omega) _ (ih (by omega)) _ (by omega),
        Finset.sum_range_succ, add_assoc, add_assoc]
      congr 2
      have := Finset.sum_range_succ (δ k) (nfe po k - 1)
      rw [Nat.sub_add_cancel hp] at this
      exact this.symm
  intro k hk e he
  rw [inE k hk _ (main k hk) e he, add_assoc]

/-- C92: for a piecewise constant system, every feasible point of the FESD discretisation with exact
complementarity is an exact solution of the differential inclusion: there is a continuous trajectory that
starts at the initial state, passes through the end state of every finite element at the time the
grid says, and whose derivative inside every element is in the Filippov set (times the speed of time,
and times the sum `W` of the weights of the scheme: see `C92_weights`). -/
theorem C92_exact (h : SetupEx colloc o um uo po m oc P) (D : ExactPoint o po m P env)
    (hF : um.F.isSome = true) (hS : SignsOk o um) (hpc : um.PiecewiseConstant)
    (h0 : um.InitialMultipliers po m.dims env) (hsame : um.SameSwitching po m.dims env)
    {b : Nat → ℝ} (hb : SchemeWeights colloc o b)
    (hc : o.irkRep = .integral → CollocOk (colloc o.scheme o.nS) o.nS)
    (hr : po.rbe = true ∨ o.crossComp = .sumLambdas)
    (hh : ∀ k e, HasFE po k e → 0 ≤ hVal po k e env) :
    ∃ x : ℝ → Nat → ℝ,
      (∀ i, Continuous fun t => x t i) ∧
      (∀ i < um.nX, x 0 i = env (.x0 i)) ∧
      ∀ k e, HasFE po k e →
        (∀ i < um.nX, x (tStart po env k e + hVal po k e env) i
          = (xEndVal po m.dims k e env).getD i 0) ∧
        ∀ t, tStart po env k e < t → t < tStart po env k e + hVal po k e env →
          ∃ y : Nat → ℝ,
            um.InFilippov ((List.range um.nX).map (x t)) (uVal m.dims k env) (pVal m.dims k env)
              (vVal m.dims env) y ∧
            ∀ i < um.nX, HasDerivAt (fun t => x t i)
              ((∑ j ∈ Finset.range o.nS, b j) * sotVal po k env * y i) t := by
  classical
  have dX := h.toSetup.dims.1
  have seg : ∀ k e, ∃ y : Nat → ℝ, HasFE po k e →
      (∀ i < um.nX, (xEndVal po m.dims k e env).getD i 0 = (startVal po m.dims k e env).getD i 0
        + hVal po k e env * ((∑ j ∈ Finset.range o.nS, b j) * sotVal po k env * y i)) ∧
      ∀ x : Nat → ℝ, ∀ r : ℝ, 0 ≤ r → r ≤ 1 →
        (∀ i < um.nX, x i = (1 - r) * (startVal po m.dims k e env).getD i 0
          + r * (xEndVal po m.dims k e env).getD i 0) →
        um.InFilippov ((List.range um.nX).map x) (uVal m.dims k env) (pVal m.dims k env)
          (vVal m.dims env) y := by
    intro k e
    by_cases hk : HasFE po k e
    · obtain ⟨y, hy⟩ := D.segment h hF hS hpc h0 hsame hb hc hk (hr.imp_right .inl)
      exact ⟨y, fun _ => hy⟩
    · exact ⟨fun _ => 0, fun hk' => absurd hk' hk⟩
  choose y hy using seg
  set W := ∑ j ∈ Finset.range o.nS, b j with hW
  let d : Nat → Nat → Nat → ℝ := fun i k e => W * sotVal po k env * y k e i
  let H : Nat → Nat → ℝ := fun k e => hVal po k e env
  have hnn : ∀ k < po.nStages, ∀ e < nfe po k, 0 ≤ H k e := fun k hk e he => hh k e ⟨hk, he⟩
  have hT : ∀ k e, gridT (nfe po) H k e = tStart po env k e := fun k e => rfl
  have tele : ∀ i < um.nX, ∀ k e, HasFE po k e → (startVal po m.dims k e env).getD i 0
      = env (.x0 i) + (∑ k' ∈ Finset.range k, ∑ e' ∈ Finset.range (nfe po k'), d i k' e' * H k' e'
        + ∑ e' ∈ Finset.range e, d i k e' * H k e') := by
    intro i hi k e hk
    refine startVal_telescope h.toSetup (fun k e => d i k e * H k e) (by omega) (fun k e hk => ?_)
      k hk.1 e hk.2
    rw [(hy k e hk).1 i hi]
    simp only [d, H]
    ring
  have hseg : ∀ i < um.nX, ∀ k e, HasFE po k e → ∀ t, tStart po env k e ≤ t →
      t ≤ tStart po env k e + hVal po k e env →
      polygon po.nStages (nfe po) H (env (.x0 i)) (d i) t
        = (startVal po m.dims k e env).getD i 0 + d i k e * (t - tStart po env k e) := by
    intro i hi k e hk t h1 h2
    rw [polygon_segment hnn _ _ hk.1 hk.2 (by rw [hT]; exact h1) (by rw [hT]; exact h2), hT,
      tele i hi k e hk]
  refine ⟨fun t i => polygon po.nStages (nfe po) H (env (.x0 i)) (d i) t,
    fun i => polygon_continuous _ _ _ _ _, fun i hi => ?_, fun k e hk => ⟨fun i hi => ?_,
    fun t h1 h2 => ⟨y k e, ?_, fun i hi => ?_⟩⟩⟩
  · have : ∀ t ≤ 0, polygon po.nStages (nfe po) H (env (.x0 i)) (d i) t = env (.x0 i) := by
      intro t ht
      unfold polygon
      rw [Finset.sum_eq_zero, add_zero]
      intro k hk
      refine Finset.sum_eq_zero fun e he => ?_
      have hk := Finset.mem_range.1 hk
      have he := Finset.mem_range.1 he
      have : 0 ≤ gridT (nfe po) H k e :=
        calc (0 : ℝ) = gridT (nfe po) H 0 0 := by simp [gridT]
          _ ≤ gridT (nfe po) H k 0 := gridT_mono_stage hnn hk.le (Nat.zero_le _)
          _ ≤ _ := gridT_mono_elem hnn hk he.le (Nat.zero_le _)
      rw [max_eq_left ((min_le_left _ _).trans (by linarith)), mul_zero]
    exact this 0 le_rfl
  · beta_reduce
    rw [hseg i hi k e hk _ (le_add_of_nonneg_right (hh k e hk)) le_rfl, (hy k e hk).1 i hi]
    simp only [d]
    ring
  · have hpos : 0 < hVal po k e env := by linarith
    refine (hy k e hk).2 (fun i => polygon po.nStages (nfe po) H (env (.x0 i)) (d i) t)
      ((t - tStart po env k e) / hVal po k e env) (div_nonneg (by linarith) hpos.le)
      ((div_le_one hpos).2 (by linarith)) fun i hi => ?_
    rw [hseg i hi k e hk t h1.le h2.le, (hy k e hk).1 i hi]
    simp only [d]
    field_simp
    ring
  · exact polygon_deriv hnn _ _ hk.1 hk.2 (by rw [hT]; exact h1) (by rw [hT]; exact h2)

/-- C92: the factor `W` is 1 for INTEGRAL, and 1 up to the rounding of the tables otherwise. -/
theorem C92_weights (h : SetupEx colloc o um uo po m oc P) {b : Nat → ℝ}
    (hb : SchemeWeights colloc o b) :
    (o.irkRep = .integral → ∑ j ∈ Finset.range o.nS, b j = 1) ∧
    |∑ j ∈ Finset.range o.nS, b j - 1| ≤ 1 / 10 ^ 11 := by
  have key : o.irkRep = .integral → ∑ j ∈ Finset.range o.nS, b j = 1 := by
    intro hr
    have := hb.quad hr X (by rw [natDegree_X]; have := h.nS; omega)
    simpa using this.symm
  refine ⟨key, ?_⟩
  by_cases hr : o.irkRep = .integral
  · rw [key hr]; norm_num
  · obtain ⟨t, ht, -⟩ := h.toSetup.built.opts.diff hr
    have hn := h.nS
    have ho : 0 < t.order := by
      rw [C20_order ht]
      unfold schemeOrder
      split <;> omega
    have hq := (C20_valid ht).quadrature 0 ho
    have e1 : ∑ j ∈ Finset.range o.nS, b j = ((∑ j ∈ Finset.range o.nS, t.w j : ℚ) : ℝ) := by
      rw [Rat.cast_sum]
      exact Finset.sum_congr rfl fun j hj => hb.table hr t ht j (Finset.mem_range.1 hj)
    have e2 : |∑ j ∈ Finset.range o.nS, t.w j - 1| ≤ 1 / 10 ^ 11 := by
      simpa [tabTol] using hq
    have e3 : ((|∑ j ∈ Finset.range o.nS, t.w j - 1| : ℚ) : ℝ) ≤ ((1 / 10 ^ 11 : ℚ) : ℝ) :=
      Rat.cast_le.2 e2
    rw [Rat.cast_abs] at e3
    rw [e1]
    push_cast at e3 ⊢
    exact e3

/-- C92: the weights of the differential representations are those of the tables. -/
theorem schemeWeights_table (h : SetupEx colloc o um uo po m oc P) (hr : o.irkRep ≠ .integral) :
    ∃ b, SchemeWeights colloc o b := by
  obtain ⟨t, ht, -⟩ := h.toSetup.built.opts.diff hr
  refine ⟨fun j => ((t.w j : ℚ) : ℝ), ⟨fun j hj => ?_, fun _ t' ht' j _ => ?_, fun hc => absurd hc hr⟩⟩
  · exact_mod_cast ((C20_valid ht).positive j hj).le
  · rw [ht] at ht'; cases ht'; rfl

end
end Nosnoc
