import Verif.Spec.Relax
import Verif.Props.Exactness
import Verif.Props.Cross
import Verif.Props.Complete
import Verif.Props.Nested
/-
C97: the complementarity residual bounds how far the velocity deviates from the vector field of the region
the state lies in.
-/
namespace Nosnoc

section
variable {colloc : IrkScheme → Nat → List ℝ} {o : Opts} {um : UserModel} {uo : Option UserOcp}
  {po : PreOpts} {m : PreModel} {oc : PreOcp} {P : Problem} {env : Env} {ε δ : ℝ}

/-! ### Algebra -/

theorem fb_relaxed {a b σ : ℝ} (h : fischerBurmeister a b σ = 0) :
    0 ≤ a ∧ 0 ≤ b ∧ a * b = σ ^ 2 / 2 := by
  unfold fischerBurmeister at h
  have h1 : a + b = Real.sqrt (a ^ 2 + b ^ 2 + σ ^ 2) := by linarith
  have h0 : 0 ≤ a + b := h1 ▸ Real.sqrt_nonneg _
  have h2 : (a + b) ^ 2 = a ^ 2 + b ^ 2 + σ ^ 2 := by
    rw [h1]; exact Real.sq_sqrt (by positivity)
  have h3 : a * b = σ ^ 2 / 2 := by nlinarith
  have h4 : 0 ≤ a * b := by rw [h3]; positivity
  refine ⟨?_, ?_, h3⟩
  · by_contra hc
    have : 0 < b := by linarith
    nlinarith
  · by_contra hc
    have : 0 < a := by linarith
    nlinarith

/-- Products of numbers close to 1. -/
theorem one_sub_sum_le_prod {ι : Type*} (T : Finset ι) {f : ι → ℝ} (h0 : ∀ i ∈ T, 0 ≤ f i)
    (h1 : ∀ i ∈ T, f i ≤ 1) : 1 - ∑ i ∈ T, (1 - f i) ≤ ∏ i ∈ T, f i := by
  classical
  induction T using Finset.induction_on with
  | empty => simp
  | insert a T ha ih =>
    rw [Finset.sum_insert ha, Finset.prod_insert ha]
    have i1 := ih (fun i hi => h0 i (Finset.mem_insert_of_mem hi))
      fun i hi => h1 i (Finset.mem_insert_of_mem hi)
    have a0 := h0 a (Finset.mem_insert_self _ _)
    have a1 := h1 a (Finset.mem_insert_self _ _)
    have s0 : 0 ≤ ∑ i ∈ T, (1 - f i) :=
      Finset.sum_nonneg fun i hi => by linarith [h1 i (Finset.mem_insert_of_mem hi)]
    nlinarith

/-- The gap between the values of `-S c` in two regions. -/
theorem stewart_gap {S : SMat} (hS : S.IsDense) {c : Nat → ℝ} {i r : Nat} (hi : i < S.rows)
    (hr : r < S.rows) (hne : r ≠ i) (hδ : 0 < δ) (hd : ∀ n < S.cols, δ ≤ S.entry i n * c n) :
    2 * δ ≤ (-∑ n ∈ Finset.range S.cols, S.entry r n * c n)
      - -∑ n ∈ Finset.range S.cols, S.entry i n * c n := by
  have : (-∑ n ∈ Finset.range S.cols, S.entry r n * c n)
      - -∑ n ∈ Finset.range S.cols, S.entry i n * c n
      = ∑ n ∈ Finset.range S.cols, (S.entry i n * c n - S.entry r n * c n) := by
    rw [Finset.sum_sub_distrib]; ring
  rw [this]
  have nn : ∀ n < S.cols, 0 ≤ S.entry i n * c n - S.entry r n * c n := by
    intro n hn
    have := hd n hn
    rcases hS.1 i hi n hn with h1 | h1 <;> rcases hS.1 r hr n hn with h2 | h2 <;>
      rw [h1] at this <;> rw [h1, h2] <;> linarith
  obtain ⟨n, hn, hd'⟩ := hS.2 r hr i hi hne
  refine le_trans ?_ (Finset.single_le_sum (f := fun n => S.entry i n * c n - S.entry r n * c n)
    (fun n hn => nn n (Finset.mem_range.1 hn)) (Finset.mem_range.2 hn))
  have := hd n hn
  rcases hS.1 i hi n hn with h1 | h1 <;> rcases hS.1 r hr n hn with h2 | h2 <;>
    rw [h1] at this <;> simp only [h1, h2] at hd' ⊢ <;> first | linarith | exact absurd rfl hd'

/-! ### Points of the relaxed problems -/

/-- A feasible point of a relaxed problem whose initial multipliers are nonnegative. -/
structure RelaxedPoint (o : Opts) (po : PreOpts) (m : PreModel) (P : Problem) (env : Env) : Prop where
  mode : ExactMode o
  feas : P.form.Feasible env
  lam00 : ∀ q, IsPair po m.dims q → 0 ≤ lam00At env q

theorem ExactPoint.relaxed (D : ExactPoint o po m P env) : RelaxedPoint o po m P env :=
  ⟨D.mode, D.feas, D.lam00⟩

theorem RelaxedPoint.pair (D : RelaxedPoint o po m P env) (h : SetupEx colloc o um uo po m oc P)
    {k e : Nat} (hk : HasFE po k e) {q : Pair} (hq : IsPair po m.dims q) {j : Nat} (hj : j < o.nS) :
    0 ≤ thetaAt k e j env q ∧ 0 ≤ lamAt k e j env q ∧
      thetaAt k e j env q * lamAt k e j env q ≤ relaxTol o env ∧
      (o.useFesd = true → (0 ≤ lamStart po k e env q ∧
        thetaAt k e j env q * lamStart po k e env q ≤ relaxTol o env) ∧
        ∀ j' < o.nS, 0 ≤ lamAt k e j' env q ∧
          thetaAt k e j env q * lamAt k e j' env q ≤ relaxTol o env) := by
  have e1 : po.nS = o.nS := h.e_nS
  have e2 : po.useFesd = o.useFesd := h.e_useFesd
  have e3 : po.toOpts.mpcc = o.mpcc := h.e_mpcc
  have e4 : po.crossComp = o.crossComp := h.e_crossComp
  have hsp := h.spec D.feas
  have hj' : j < po.nS := e1 ▸ hj
  have hn : 0 < po.nS := e1 ▸ h.nS
  rcases D.mode with hm | ⟨hm, hc⟩
  · have hm' : SignedMode po.mpcc := by rw [e3]; exact hm
    have t := thetaAt_nonneg hm' hsp.bounds hk hj' hq
    have lall : ∀ j' < nLamPts po k e, 0 ≤ lamAt k e j' env q := fun j' hj' =>
      lamAt_nonneg hm' hsp.bounds hk hj' hq
    have l : ∀ j' < o.nS, 0 ≤ lamAt k e j' env q := fun j' hj' =>
      lall j' (by unfold nLamPts; omega)
    have l0 := lamStart_nonneg hm' hn h.toSetup.nfe_pos hsp.bounds D.lam00 hk hq
    -- the relation of the mode
    have rel : ∀ xs y, Compl po env xs y → xs.sum * y ≤ relaxTol o env := by
      intro xs y hc
      unfold Compl CompSat at hc
      unfold relaxTol
      rw [e3] at hc
      rcases hm with hm | hm | hm | hm <;> rw [hm] at hc ⊢
      · exact hc.le
      · exact hc
      · exact hc
      · exact hc.le
    by_cases hu : o.useFesd = true
    · have key : thetaAt k e j env q * lamStart po k e env q ≤ relaxTol o env ∧
          ∀ j' < o.nS, thetaAt k e j env q * lamAt k e j' env q ≤ relaxTol o env := by
        cases hcc : po.crossComp with
        | complementAll =>
          obtain ⟨a, b⟩ := hsp.compAll (e2.trans hu) hcc k e hk j hj' q hq
          exact ⟨by simpa using rel _ _ a, fun j' hj' => by simpa using rel _ _ (b j' (e1 ▸ hj'))⟩
        | sumLambdas =>
          have a := rel _ _ (hsp.compSum (e2.trans hu) hcc k e hk j hj' q hq)
          rw [List.sum_append, List.sum_singleton] at a
          have ls : ∀ x ∈ (List.range (nLamPts po k e)).map (fun j' => lamAt k e j' env q), 0 ≤ x := by
            intro x hx
            obtain ⟨j', hj', rfl⟩ := List.mem_map.1 hx
            exact lall j' (List.mem_range.1 hj')
          have s0 := List.sum_nonneg ls
          refine ⟨?_, fun j' hj' => ?_⟩
          · nlinarith
          · have : lamAt k e j' env q ≤
                ((List.range (nLamPts po k e)).map (fun j' => lamAt k e j' env q)).sum :=
              List.single_le_sum ls _ (List.mem_map.2 ⟨j', List.mem_range.2 (by unfold nLamPts; omega), rfl⟩)
            nlinarith
      exact ⟨t, l j hj, key.2 j hj, fun _ => ⟨⟨l0, key.1⟩, fun j' hj' => ⟨l j' hj', key.2 j' hj'⟩⟩⟩
    · have a := rel _ _ (hsp.compStd (by rw [e2]; simpa using hu) k e hk j hj' q hq)
      refine ⟨t, l j hj, ?_, fun hu' => absurd hu' hu⟩
      rw [mul_comm]
      simpa using a
  · have rel : ∀ x y, Compl po env [x] y → 0 ≤ x ∧ 0 ≤ y ∧ x * y ≤ relaxTol o env := by
      intro x y hc
      unfold Compl CompSat at hc
      unfold relaxTol
      rw [e3] at hc
      have fb : fischerBurmeister x y (env .sigma) = 0 := by
        rcases hm with hm | hm <;> rw [hm] at hc
        · simpa using hc
        · simpa using hc.1
      obtain ⟨a, b, c⟩ := fb_relaxed fb
      refine ⟨a, b, ?_⟩
      rcases hm with hm | hm <;> rw [hm] <;> exact c.le
    by_cases hu : o.useFesd = true
    · obtain ⟨a, b⟩ := hsp.compAll (e2.trans hu) (e4.trans (hc hu)) k e hk j hj' q hq
      have a := rel _ _ a
      have b := fun j' hj' => rel _ _ (b j' hj')
      exact ⟨a.1, (b j hj').2.1, (b j hj').2.2, fun _ => ⟨a.2, fun j' hj' => (b j' (e1 ▸ hj')).2⟩⟩
    · have a := rel _ _ (hsp.compStd (by rw [e2]; simpa using hu) k e hk j hj' q hq)
      refine ⟨a.2.1, a.1, ?_, fun hu' => absurd hu' hu⟩
      rw [mul_comm]
      exact a.2.2

/-- C97: at a feasible point of a relaxed problem the complementarity residual is at most the relaxation
of the mode. -/
theorem C97_residual (D : RelaxedPoint o po m P env) (h : SetupEx colloc o um uo po m oc P) {q : Pair}
    (hq : IsPair po m.dims q) : P.compRes env ≤ relaxTol o env := by
  obtain ⟨k, e, j, q', hk, hj, hq', hr⟩ := C34_residual_attained (env := env) h.toSetup hq
  obtain ⟨-, -, a, b⟩ := D.pair h hk hq' hj
  rcases hr with ⟨hu, hr⟩ | ⟨hu, j', hj', hr⟩ | ⟨-, hr⟩
  · rw [hr]; exact (b hu).1.2
  · rw [hr]; exact ((b hu).2 j' hj').2
  · rw [hr]; exact a

/-! ### Weights -/

theorem RelaxedPoint.weights (D : RelaxedPoint o po m P env) (h : SetupEx colloc o um uo po m oc P)
    (hF : um.F.isSome = true) (hS : SignsOk o um) {k e : Nat} (hk : HasFE po k e) {j : Nat}
    (hj : j < o.nS) :
    (∀ s < um.nSys, (∀ i < (um.Fmat s).nCols, 0 ≤ wgt o um env k e j s i) ∧
        ∑ i ∈ Finset.range (um.Fmat s).nCols, wgt o um env k e j s i = 1) ∧
      ∀ row, um.stageRhs po m.dims k e j row env = um.rhsStewart row (xVal po m.dims k e j env)
        (zVal m.dims k e j env) (uVal m.dims k env) (pVal m.dims k env) (vVal m.dims env)
        (wgt o um env k e j) :=
  weights_of_nonneg h D.feas (fun q hq => (D.pair h hk hq hj).1) hF hS hk hj

/-- The multipliers `L` of the pairs solve the switching equations at `x`, `z`, `p`. -/
def SwitchZ (um : UserModel) (po : PreOpts) (x z p : List ℝ) (L : Pair → ℝ) : Prop :=
  match po.pss with
  | .stewart => ∀ s < um.nSys, ∃ mu, ∀ i < (um.Fmat s).nCols,
      um.gVal s i x z p = L (.region s i) - mu
  | .step => ∀ s < um.nSys, ∀ i < (um.cVec s).len,
      (um.cVec s).entry i x z p = L (.pos s i) - L (.neg s i)

theorem switchZ_stage (h : SetupEx colloc o um uo po m oc P) (hf : P.form.Feasible env) {k e : Nat}
    (hk : HasFE po k e) {j : Nat} (hj : j < o.nS) :
    SwitchZ um po (xVal po m.dims k e j env) (zVal m.dims k e j env) (pVal m.dims k env)
      (lamAt k e j env) := by
  have sw := ((h.spec hf).alg k e hk j (h.e_nS ▸ hj)).1
  unfold UserModel.Switching at sw
  unfold SwitchZ
  cases hp : po.pss with
  | stewart => rw [hp] at sw; exact fun s hs => ⟨_, fun i hi => sw s hs i hi⟩
  | step => rw [hp] at sw; exact fun s hs i hi => sw s hs i hi

/-- The weight of a region that contains a point far from its boundary. -/
theorem wgt_deep (h : SetupEx colloc o um uo po m oc P) (hF : um.F.isSome = true) (hS : SignsOk o um)
    {x z p : List ℝ} {L : Pair → ℝ} (hsw : SwitchZ um po x z p L) {k e j : Nat}
    (hp : ∀ q, IsPair po m.dims q → 0 ≤ thetaAt k e j env q ∧ 0 ≤ L q ∧ thetaAt k e j env q * L q ≤ ε)
    (hδ : 0 < δ) {s i : Nat} (hs : s < um.nSys) (hi : i < (um.Fmat s).nCols)
    (hone : o.pss = .stewart → ∑ r ∈ Finset.range (um.Fmat s).nCols, wgt o um env k e j s r = 1)
    (hd : um.DeepIn s i δ x z p) : 1 - selConst o um s i * (ε / δ) ≤ wgt o um env k e j s i := by
  obtain ⟨-, -, -, -, -, -, d1, d2, d3⟩ := h.toSetup.dims
  cases hpss : o.pss with
  | stewart =>
    have hp' := h.e_pss.trans hpss
    obtain ⟨hP, hD, -⟩ := hS s hs
    obtain ⟨hg, hD⟩ := hD hpss
    have hrows := (h.toSetup.shapes_stewart hp' hg hs).1
    unfold SwitchZ at hsw
    rw [hp'] at hsw
    obtain ⟨mu, hmu⟩ := hsw s hs
    have ne : ∀ n < (um.Smat s).cols, (um.Smat s).entry i n ≠ 0 := fun n hn => by
      rcases hD.1 i (by omega) n hn with h1 | h1 <;> rw [h1] <;> norm_num
    have hw : ∀ r, wgt o um env k e j s r = env (.st2 .theta k e j s r) := by
      intro r; unfold wgt; rw [hpss]
    have pair : ∀ r < (um.Fmat s).nCols, IsPair po m.dims (.region s r) := fun r hr =>
      ⟨hp', by omega, by rw [d2 hp' s hs]; exact hr⟩
    have small : ∀ r ∈ (Finset.range (um.Fmat s).nCols).erase i, wgt o um env k e j s r ≤ ε / (2 * δ) := by
      intro r hr
      obtain ⟨hri, hr⟩ := Finset.mem_erase.1 hr
      have hr := Finset.mem_range.1 hr
      have g := stewart_gap hD (c := fun n => (um.cVec s).entry n x z p) (i := i) (r := r) (by omega)
        (by omega) hri hδ fun n hn => hd n hn (ne n hn)
      have a := hmu i hi
      have b := hmu r hr
      unfold UserModel.gVal at a b
      rw [hg] at a b
      simp only [Bool.false_eq_true, if_false] at a b
      have l : 2 * δ ≤ L (.region s r) := by
        have := (hp _ (pair i hi)).2.1
        rw [a, b] at g
        linarith
      obtain ⟨t, -, c⟩ := hp _ (pair r hr)
      rw [hw, le_div_iff₀ (by linarith)]
      exact (mul_le_mul_of_nonneg_left l t).trans c
    have hsum := hone hpss
    rw [← Finset.add_sum_erase _ _ (Finset.mem_range.2 hi)] at hsum
    have := Finset.sum_le_card_nsmul _ _ _ small
    rw [Finset.card_erase_of_mem (Finset.mem_range.2 hi), Finset.card_range, nsmul_eq_mul,
      Nat.cast_pred (by omega)] at this
    unfold selConst
    rw [hpss]
    have e : (((um.Fmat s).nCols : ℝ) - 1) / 2 * (ε / δ) = (((um.Fmat s).nCols : ℝ) - 1) * (ε / (2 * δ)) := by
      field_simp
    simp only
    rw [e]
    linarith
  | step =>
    have hp' := h.e_pss.trans hpss
    obtain ⟨hrows, hused⟩ := h.toSetup.shapes_step hp' hF hs
    have hi' : i < (um.Smat s).rows := by omega
    unfold SwitchZ at hsw
    rw [hp'] at hsw
    have key : ∀ n ∈ (Finset.range (um.Smat s).cols).filter (fun n => (um.Smat s).entry i n ≠ 0),
        (0 ≤ (1 - (um.Smat s).entry i n) / 2 + (um.Smat s).entry i n * env (.st2 .alpha k e j s n) ∧
        (1 - (um.Smat s).entry i n) / 2 + (um.Smat s).entry i n * env (.st2 .alpha k e j s n) ≤ 1) ∧
        1 - ((1 - (um.Smat s).entry i n) / 2 + (um.Smat s).entry i n * env (.st2 .alpha k e j s n))
          ≤ ε / δ := by
      intro n hn
      obtain ⟨hn, hne⟩ := Finset.mem_filter.1 hn
      have hn := Finset.mem_range.1 hn
      have hc := hused i hi' n hn hne
      obtain ⟨n0, n1, n2⟩ := hp (.neg s n) ⟨hp', by omega, by rw [d3 hp' s hs]; exact hc⟩
      obtain ⟨p0, p1, p2⟩ := hp (.pos s n) ⟨hp', by omega, by rw [d3 hp' s hs]; exact hc⟩
      have dd := hd n hn hne
      rw [hsw s hs n hc] at dd
      simp only [thetaAt] at n0 n2 p0 p2
      rcases (hS s hs).2.2 hpss i hi' n hn with h1 | h1 | h1
      · rw [h1] at dd ⊢
        refine ⟨⟨by linarith, by linarith⟩, ?_⟩
        rw [le_div_iff₀ hδ]
        have : env (.st2 .alpha k e j s n) * δ ≤ env (.st2 .alpha k e j s n) * L (.neg s n) :=
          mul_le_mul_of_nonneg_left (by linarith) n0
        linarith
      · exact absurd h1 hne
      · rw [h1] at dd ⊢
        refine ⟨⟨by linarith, by linarith⟩, ?_⟩
        rw [le_div_iff₀ hδ]
        have : (1 - env (.st2 .alpha k e j s n)) * δ
            ≤ (1 - env (.st2 .alpha k e j s n)) * L (.pos s n) :=
          mul_le_mul_of_nonneg_left (by linarith) p0
        linarith
    have b1 := one_sub_sum_le_prod _ (fun n hn => (key n hn).1.1) fun n hn => (key n hn).1.2
    have b2 := Finset.sum_le_card_nsmul _ _ _ fun n hn => (key n hn).2
    rw [nsmul_eq_mul] at b2
    unfold selConst wgt regionWeight
    rw [hpss]
    simp only
    linarith

/-- The products that the residual bounds. -/
theorem pair_le (D : RelaxedPoint o po m P env) (h : SetupEx colloc o um uo po m oc P)
    (hε : P.compRes env ≤ ε) {k e : Nat} (hk : HasFE po k e) {j j' : Nat} (hj : j < o.nS)
    (hj' : j' < o.nS) (hjj : o.useFesd = true ∨ j' = j) {q : Pair} (hq : IsPair po m.dims q) :
    0 ≤ thetaAt k e j env q ∧ 0 ≤ lamAt k e j' env q ∧
      thetaAt k e j env q * lamAt k e j' env q ≤ ε := by
  obtain ⟨t, l, -, b⟩ := D.pair h hk hq hj
  have bd := fun tol (hr : P.compRes env < tol) =>
    C34_residual_bounds h.toSetup tol hr hk hj hq
  refine ⟨t, ?_, le_of_forall_gt_imp_ge_of_dense fun tol ht => ?_⟩
  · rcases hjj with hu | rfl
    · exact ((b hu).2 j' hj').1
    · exact l
  · obtain ⟨b1, b2⟩ := bd tol (lt_of_le_of_lt hε ht)
    by_cases hu : o.useFesd = true
    · exact ((b1 hu).1 j' hj').le
    · rcases hjj with hu' | rfl
      · exact absurd hu' hu
      · exact (b2 (by simpa using hu)).le

/-- C97, selection: if the complementarity residual is at most `ε` and the state at a stage lies in region
`i`, with all its switching functions at least `δ` away from zero, then at all stages of the element
(without FESD: at that stage) the coefficient of region `i` is at least `1 - C ε / δ`. -/
theorem C97_selection (D : RelaxedPoint o po m P env) (h : SetupEx colloc o um uo po m oc P)
    (hF : um.F.isSome = true) (hS : SignsOk o um) (hε : P.compRes env ≤ ε) (hδ : 0 < δ)
    {k e : Nat} (hk : HasFE po k e) {j j' : Nat} (hj : j < o.nS) (hj' : j' < o.nS)
    (hjj : o.useFesd = true ∨ j' = j) {s i : Nat} (hs : s < um.nSys) (hi : i < (um.Fmat s).nCols)
    (hd : um.DeepIn s i δ (xVal po m.dims k e j' env) (zVal m.dims k e j' env) (pVal m.dims k env)) :
    1 - selConst o um s i * (ε / δ) ≤ wgt o um env k e j s i :=
  wgt_deep h hF hS (switchZ_stage h D.feas hk hj') (fun _ hq => pair_le D h hε hk hj hj' hjj hq) hδ hs hi
    (fun _ => ((D.weights h hF hS hk hj).1 s hs).2) hd

/-- Convex combinations with almost all weight in one place. -/
theorem convex_near {n i : Nat} (hi : i < n) {w f : Nat → ℝ} {κ M : ℝ} (hw : ∀ r < n, 0 ≤ w r)
    (h1 : ∑ r ∈ Finset.range n, w r = 1) (hκ : 1 - κ ≤ w i) (hM : ∀ r < n, |f r - f i| ≤ M) :
    |∑ r ∈ Finset.range n, f r * w r - f i| ≤ κ * M := by
  have e : ∑ r ∈ Finset.range n, f r * w r - f i
      = ∑ r ∈ (Finset.range n).erase i, (f r - f i) * w r := by
    have : f i = ∑ r ∈ Finset.range n, f i * w r := by rw [← Finset.mul_sum, h1, mul_one]
    conv_lhs => rw [this]
    rw [← Finset.sum_sub_distrib, ← Finset.add_sum_erase _ _ (Finset.mem_range.2 hi)]
    rw [sub_self, zero_add]
    exact Finset.sum_congr rfl fun r _ => by ring
  rw [e]
  rw [← Finset.add_sum_erase _ _ (Finset.mem_range.2 hi)] at h1
  have M0 : 0 ≤ M := (abs_nonneg _).trans (hM i hi)
  calc |∑ r ∈ (Finset.range n).erase i, (f r - f i) * w r|
      ≤ ∑ r ∈ (Finset.range n).erase i, |(f r - f i) * w r| := Finset.abs_sum_le_sum_abs _ _
    _ ≤ ∑ r ∈ (Finset.range n).erase i, M * w r := by
        refine Finset.sum_le_sum fun r hr => ?_
        have hr := Finset.mem_range.1 (Finset.mem_of_mem_erase hr)
        rw [abs_mul, abs_of_nonneg (hw r hr)]
        exact mul_le_mul_of_nonneg_right (hM r hr) (hw r hr)
    _ = M * ∑ r ∈ (Finset.range n).erase i, w r := by rw [Finset.mul_sum]
    _ ≤ M * κ := mul_le_mul_of_nonneg_left (by linarith) M0
    _ = κ * M := mul_comm _ _

/-- C97, velocity: the right-hand side used at a stage differs from the vector fields of the regions the
state lies in by at most a multiple of the residual. -/
theorem C97_velocity (D : RelaxedPoint o po m P env) (h : SetupEx colloc o um uo po m oc P)
    (hF : um.F.isSome = true) (hS : SignsOk o um) (hε : P.compRes env ≤ ε) (hδ : 0 < δ)
    {k e : Nat} (hk : HasFE po k e) {j j' : Nat} (hj : j < o.nS) (hj' : j' < o.nS)
    (hjj : o.useFesd = true ∨ j' = j) {reg : Nat → Nat}
    (hreg : ∀ s < um.nSys, reg s < (um.Fmat s).nCols ∧
      um.DeepIn s (reg s) δ (xVal po m.dims k e j' env) (zVal m.dims k e j' env) (pVal m.dims k env))
    (row : Nat) {M : ℝ}
    (hM : ∀ s < um.nSys, ∀ r < (um.Fmat s).nCols,
      |(um.Fmat s).entry row r (xVal po m.dims k e j env) (zVal m.dims k e j env) (uVal m.dims k env)
          (pVal m.dims k env) (vVal m.dims env)
        - (um.Fmat s).entry row (reg s) (xVal po m.dims k e j env) (zVal m.dims k e j env)
          (uVal m.dims k env) (pVal m.dims k env) (vVal m.dims env)| ≤ M) :
    |um.stageRhs po m.dims k e j row env
      - ∑ s ∈ Finset.range um.nSys, (um.Fmat s).entry row (reg s) (xVal po m.dims k e j env)
          (zVal m.dims k e j env) (uVal m.dims k env) (pVal m.dims k env) (vVal m.dims env)|
      ≤ (∑ s ∈ Finset.range um.nSys, selConst o um s (reg s)) * (ε / δ) * M := by
  obtain ⟨hw, hr⟩ := D.weights h hF hS hk hj
  rw [hr row]
  unfold UserModel.rhsStewart
  rw [← Finset.sum_sub_distrib, Finset.sum_mul, Finset.sum_mul]
  refine (Finset.abs_sum_le_sum_abs _ _).trans (Finset.sum_le_sum fun s hs => ?_)
  have hs := Finset.mem_range.1 hs
  exact convex_near (hreg s hs).1 (hw s hs).1 (hw s hs).2
    (C97_selection D h hF hS hε hδ hk hj hj' hjj hs (hreg s hs).1 (hreg s hs).2) (hM s hs)

/-! ### Elements -/

theorem start_le (D : RelaxedPoint o po m P env) (h : SetupEx colloc o um uo po m oc P)
    (hu : o.useFesd = true) (hε : P.compRes env ≤ ε) {k e : Nat} (hk : HasFE po k e) {j : Nat}
    (hj : j < o.nS) {q : Pair} (hq : IsPair po m.dims q) :
    0 ≤ thetaAt k e j env q ∧ 0 ≤ lamStart po k e env q ∧
      thetaAt k e j env q * lamStart po k e env q ≤ ε := by
  obtain ⟨t, l, -, b⟩ := D.pair h hk hq hj
  refine ⟨t, (b hu).1.1, le_of_forall_gt_imp_ge_of_dense fun tol ht => ?_⟩
  exact ((C34_residual_bounds h.toSetup tol (lt_of_le_of_lt hε ht) hk hj hq).1 hu).2.le

/-- C97, selection from the beginning of an element (FESD): the state at the beginning of the element
decides the coefficients of all its stages. -/
theorem C97_selection_start (D : RelaxedPoint o po m P env) (h : SetupEx colloc o um uo po m oc P)
    (hu : o.useFesd = true) (hF : um.F.isSome = true) (hS : SignsOk o um) (hz : um.nZ = 0)
    (h0 : um.InitialMultipliers po m.dims env) (hc : um.SameSwitching po m.dims env)
    (hε : P.compRes env ≤ ε) (hδ : 0 < δ) {k e : Nat} (hk : HasFE po k e) {j : Nat} (hj : j < o.nS)
    {s i : Nat} (hs : s < um.nSys) (hi : i < (um.Fmat s).nCols)
    (hd : um.DeepIn s i δ (startVal po m.dims k e env) [] (pVal m.dims k env)) :
    1 - selConst o um s i * (ε / δ) ≤ wgt o um env k e j s i := by
  have hz' : m.dims.nZ = 0 := h.toSetup.dims.2.2.1.trans hz
  obtain ⟨k', hk', hsw⟩ := switch_start h hu D.feas hz' h0 hk
  refine wgt_deep h hF hS (z := []) hsw (fun _ hq => start_le D h hu hε hk hj hq) hδ hs hi
    (fun _ => ((D.weights h hF hS hk hj).1 s hs).2) fun n hn hne => ?_
  rw [hc k' hk' s hs, ← hc k hk.1 s hs]
  exact hd n hn hne

/-- C97, selection from the end of an element (FESD, the last stage is the end point): the state at the
end of the element decides the coefficients of all its stages. -/
theorem C97_selection_end (D : RelaxedPoint o po m P env) (h : SetupEx colloc o um uo po m oc P)
    (hu : o.useFesd = true) (hF : um.F.isSome = true) (hS : SignsOk o um) (hz : um.nZ = 0)
    (hr : po.rbe = true) (hε : P.compRes env ≤ ε) (hδ : 0 < δ) {k e : Nat} (hk : HasFE po k e) {j : Nat}
    (hj : j < o.nS) {s i : Nat} (hs : s < um.nSys) (hi : i < (um.Fmat s).nCols)
    (hd : um.DeepIn s i δ (xEndVal po m.dims k e env) [] (pVal m.dims k env)) :
    1 - selConst o um s i * (ε / δ) ≤ wgt o um env k e j s i := by
  have hz' : m.dims.nZ = 0 := h.toSetup.dims.2.2.1.trans hz
  have hl : lastLam po k e = o.nS - 1 := by
    unfold lastLam extraPt
    rw [hr, h.e_nS]
    simp
  have hsw := switch_end h hu D.feas hz' hk
  rw [hl] at hsw
  have hn := h.nS
  exact wgt_deep h hF hS (z := []) hsw
    (fun _ hq => pair_le D h hε hk hj (by omega) (.inl hu) hq) hδ hs hi
    (fun _ => ((D.weights h hF hS hk hj).1 s hs).2) hd

/-- C97, one element of a piecewise constant system with FESD: if for every subsystem the state lies deep
in a region at the beginning of the element, at one of its stages or at its end, then the element moves
the state along the vector fields of these regions, up to a multiple of the residual. -/
theorem C97_element (D : RelaxedPoint o po m P env) (h : SetupEx colloc o um uo po m oc P)
    (hu : o.useFesd = true) (hF : um.F.isSome = true) (hS : SignsOk o um) (hpc : um.PiecewiseConstant)
    (h0 : um.InitialMultipliers po m.dims env) (hc : um.SameSwitching po m.dims env)
    {b : Nat → ℝ} (hb : SchemeWeights colloc o b)
    (hcol : o.irkRep = .integral → CollocOk (colloc o.scheme o.nS) o.nS)
    (hε : P.compRes env ≤ ε) (hδ : 0 < δ) {k e : Nat} (hk : HasFE po k e) {reg : Nat → Nat}
    (hreg : ∀ s < um.nSys, reg s < (um.Fmat s).nCols ∧
      (um.DeepIn s (reg s) δ (startVal po m.dims k e env) [] (pVal m.dims k env) ∨
        (∃ j < o.nS, um.DeepIn s (reg s) δ (xVal po m.dims k e j env) [] (pVal m.dims k env)) ∨
        po.rbe = true ∧ um.DeepIn s (reg s) δ (xEndVal po m.dims k e env) [] (pVal m.dims k env)))
    {row : Nat} (hrow : row < um.nX) {M : ℝ}
    (hM : ∀ s < um.nSys, ∀ r < (um.Fmat s).nCols,
      |(um.Fmat s).entry row r [] [] (uVal m.dims k env) (pVal m.dims k env) (vVal m.dims env)
        - (um.Fmat s).entry row (reg s) [] [] (uVal m.dims k env) (pVal m.dims k env)
          (vVal m.dims env)| ≤ M) :
    |(xEndVal po m.dims k e env).getD row 0 - ((startVal po m.dims k e env).getD row 0
      + hVal po k e env * sotVal po k env * (∑ j ∈ Finset.range o.nS, b j)
        * ∑ s ∈ Finset.range um.nSys, (um.Fmat s).entry row (reg s) [] [] (uVal m.dims k env)
            (pVal m.dims k env) (vVal m.dims env))|
      ≤ |hVal po k e env * sotVal po k env| * (∑ j ∈ Finset.range o.nS, b j)
        * ((∑ s ∈ Finset.range um.nSys, selConst o um s (reg s)) * (ε / δ) * M) := by
  have hz : m.dims.nZ = 0 := h.toSetup.dims.2.2.1.trans hpc.noZ
  have zn : ∀ j, zVal m.dims k e j env = [] := fun j => zVal_nil hz k e j
  rw [hb.step h D.feas hcol hk hrow]
  set V := ∑ s ∈ Finset.range um.nSys, (um.Fmat s).entry row (reg s) [] [] (uVal m.dims k env)
            (pVal m.dims k env) (vVal m.dims env) with hV
  have vel : ∀ j < o.nS, |um.stageRhs po m.dims k e j row env - V|
      ≤ (∑ s ∈ Finset.range um.nSys, selConst o um s (reg s)) * (ε / δ) * M := by
    intro j hj
    obtain ⟨hw, hr⟩ := D.weights h hF hS hk hj
    rw [hr row, hV]
    unfold UserModel.rhsStewart
    rw [← Finset.sum_sub_distrib, Finset.sum_mul, Finset.sum_mul]
    refine (Finset.abs_sum_le_sum_abs _ _).trans (Finset.sum_le_sum fun s hs => ?_)
    have hs := Finset.mem_range.1 hs
    obtain ⟨hi, hdeep⟩ := hreg s hs
    rw [Finset.sum_congr rfl fun i (_ : i ∈ Finset.range (um.Fmat s).nCols) => by
      rw [zn j, hpc.F s hs row i (xVal po m.dims k e j env) []]]
    refine convex_near hi (hw s hs).1 (hw s hs).2 ?_ (hM s hs)
    rcases hdeep with hdeep | ⟨j', hj', hdeep⟩ | ⟨hr, hdeep⟩
    · exact C97_selection_start D h hu hF hS hpc.noZ h0 hc hε hδ hk hj hs hi hdeep
    · exact C97_selection D h hF hS hε hδ hk hj hj' (.inl hu) hs hi (by rw [zn j']; exact hdeep)
    · exact C97_selection_end D h hu hF hS hpc.noZ hr hε hδ hk hj hs hi hdeep
  have e : (startVal po m.dims k e env).getD row 0 + hVal po k e env * ∑ j ∈ Finset.range o.nS,
        b j * (sotVal po k env * um.stageRhs po m.dims k e j row env)
      - ((startVal po m.dims k e env).getD row 0
        + hVal po k e env * sotVal po k env * (∑ j ∈ Finset.range o.nS, b j) * V)
      = hVal po k e env * sotVal po k env
        * ∑ j ∈ Finset.range o.nS, b j * (um.stageRhs po m.dims k e j row env - V) := by
    simp only [mul_sub, Finset.sum_sub_distrib, ← Finset.sum_mul]
    have : ∑ j ∈ Finset.range o.nS, b j * (sotVal po k env * um.stageRhs po m.dims k e j row env)
        = sotVal po k env * ∑ j ∈ Finset.range o.nS, b j * um.stageRhs po m.dims k e j row env := by
      rw [Finset.mul_sum]
      exact Finset.sum_congr rfl fun j _ => by ring
    rw [this]
    ring
  rw [e, abs_mul, mul_assoc]
  refine mul_le_mul_of_nonneg_left ?_ (abs_nonneg _)
  refine (Finset.abs_sum_le_sum_abs _ _).trans ?_
  rw [Finset.sum_mul]
  refine Finset.sum_le_sum fun j hj => ?_
  have hj := Finset.mem_range.1 hj
  rw [abs_mul, abs_of_nonneg (hb.nonneg j hj)]
  exact mul_le_mul_of_nonneg_left (vel j hj) (hb.nonneg j hj)

/-- The hypotheses of C97 are met for every `σ > 0` by the trajectory of `ẋ = -sign x` that starts at
`1/2`: its first element begins at the distance `1/2` from the other region. -/
example {σ : ℝ} (hσ : 0 < σ) : ∃ po m oc P env,
    SetupEx demoColloc Opts.default slideModel (some UserOcp.trivial) po m oc P ∧
    RelaxedPoint Opts.default po m P env ∧ env .sigma = σ ∧ P.compRes env ≤ σ ∧
    SignsOk Opts.default slideModel ∧ slideModel.PiecewiseConstant ∧
    slideModel.InitialMultipliers po m.dims env ∧ slideModel.SameSwitching po m.dims env ∧
    SchemeWeights demoColloc Opts.default slideW ∧ HasFE po 0 0 ∧
    slideModel.DeepIn 0 0 (1 / 2) (startVal po m.dims 0 0 env) [] (pVal m.dims 0 env) := by
  obtain ⟨po, m, oc, P, env, h, D, i1, i2, hr, fe, hh, hx, hX, -⟩ := slide_point (N := 1) (nf := 2)
    (.inl ⟨rfl, rfl⟩)
  have R : RelaxedPoint Opts.default po m P (withSigma env σ 0) :=
    ⟨D.mode, C96_nested_partial h (.inl rfl) (fun _ => D.sigma.trans_le hσ.le) D.feas, fun q hq => by
      have := D.lam00 q hq
      cases q <;> exact this⟩
  have hq : IsPair po m.dims (.region 0 0) := by
    refine ⟨h.e_pss, ?_, ?_⟩
    · rw [h.toSetup.dims.2.2.2.2.2.2.1]; exact Nat.one_pos
    · rw [h.toSetup.dims.2.2.2.2.2.2.2.1 h.e_pss 0 Nat.one_pos]; exact Nat.two_pos
  refine ⟨po, m, oc, P, withSigma env σ 0, h, R, rfl, C97_residual R h hq, slide_signs 1 2, slide_pc, ?_,
    fun k hk s hs n x => ?_, slide_weights 1 2, (fe 0 0).2 (by omega), fun n hn _ => ?_⟩
  · unfold UserModel.InitialMultipliers at i1 ⊢
    rw [h.e_pss] at i1 ⊢
    exact i1
  · obtain rfl := slide_sys hs
    rfl
  · obtain rfl : n = 0 := Nat.lt_one_iff.1 hn
    have e : startVal po m.dims 0 0 (withSigma env σ 0) = [1 / 2] := by
      rw [startVal_first (by simp [prevFe]), h.toSetup.dims.1]
      show (List.range 1).map (fun i => env (.x0 i)) = [1 / 2]
      simp [List.range_succ, hx]
    rw [e]
    simp [slideModel, UserModel.Smat, UserModel.cVec, signMat]

end
end Nosnoc
