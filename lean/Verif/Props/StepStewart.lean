import Verif.Proofs.Cost
import Verif.Proofs.PssTransfer
import Verif.Proofs.PssAlg
import Verif.Proofs.ModelFacts
import Verif.Spec.Lam00
import Verif.Props.Exactness
import Verif.Props.Mpcc
import Verif.Props.Reps
/-
C95: Stewart's and the step representation describe the same trajectories.  Problems that meet the hypotheses:
Verif/Props/StepStewartViol.lean.
-/
namespace Nosnoc

section
variable {colloc : IrkScheme → Nat → List ℝ} {o : Opts} {um : UserModel} {uo : Option UserOcp}
  {po : PreOpts} {m : PreModel} {oc : PreOcp} {P : Problem} {env : Env}
  {po' : PreOpts} {m' : PreModel} {oc' : PreOcp} {P' : Problem} {p : PssMode}

theorem preprocess_pss (h : o.preprocess colloc = .ok po) :
    ({ o with pss := p } : Opts).preprocess colloc = .ok (pssOpts po p) := by
  unfold Opts.preprocess at h ⊢
  have fin : ∀ q : PreOpts, (match q.timePts.getLast? with
      | none => (Except.error .indexError : Except PyErr PreOpts)
      | some t => Except.ok { q with rbe := decide (|t - 1| < 1 / 10 ^ 9) }) = Except.ok po →
      (match (pssOpts q p).timePts.getLast? with
      | none => (Except.error .indexError : Except PyErr PreOpts)
      | some t => .ok { pssOpts q p with rbe := decide (|t - 1| < 1 / 10 ^ 9) })
        = .ok (pssOpts po p) := by
    intro q hl
    have e : (pssOpts q p).timePts = q.timePts := rfl
    rw [e]
    cases ht : q.timePts.getLast? with
    | none => rw [ht] at hl; cases hl
    | some t =>
      rw [ht] at hl
      exact congrArg (Except.map fun x => pssOpts x p) hl
  cases hr : o.irkRep <;> simp only [hr, bind_eq_ok] at h ⊢
  · obtain ⟨n, hn, q, hq, hl⟩ := h
    exact ⟨n, hn, _, congrArg (Except.map fun x => pssOpts x p) hq, fin q hl⟩
  · obtain ⟨n, hn, t, ht, q, hq, hl⟩ := h
    exact ⟨n, hn, t, ht, _, congrArg (Except.map fun x => pssOpts x p) hq, fin q hl⟩
  · obtain ⟨n, hn, t, ht, q, hq, hl⟩ := h
    exact ⟨n, hn, t, ht, _, congrArg (Except.map fun x => pssOpts x p) hq, fin q hl⟩

/-- Two constructions that differ in the representation of the discontinuity only. -/
theorem Setup.rePss (h : Setup colloc o um uo po m oc P)
    (h' : Setup colloc { o with pss := p } um uo po' m' oc' P') :
    po' = pssOpts po p ∧ m'.dims = pssDims m.dims m'.dims.nC m'.dims.nF := by
  have hc := h.ok
  have hc' := h'.ok
  unfold construct at hc hc'
  simp only [bind_eq_ok] at hc hc'
  obtain ⟨_, _, a, ha, b, hb, c, hcc, d, hd, hh⟩ := hc
  cases hh
  obtain ⟨_, _, a', ha', b', hb', c', hcc', d', hd', hh'⟩ := hc'
  cases hh'
  constructor
  · rw [preprocess_pss ha] at ha'
    exact ((Except.ok.injEq _ _).mp ha').symm
  · obtain ⟨nC, nF, _, _, _, _, H⟩ := preprocess_pre hb
    obtain ⟨nC', nF', _, _, _, _, H'⟩ := preprocess_pre hb'
    rw [H.dims, H'.dims]
    rfl

/-- A feasible point with `σ = 0`, no slack and nonnegative initial multipliers, in a mode where this
makes the complementarities exact (with or without FESD). -/
structure ExactSolution (o : Opts) (po : PreOpts) (m : PreModel) (P : Problem) (env : Env) : Prop where
  mode : ExactMode o
  feas : P.form.Feasible env
  sigma : env .sigma = 0
  slack : NoSlack o env
  lam00 : ∀ q, IsPair po m.dims q → 0 ≤ lam00At env q

theorem ExactSolution.multOk (h : SetupEx colloc o um uo po m oc P)
    (D : ExactSolution o po m P env) : MultOk po m.dims env := by
  have e1 : po.nS = o.nS := h.e_nS
  have e2 : po.useFesd = o.useFesd := h.e_useFesd
  have pr := fun {k e} (hk : HasFE po k e) {j} (hj : j < o.nS) {q} (hq : IsPair po m.dims q) =>
    stage_pairs h D.mode D.feas D.sigma D.slack D.lam00 hk hj hq
  have ex : o.useFesd = true → ExactPoint o po m P env := fun hu =>
    ⟨hu, D.mode, D.feas, D.sigma, D.slack, D.lam00⟩
  have pts : ∀ {k e j}, j < nLamPts po k e → j < o.nS ∨ (o.useFesd = true ∧ j = lastLam po k e) := by
    intro k e j hj
    unfold nLamPts lastLam at *
    by_cases hx : j < o.nS
    · exact .inl hx
    · right
      unfold extraPt at *
      split at hj
      · rename_i hc
        rw [if_pos hc]
        exact ⟨by rw [← e2]; exact hc.1, by omega⟩
      · omega
  constructor
  · exact fun k e hk j hj q hq => (pr hk (e1 ▸ hj) hq).1
  · intro k e hk j hj q hq
    rcases pts hj with hj | ⟨hu, rfl⟩
    · exact (pr hk hj hq).2.1
    · exact (ex hu).last_nonneg h hk hq
  · exact D.lam00
  · exact fun k e hk j hj q hq => (pr hk (e1 ▸ hj) hq).2.2
  · intro hu k e hk j hj j' hj' q hq
    rw [e2] at hu
    by_cases h0 : thetaAt k e j env q = 0
    · rw [h0, zero_mul]
    · rw [((ex hu).pair h hk hq (e1 ▸ hj) h0).1 j' (e1 ▸ hj'), mul_zero]
  · intro hu hc k e hk j hj j' hj' q hq
    rw [e2] at hu
    by_cases h0 : thetaAt k e j env q = 0
    · rw [h0, zero_mul]
    · rcases pts hj' with hj' | ⟨-, rfl⟩
      · rw [((ex hu).pair h hk hq (e1 ▸ hj) h0).1 j' hj', mul_zero]
      · rw [(ex hu).last h hk hq (e1 ▸ hj) (.inr (.inl (h.e_crossComp.symm.trans hc))) h0, mul_zero]
  · intro hu k e hk j hj q hq
    rw [e2] at hu
    by_cases h0 : thetaAt k e j env q = 0
    · rw [h0, zero_mul]
    · rw [((ex hu).pair h hk hq (e1 ▸ hj) h0).2, mul_zero]

/-- Exactly complementary values satisfy the constraints. -/
theorem compl_exact (h : SetupEx colloc o um uo po m oc P) (hb : o.mpcc ≠ .boolean)
    (ha : o.mpcc ≠ .fischerBurmeisterIpAug) (hσ : env .sigma = 0) (hs : NoSlack o env)
    (xs : List ℝ) (y : ℝ) (hx : ∀ x ∈ xs, 0 ≤ x) (hy : 0 ≤ y) (h0 : ∀ x ∈ xs, x * y = 0) :
    Compl po env xs y := by
  have eM := h.e_mpcc
  have key : CompSat po.toOpts 0 (env .tau) 0 xs y := C31_complete (by rw [eM]; exact ha) hx hy h0
    fun hbm => absurd (eM.symm.trans hbm) hb
  unfold Compl
  rw [hσ]
  by_cases hm : o.mpcc = .elasticIneq ∨ o.mpcc = .elasticEq ∨ o.mpcc = .elasticTwoSided
  · rwa [hs hm]
  · unfold CompSat at key ⊢
    rw [eM] at key ⊢
    cases hm' : o.mpcc <;> simp_all

theorem ExactMode.ne_boolean (hm : ExactMode o) : o.mpcc ≠ .boolean := by
  rcases hm with hm | ⟨hm | hm, -⟩
  · rcases hm with hm | hm | hm | hm <;> rw [hm] <;> decide
  · rw [hm]; decide
  · rw [hm]; decide

/-! ### From step to Stewart -/

/-- Stewart's multipliers computed from those of the step representation. -/
noncomputable def toStewart (um : UserModel) (env : Env) : Env :=
  multEnv env
    (fun f k e j s i => match f with
      | .theta => regionWeight (um.Smat s) i fun r => env (.st2 .alpha k e j s r)
      | .lam => stOf (um.Smat s) (fun n => env (.st2 .lamN k e j s n))
          (fun n => env (.st2 .lamP k e j s n)) i
      | .mu => muOf (um.Smat s) (fun n => env (.st2 .lamN k e j s n))
          (fun n => env (.st2 .lamP k e j s n))
      | _ => 0)
    (fun f s i => match f with
      | .lam => stOf (um.Smat s) (fun n => env (.lam00 .lamN s n)) (fun n => env (.lam00 .lamP s n)) i
      | _ => 0)

theorem toStewart_start (k e s i : Nat) :
    lamStart (pssOpts po p) k e (toStewart um env) (.region s i)
      = stOf (um.Smat s) (fun n => lamStart po k e env (.neg s n))
          (fun n => lamStart po k e env (.pos s n)) i := by
  unfold lamStart
  have hp : prevFe (pssOpts po p) k e = prevFe po k e := rfl
  rw [hp]
  cases prevFe po k e with
  | none => rfl
  | some q => rfl

/-- C95: every exact solution of the problem in the step representation is, with other multipliers, an
exact solution of the problem in Stewart's representation with the same trajectory. -/
theorem C95_step_to_stewart (h : SetupEx colloc o um uo po m oc P)
    (h' : SetupEx colloc { o with pss := .stewart } um uo po' m' oc' P') (hp : o.pss = .step)
    (hS : FullSigns um) (ha : o.mpcc ≠ .fischerBurmeisterIpAug)
    (hst : o.stepEq ≠ .direct ∧ o.stepEq ≠ .directComplementarity)
    (D : ExactSolution o po m P env) :
    ∃ env', ExactSolution { o with pss := .stewart } po' m' P' env' ∧ SamePath env env' ∧
      (∀ k e, HasFE po k e → ∀ j < o.nS, ∀ s < um.nSys, ∀ i < (um.Fmat s).nCols,
        env' (.st2 .theta k e j s i)
          = regionWeight (um.Smat s) i fun r => env (.st2 .alpha k e j s r)) ∧
      ∀ x z p, (∀ q, IsPair po m.dims q → lam00At env q = um.lam00Val x z p q) →
        ∀ q, IsPair po' m'.dims q → lam00At env' q = um.lam00Val x z p q := by
  obtain ⟨hF, hg, hS⟩ := hS
  obtain ⟨eo, ed⟩ := h.toSetup.rePss h'.toSetup
  have hp1 : po.pss = .step := h.e_pss.trans hp
  have hp2 : po'.pss = .stewart := h'.e_pss
  have eS : po.nS = o.nS := h.e_nS
  obtain ⟨dX, -, -, -, -, -, dS, -, dC⟩ := h.toSetup.dims
  obtain ⟨-, -, -, -, -, -, dS', dF, -⟩ := h'.toSetup.dims
  have dC := dC hp1
  have dF := dF hp2
  have shape := fun {s} (hs : s < um.nSys) => h'.toSetup.shapes_stewart hp2 hg hs
  have M := D.multOk h
  -- pairs of the two problems
  have isN : ∀ {s n}, s < um.nSys → n < (um.Smat s).cols → IsPair po m.dims (.neg s n) :=
    fun hs hn => ⟨hp1, by rw [dS]; exact hs, by rw [dC _ hs, ← (shape hs).2]; exact hn⟩
  have isP : ∀ {s n}, s < um.nSys → n < (um.Smat s).cols → IsPair po m.dims (.pos s n) :=
    fun hs hn => ⟨hp1, by rw [dS]; exact hs, by rw [dC _ hs, ← (shape hs).2]; exact hn⟩
  have reg : ∀ {q}, IsPair po' m'.dims q → ∃ s i, q = .region s i ∧ s < um.nSys ∧
      i < (um.Smat s).rows := by
    intro q hq
    cases q with
    | region s i =>
      have hs : s < um.nSys := by rw [← dS']; exact hq.2.1
      exact ⟨s, i, rfl, hs, by rw [(shape hs).1, ← dF s hs]; exact hq.2.2⟩
    | neg s i => exact absurd (hp2.symm.trans hq.1) (by decide)
    | pos s i => exact absurd (hp2.symm.trans hq.1) (by decide)
  have wsign := fun {s} (hs : s < um.nSys) => (hS s hs).1.isSign
  -- complementarity of one region
  have key : ∀ {k e j s i}, HasFE po k e → j < po.nS → s < um.nSys → i < (um.Smat s).rows →
      ∀ lN lP : Nat → ℝ, (∀ n < (um.Smat s).cols, env (.st2 .alpha k e j s n) * lN n = 0) →
      (∀ n < (um.Smat s).cols, (1 - env (.st2 .alpha k e j s n)) * lP n = 0) →
      (regionWeight (um.Smat s) i fun r => env (.st2 .alpha k e j s r)) * stOf (um.Smat s) lN lP i = 0 :=
    fun _ _ hs hi lN lP hN hP => stOf_compl (hS _ hs).1 hi hN hP
  have mult : MultOk po' m'.dims (toStewart um env) := by
    rw [eo]
    rw [eo] at reg
    constructor
    · intro k e hk j hj q hq
      obtain ⟨s, i, rfl, hs, hi⟩ := reg hq
      refine (weight_mem (wsign hs) hi fun n hn _ => ⟨M.theta k e hk j hj _ (isN hs hn), ?_⟩).1
      have : 0 ≤ 1 - env (.st2 .alpha k e j s n) := M.theta k e hk j hj _ (isP hs hn)
      exact sub_nonneg.1 this
    · intro k e hk j hj q hq
      obtain ⟨s, i, rfl, hs, hi⟩ := reg hq
      exact stOf_nonneg (fun n hn => M.lam k e hk j hj _ (isN hs hn))
        fun n hn => M.lam k e hk j hj _ (isP hs hn)
    · intro q hq
      obtain ⟨s, i, rfl, hs, hi⟩ := reg hq
      exact stOf_nonneg (fun n hn => M.lam00 _ (isN hs hn)) fun n hn => M.lam00 _ (isP hs hn)
    · intro k e hk j hj q hq
      obtain ⟨s, i, rfl, hs, hi⟩ := reg hq
      exact key hk hj hs hi _ _ (fun n hn => M.own k e hk j hj _ (isN hs hn))
        fun n hn => M.own k e hk j hj _ (isP hs hn)
    · intro hu k e hk j hj j' hj' q hq
      obtain ⟨s, i, rfl, hs, hi⟩ := reg hq
      exact key hk hj hs hi _ _ (fun n hn => M.cross hu k e hk j hj j' hj' _ (isN hs hn))
        fun n hn => M.cross hu k e hk j hj j' hj' _ (isP hs hn)
    · intro hu hc k e hk j hj j' hj' q hq
      obtain ⟨s, i, rfl, hs, hi⟩ := reg hq
      exact key hk hj hs hi _ _ (fun n hn => M.crossEnd hu hc k e hk j hj j' hj' _ (isN hs hn))
        fun n hn => M.crossEnd hu hc k e hk j hj j' hj' _ (isP hs hn)
    · intro hu k e hk j hj q hq
      obtain ⟨s, i, rfl, hs, hi⟩ := reg hq
      rw [toStewart_start]
      exact key hk hj hs hi _ _ (fun n hn => M.crossStart hu k e hk j hj _ (isN hs hn))
        fun n hn => M.crossStart hu k e hk j hj _ (isP hs hn)
  have spec : FeasibleSpec po' m'.dims um (uo.getD UserOcp.trivial) (toStewart um env) := by
    rw [ed, eo] at mult ⊢
    refine (h.spec D.feas).pss (by rw [eS]; exact h.nS) h.toSetup.nfe_pos
      (by rw [h.e_stepEq]; exact hst) (compl_exact h D.mode.ne_boolean ha D.sigma D.slack) mult ?_ ?_ ?_
    · intro k e hk j hj x z p' hsw
      unfold UserModel.Switching at hsw
      rw [hp1] at hsw
      intro s hs i hi
      have hi' : i < (um.Smat s).rows := by rw [(shape hs).1]; exact hi
      unfold UserModel.gVal
      rw [hg]
      simp only [Bool.false_eq_true, if_false]
      rw [show ∑ k ∈ Finset.range (um.Smat s).cols, (um.Smat s).entry i k * (um.cVec s).entry k x z p'
        = ∑ n ∈ Finset.range (um.Smat s).cols, (um.Smat s).entry i n
          * (env (.st2 .lamP k e j s n) - env (.st2 .lamN k e j s n)) from
        Finset.sum_congr rfl fun n hn => by
          rw [hsw s hs n (by rw [← (shape hs).2]; exact Finset.mem_range.1 hn)]]
      exact stOf_sub_mu (hS s hs).1 hi'
    · intro _ k e hk j hj s hs
      rw [← (shape hs).1]
      exact sum_weights (wsign hs) (hS s hs).2 _
    · intro k e hk j hj i hi
      unfold UserModel.stageRhs
      rw [multEnv_xVal, hp1]
      obtain ⟨Fs, hFs⟩ := Option.isSome_iff_exists.1 hF
      simp only [hFs]
      rfl
  refine ⟨toStewart um env, ⟨D.mode, (h'.iff D.mode.ne_boolean).2 spec, D.sigma, D.slack, mult.lam00⟩,
    fun s hs => multEnv_other s hs, fun _ _ _ _ _ _ _ _ _ => rfl, fun x z p' hl q hq => ?_⟩
  obtain ⟨s, i, rfl, hs, hi⟩ := reg hq
  change stOf (um.Smat s) (fun n => env (.lam00 .lamN s n)) (fun n => env (.lam00 .lamP s n)) i
    = um.gVal s i x z p' - ⨅ j : Fin (um.Fmat s).nCols, um.gVal s j x z p'
  have e1 : stOf (um.Smat s) (fun n => env (.lam00 .lamN s n)) (fun n => env (.lam00 .lamP s n)) i
      = stOf (um.Smat s) (fun n => max (-(um.cVec s).entry n x z p') 0)
          (fun n => max ((um.cVec s).entry n x z p') 0) i := by
    unfold stOf
    congr 1
    refine Finset.sum_congr rfl fun n hn => ?_
    have hn := Finset.mem_range.1 hn
    have a1 : env (.lam00 .lamN s n) = max (-(um.cVec s).entry n x z p') 0 := hl _ (isN hs hn)
    have a2 : env (.lam00 .lamP s n) = max ((um.cVec s).entry n x z p') 0 := hl _ (isP hs hn)
    simp only [a1, a2]
  rw [e1, stOf_parts (hS s hs).1 (hS s hs).2 hi]
  unfold UserModel.gVal
  rw [hg, ← (shape hs).1]
  simp

/-! ### From Stewart to step -/

/-- The multipliers of the step representation computed from Stewart's, with coefficients `A`. -/
noncomputable def toStep (um : UserModel) (env : Env) (A : Nat → Nat → Nat → Nat → Nat → ℝ) : Env :=
  multEnv env
    (fun f k e j s n => match f with
      | .alpha => A k e j s n
      | .lamN => max (-cOf (um.Smat s) (fun i => env (.st2 .lam k e j s i)) n) 0
      | .lamP => max (cOf (um.Smat s) (fun i => env (.st2 .lam k e j s i)) n) 0
      | _ => 0)
    (fun f s n => match f with
      | .lamN => max (-cOf (um.Smat s) (fun i => env (.lam00 .lam s i)) n) 0
      | .lamP => max (cOf (um.Smat s) (fun i => env (.lam00 .lam s i)) n) 0
      | _ => 0)

theorem toStep_start {A : Nat → Nat → Nat → Nat → Nat → ℝ} (k e s n : Nat) :
    lamStart (pssOpts po p) k e (toStep um env A) (.neg s n)
      = max (-cOf (um.Smat s) (fun i => lamStart po k e env (.region s i)) n) 0 ∧
    lamStart (pssOpts po p) k e (toStep um env A) (.pos s n)
      = max (cOf (um.Smat s) (fun i => lamStart po k e env (.region s i)) n) 0 := by
  unfold lamStart
  have hp : prevFe (pssOpts po p) k e = prevFe po k e := rfl
  rw [hp]
  cases prevFe po k e with
  | none => exact ⟨rfl, rfl⟩
  | some q => exact ⟨rfl, rfl⟩

theorem max_sub_max_neg (x : ℝ) : max x 0 - max (-x) 0 = x := by
  rcases le_total x 0 with h | h
  · rw [max_eq_right h, max_eq_left (by linarith)]; ring
  · rw [max_eq_left h, max_eq_right (by linarith)]; ring

/-- C95: an exact solution of the problem in Stewart's representation whose coefficients have product
form is, with other multipliers, an exact solution of the problem in the step representation with the
same trajectory. -/
theorem C95_stewart_to_step_partial (h : SetupEx colloc o um uo po m oc P)
    (h' : SetupEx colloc { o with pss := .step } um uo po' m' oc' P') (hp : o.pss = .stewart)
    (hS : FullSigns um) (ha : o.mpcc ≠ .fischerBurmeisterIpAug)
    (hst : o.stepEq ≠ .direct ∧ o.stepEq ≠ .directComplementarity)
    (D : ExactSolution o po m P env) (hw : ProductWeights po um env)
    (h0 : o.useFesd = true → ∀ s < um.nSys, ∃ c mu,
      StewartLam (um.Smat s) c mu fun i => env (.lam00 .lam s i)) :
    ∃ env', ExactSolution { o with pss := .step } po' m' P' env' ∧ SamePath env env' ∧
      (∀ k e, HasFE po k e → ∀ j < o.nS, ∀ s < um.nSys, ∀ i < (um.Fmat s).nCols,
        regionWeight (um.Smat s) i (fun r => env' (.st2 .alpha k e j s r))
          = env (.st2 .theta k e j s i)) ∧
      ∀ x z p, (∀ q, IsPair po m.dims q → lam00At env q = um.lam00Val x z p q) →
        ∀ q, IsPair po' m'.dims q → lam00At env' q = um.lam00Val x z p q := by
  classical
  obtain ⟨hF, hg, hS⟩ := hS
  obtain ⟨eo, ed⟩ := h.toSetup.rePss h'.toSetup
  have hp1 : po.pss = .stewart := h.e_pss.trans hp
  have hp2 : po'.pss = .step := h'.e_pss
  have eS : po.nS = o.nS := h.e_nS
  obtain ⟨dX, -, -, -, -, -, dS, dF, -⟩ := h.toSetup.dims
  obtain ⟨-, -, -, -, -, -, dS', -, dC⟩ := h'.toSetup.dims
  have dF := dF hp1
  have dC := dC hp2
  have shape := fun {s} (hs : s < um.nSys) => h.toSetup.shapes_stewart hp1 hg hs
  have M := D.multOk h
  have S := h.spec D.feas
  have isR : ∀ {s i}, s < um.nSys → i < (um.Smat s).rows → IsPair po m.dims (.region s i) :=
    fun hs hi => ⟨hp1, by rw [dS]; exact hs, by rw [dF _ hs, ← (shape hs).1]; exact hi⟩
  have ofN : ∀ {q}, IsPair po' m'.dims q → ∃ s n, (q = .neg s n ∨ q = .pos s n) ∧ s < um.nSys ∧
      n < (um.Smat s).cols := by
    intro q hq
    cases q with
    | region s i => exact absurd (hp2.symm.trans hq.1) (by decide)
    | neg s n =>
      have hs : s < um.nSys := by rw [← dS']; exact hq.2.1
      exact ⟨s, n, .inl rfl, hs, by rw [(shape hs).2, ← dC s hs]; exact hq.2.2⟩
    | pos s n =>
      have hs : s < um.nSys := by rw [← dS']; exact hq.2.1
      exact ⟨s, n, .inr rfl, hs, by rw [(shape hs).2, ← dC s hs]; exact hq.2.2⟩
  -- the coefficients
  set A : Nat → Nat → Nat → Nat → Nat → ℝ := fun k e j s =>
    if hh : HasFE po k e ∧ j < po.nS ∧ s < um.nSys then
      (hw k e hh.1 j hh.2.1 s hh.2.2).choose else fun _ => 0 with hA
  have hA' : ∀ {k e j s}, HasFE po k e → j < po.nS → s < um.nSys →
      (∀ n < (um.Smat s).cols, 0 ≤ A k e j s n ∧ A k e j s n ≤ 1) ∧
      ∀ i < (um.Smat s).rows,
        regionWeight (um.Smat s) i (A k e j s) = env (.st2 .theta k e j s i) := by
    intro k e j s hk hj hs
    have hh : HasFE po k e ∧ j < po.nS ∧ s < um.nSys := ⟨hk, hj, hs⟩
    have : A k e j s = (hw k e hh.1 j hh.2.1 s hh.2.2).choose := by rw [hA]; exact dif_pos hh
    rw [this]
    obtain ⟨a1, a2⟩ := (hw k e hh.1 j hh.2.1 s hh.2.2).choose_spec
    exact ⟨a1, fun i hi => (a2 i (by rw [← (shape hs).1]; exact hi)).symm⟩
  -- a solution of Stewart's switching equations determines the switching functions
  have swL : ∀ {k e j x z p'}, um.Switching po k e j x z p' env → ∀ {s}, s < um.nSys →
      StewartLam (um.Smat s) (fun n => (um.cVec s).entry n x z p') (env (.st2 .mu k e j s 0))
        fun i => env (.st2 .lam k e j s i) := by
    intro k e j x z p' hsw s hs i hi
    unfold UserModel.Switching at hsw
    rw [hp1] at hsw
    have := hsw s hs i (by rw [← (shape hs).1]; exact hi)
    unfold UserModel.gVal at this
    rw [hg] at this
    simpa using this
  have ptL : ∀ {k e j}, HasFE po k e → j < nLamPts po k e → ∀ {s}, s < um.nSys →
      ∃ c mu, StewartLam (um.Smat s) c mu fun i => env (.st2 .lam k e j s i) := by
    intro k e j hk hj s hs
    by_cases hj' : j < po.nS
    · exact ⟨_, _, swL (S.alg k e hk j hj').1 hs⟩
    · have hx : po.useFesd = true ∧ po.rbe = false ∧ j = lastLam po k e := by
        unfold nLamPts lastLam at *
        unfold extraPt at *
        split at hj
        · rename_i hc
          rw [if_pos hc]
          exact ⟨hc.1, hc.2.1, by omega⟩
        · omega
      obtain ⟨x1, x2, rfl⟩ := hx
      exact ⟨_, _, swL (S.boundary x2 x1 k e hk) hs⟩
  have stL : po.useFesd = true → ∀ {k e}, HasFE po k e → ∀ {s}, s < um.nSys →
      ∃ c mu, StewartLam (um.Smat s) c mu fun i => lamStart po k e env (.region s i) := by
    intro hu k e hk s hs
    cases hn : prevFe po k e with
    | none =>
      have : (fun i => lamStart po k e env (.region s i)) = fun i => env (.lam00 .lam s i) := by
        funext i; unfold lamStart; rw [hn]; rfl
      rw [this]
      exact h0 (h.e_useFesd.symm.trans hu) s hs
    | some q =>
      have : (fun i => lamStart po k e env (.region s i))
          = fun i => env (.st2 .lam q.1 q.2 (lastLam po q.1 q.2) s i) := by
        funext i; unfold lamStart; rw [hn]; rfl
      rw [this]
      exact ptL (prev_hasFE h.toSetup hk hn) (nLamPts_last (by rw [eS]; exact h.nS) _ _) hs
  -- complementarity of one switching function
  have key : ∀ {k e j s n}, HasFE po k e → j < po.nS → s < um.nSys → n < (um.Smat s).cols →
      ∀ l : Nat → ℝ, (∃ c mu, StewartLam (um.Smat s) c mu l) → (∀ i < (um.Smat s).rows, 0 ≤ l i) →
      (∀ i < (um.Smat s).rows, env (.st2 .theta k e j s i) * l i = 0) →
      A k e j s n * max (-cOf (um.Smat s) l n) 0 = 0 ∧
        (1 - A k e j s n) * max (cOf (um.Smat s) l n) 0 = 0 := by
    intro k e j s n hk hj hs hn l ⟨c, mu, hl⟩ hnn hz
    rw [hl.cOf_eq (hS s hs).1 (hS s hs).2 hn]
    refine hl.compl (hS s hs).1 (hS s hs).2 hnn (fun i hi => ?_) hn
    rw [(hA' hk hj hs).2 i hi]
    exact hz i hi
  have mult : MultOk po' m'.dims (toStep um env A) := by
    rw [eo]
    rw [eo] at ofN
    constructor
    · intro k e hk j hj q hq
      obtain ⟨s, n, hq' | hq', hs, hn⟩ := ofN hq <;> subst hq'
      · exact ((hA' hk hj hs).1 n hn).1
      · exact sub_nonneg.2 ((hA' hk hj hs).1 n hn).2
    · intro k e hk j hj q hq
      obtain ⟨s, n, hq' | hq', hs, hn⟩ := ofN hq <;> subst hq' <;> exact le_max_right _ _
    · intro q hq
      obtain ⟨s, n, hq' | hq', hs, hn⟩ := ofN hq <;> subst hq' <;> exact le_max_right _ _
    · intro k e hk j hj q hq
      have hj2 : j < nLamPts po k e := lt_of_lt_of_le hj (Nat.le_add_right _ _)
      obtain ⟨s, n, hq', hs, hn⟩ := ofN hq
      have := key hk hj hs hn _ (ptL hk hj2 hs)
        (fun i hi => M.lam k e hk j hj2 _ (isR hs hi)) fun i hi => M.own k e hk j hj _ (isR hs hi)
      rcases hq' with hq' | hq' <;> subst hq'
      · exact this.1
      · exact this.2
    · intro hu k e hk j hj j' hj' q hq
      have hj2 : j' < nLamPts po k e := lt_of_lt_of_le hj' (Nat.le_add_right _ _)
      obtain ⟨s, n, hq', hs, hn⟩ := ofN hq
      have := key hk hj hs hn _ (ptL hk hj2 hs)
        (fun i hi => M.lam k e hk j' hj2 _ (isR hs hi))
        fun i hi => M.cross hu k e hk j hj j' hj' _ (isR hs hi)
      rcases hq' with hq' | hq' <;> subst hq'
      · exact this.1
      · exact this.2
    · intro hu hc k e hk j hj j' hj' q hq
      obtain ⟨s, n, hq', hs, hn⟩ := ofN hq
      have := key hk hj hs hn _ (ptL hk hj' hs)
        (fun i hi => M.lam k e hk j' hj' _ (isR hs hi))
        fun i hi => M.crossEnd hu hc k e hk j hj j' hj' _ (isR hs hi)
      rcases hq' with hq' | hq' <;> subst hq'
      · exact this.1
      · exact this.2
    · intro hu k e hk j hj q hq
      obtain ⟨s, n, hq', hs, hn⟩ := ofN hq
      have := key hk hj hs hn _ (stL hu hk hs)
        (fun i hi => M.start (by rw [eS]; exact h.nS) h.toSetup.nfe_pos hk (isR hs hi))
        fun i hi => M.crossStart hu k e hk j hj _ (isR hs hi)
      rcases hq' with hq' | hq' <;> subst hq'
      · rw [(toStep_start k e s n).1]; exact this.1
      · rw [(toStep_start k e s n).2]; exact this.2
  have spec : FeasibleSpec po' m'.dims um (uo.getD UserOcp.trivial) (toStep um env A) := by
    rw [ed, eo] at mult ⊢
    refine S.pss (by rw [eS]; exact h.nS) h.toSetup.nfe_pos
      (by rw [h.e_stepEq]; exact hst) (compl_exact h D.mode.ne_boolean ha D.sigma D.slack) mult ?_ ?_ ?_
    · intro k e hk j hj x z p' hsw
      intro s hs n hn
      have hn' : n < (um.Smat s).cols := by rw [(shape hs).2]; exact hn
      have := (swL hsw hs).cOf_eq (hS s hs).1 (hS s hs).2 hn'
      change _ = max (cOf (um.Smat s) (fun i => env (.st2 .lam k e j s i)) n) 0
        - max (-cOf (um.Smat s) (fun i => env (.st2 .lam k e j s i)) n) 0
      rw [max_sub_max_neg, this]
    · intro hc
      cases hc
    · intro k e hk j hj i hi
      unfold UserModel.stageRhs
      rw [multEnv_xVal, hp1]
      obtain ⟨Fs, hFs⟩ := Option.isSome_iff_exists.1 hF
      simp only [hFs, pssOpts]
      unfold UserModel.rhsStep UserModel.rhsStewart
      refine Finset.sum_congr rfl fun s hs => Finset.sum_congr rfl fun i' hi' => ?_
      have hs := Finset.mem_range.1 hs
      have := (hA' hk hj hs).2 i' (by rw [(shape hs).1]; exact Finset.mem_range.1 hi')
      exact congrArg (_ * ·) this
  refine ⟨toStep um env A, ⟨D.mode, (h'.iff D.mode.ne_boolean).2 spec, D.sigma, D.slack, mult.lam00⟩,
    fun s hs => multEnv_other s hs, fun k e hk j hj s hs i hi => (hA' hk (by omega) hs).2 i
      (by rw [(shape hs).1]; exact hi), fun x z p' hl q hq => ?_⟩
  obtain ⟨s, n, hq', hs, hn⟩ := ofN hq
  have hSL : StewartLam (um.Smat s) (fun n => (um.cVec s).entry n x z p')
      (-⨅ j : Fin (um.Fmat s).nCols, um.gVal s j x z p') fun i => env (.lam00 .lam s i) := by
    intro i hi
    have : env (.lam00 .lam s i) = um.gVal s i x z p' - ⨅ j : Fin (um.Fmat s).nCols, um.gVal s j x z p' :=
      hl _ (isR hs hi)
    simp only [this, sub_neg_eq_add, sub_add_cancel]
    unfold UserModel.gVal
    rw [hg]
    simp
  have := hSL.cOf_eq (hS s hs).1 (hS s hs).2 hn
  rcases hq' with hq' | hq' <;> subst hq'
  · change max (-cOf (um.Smat s) (fun i => env (.lam00 .lam s i)) n) 0 = um.lam00Neg x z p' s n
    rw [this]; rfl
  · change max (cOf (um.Smat s) (fun i => env (.lam00 .lam s i)) n) 0 = um.lam00Pos x z p' s n
    rw [this]; rfl

/-- C95: with one switching function per subsystem nothing is missing: every exact solution of the
problem in Stewart's representation gives one of the step representation. -/
theorem C95_single_switching_partial (h : SetupEx colloc o um uo po m oc P)
    (h' : SetupEx colloc { o with pss := .step } um uo po' m' oc' P') (hp : o.pss = .stewart)
    (hS : FullSigns um) (h1 : ∀ s < um.nSys, (um.Smat s).cols = 1)
    (ha : o.mpcc ≠ .fischerBurmeisterIpAug)
    (hst : o.stepEq ≠ .direct ∧ o.stepEq ≠ .directComplementarity)
    (D : ExactSolution o po m P env)
    (h0 : o.useFesd = true → ∀ s < um.nSys, ∃ c mu,
      StewartLam (um.Smat s) c mu fun i => env (.lam00 .lam s i)) :
    ∃ env', ExactSolution { o with pss := .step } po' m' P' env' ∧ SamePath env env' := by
  have hw : ProductWeights po um env := by
    intro k e hk j hj s hs
    have hp1 : po.pss = .stewart := h.e_pss.trans hp
    obtain ⟨e1, -⟩ := h.toSetup.shapes_stewart hp1 hS.2.1 hs
    obtain ⟨-, -, -, -, -, -, dS, dF, -⟩ := h.toSetup.dims
    have := weights_single (hS.2.2 s hs).1 (hS.2.2 s hs).2 (h1 s hs)
      (θ := fun i => env (.st2 .theta k e j s i))
      (fun i hi => (D.multOk h).theta k e hk j hj (.region s i)
        ⟨hp1, by rw [dS]; exact hs, by rw [dF hp1 s hs, ← e1]; exact hi⟩)
      (by rw [e1]; exact ((h.spec D.feas).alg k e hk j hj).2.1 hp1 s hs)
    rw [e1] at this
    exact this
  obtain ⟨env', a, b, -⟩ := C95_stewart_to_step_partial h h' hp hS ha hst D hw h0
  exact ⟨env', a, b⟩

/-- C95: in the two problems, points with the same trajectory have the same objective value, unless the step
equilibration penalises with the multipliers. -/
theorem C95_objective {p : PssMode} {env env' : Env} (h : SetupEx colloc o um uo po m oc P)
    (h' : SetupEx colloc { o with pss := p } um uo po' m' oc' P')
    (hs : o.useFesd = false ∨ (o.stepEq ≠ .l2RelaxedScaled ∧ o.stepEq ≠ .l2Relaxed))
    (hp : SamePath env env') : P'.form.cost env' = P.form.cost env := by
  rw [h.toSetup.built.cost h.exact', h'.toSetup.built.cost h'.exact']
  obtain ⟨rfl, ed⟩ := h.toSetup.rePss h'.toSetup
  rw [ed]
  exact objective_samePath hp (by rw [h.e_useFesd, h.e_stepEq]; exact hs)

end
end Nosnoc
