import Verif.Proofs.Transfer
import Verif.Props.Dynamics
import Verif.Props.Equiv
import Verif.Spec.SameTraj
import Verif.Witness.Free
/-
C18, C19: the representations of the Runge-Kutta equations describe the same trajectories.
-/
namespace Nosnoc

theorem reEnv_other {env : Env} {V X : Nat → Nat → Nat → Nat → ℝ} {E : Nat → Nat → Nat → ℝ} (s : Sym)
    (hs : ¬ s.IsRep) : reEnv env V X E s = env s := by
  cases s with
  | st1 f k e j i => cases f <;> first | rfl | exact absurd trivial hs
  | xEnd k e i => exact absurd trivial hs
  | _ => rfl

section
variable {colloc : IrkScheme → Nat → List ℝ} {o : Opts} {um : UserModel} {uo : Option UserOcp}
  {po : PreOpts} {m : PreModel} {oc : PreOcp} {P : Problem} {env : Env}
  {po' : PreOpts} {m' : PreModel} {oc' : PreOcp} {P' : Problem} {r : IrkRep}

/-- Two constructions that differ in the representation only. -/
theorem Setup.reRep (h : Setup colloc o um uo po m oc P)
    (h' : Setup colloc { o with irkRep := r } um uo po' m' oc' P') (hrbe : po'.rbe = po.rbe) :
    po' = reOpts po r po' ∧ m' = m ∧ oc' = oc := by
  have hc := h.ok
  have hc' := h'.ok
  unfold construct at hc hc'
  simp only [bind_eq_ok] at hc hc'
  obtain ⟨_, _, a, ha, b, hb, c, hcc, d, hd, hh⟩ := hc
  cases hh
  obtain ⟨_, _, a', ha', b', hb', c', hcc', d', hd', hh'⟩ := hc'
  cases hh'
  have h1 := preprocess_opts ha
  have h1' := preprocess_opts ha'
  have hpo : po' = reOpts po r po' := by
    have e1 := h1.toOpts
    have e2 := h1'.toOpts
    have hi : po'.maxIterHomotopy = po.maxIterHomotopy := by
      have i1 := h1.iter
      have i2 : o.maxIter = .ok po'.maxIterHomotopy := h1'.iter
      rw [i1] at i2
      exact ((Except.ok.injEq _ _).mp i2).symm
    have e3 : po'.toOpts = { po.toOpts with irkRep := r } := by
      rw [e2, hi, e1]
      rfl
    obtain ⟨p0, p1, p2, p3, p4, p5, p6, p7⟩ := po'
    simp only at e3 hrbe
    subst e3
    subst hrbe
    rfl
  refine ⟨hpo, ?_⟩
  have hm : m' = m := by
    rw [hpo] at hb'
    have : um.preprocess (reOpts po r po') = um.preprocess po := rfl
    rw [this, hb] at hb'
    exact ((Except.ok.injEq _ _).mp hb').symm
  subst hm
  rw [hcc] at hcc'
  exact ⟨rfl, ((Except.ok.injEq _ _).mp hcc').symm⟩

theorem Setup.lastFE (h : Setup colloc o um uo po m oc P) :
    HasFE po (po.nStages - 1) (nfe po (po.nStages - 1) - 1) ∧ ∀ k < po.nStages, 0 < nfe po k := by
  have hp := h.built.ok.primal
  have h0 := hp.stages
  refine ⟨⟨by omega, ?_⟩, fun k hk => (hp.nfe k hk).2⟩
  have := (hp.nfe (po.nStages - 1) (by omega)).2
  omega

theorem SetupEx.iff (h : SetupEx colloc o um uo po m oc P) (hb : o.mpcc ≠ .boolean) :
    P.form.Feasible env ↔ FeasibleSpec po m.dims um (uo.getD UserOcp.trivial) env :=
  master_iff h.toSetup.built h.exact' (by rw [h.toSetup.opts]; exact hb) h.alpha h.sound

/-- A non-integral construction uses the same coefficients in both forms. -/
theorem Setup.reTables {o₁ o₂ : Opts} {po₁ po₂ : PreOpts}
    (h₁ : OptsPre colloc o₁ po₁) (h₂ : OptsPre colloc o₂ po₂) (r₁ : o₁.irkRep ≠ .integral)
    (r₂ : o₂.irkRep ≠ .integral) (hs : o₁.scheme = o₂.scheme) (hn : o₁.nS = o₂.nS) :
    po₁.aIrk = po₂.aIrk ∧ po₁.bIrk = po₂.bIrk ∧ po₁.rbe = po₂.rbe := by
  obtain ⟨t, ht, a1, b1, c1⟩ := h₁.diff r₁
  obtain ⟨t', ht', a2, b2, c2⟩ := h₂.diff r₂
  rw [hs, hn, ht'] at ht
  cases ht
  refine ⟨by rw [a1, a2], by rw [b1, b2], ?_⟩
  have i1 := h₁.rbe_iff r₁
  have i2 := h₂.rbe_iff r₂
  rw [hs, ← i2] at i1
  cases h1 : po₁.rbe <;> cases h2 : po₂.rbe <;> simp_all

/-- C18: every feasible point of the DIFFERENTIAL problem whose stage states satisfy the state bounds
is, up to the choice of variables, a feasible point of the DIFFERENTIAL_LIFT_X problem with the same
trajectory and the same stage derivatives. -/
theorem C18_differential_to_lift (h : SetupEx colloc o um uo po m oc P)
    (h' : SetupEx colloc { o with irkRep := .differentialLiftX } um uo po' m' oc' P')
    (hd : o.irkRep = .differential) (hb : o.mpcc ≠ .boolean) (hf : P.form.Feasible env)
    (hx : StageBounds po m.dims (uo.getD UserOcp.trivial) env) :
    ∃ env', P'.form.Feasible env' ∧ SameTraj m.dims po env po' env' ∧
      ∀ k e, HasFE po k e → ∀ j < o.nS, ∀ i < um.nX,
        env' (.st1 .v k e j i) = env (.st1 .v k e j i) := by
  have ho := h.toSetup.built.opts
  have ho' := h'.toSetup.built.opts
  have hdn : o.irkRep ≠ .integral := by rw [hd]; decide
  obtain ⟨eA, eB, eR⟩ := Setup.reTables ho ho' hdn (by simp) rfl rfl
  obtain ⟨e1, e2, e3⟩ := h.toSetup.reRep h'.toSetup eR.symm
  have eo := h.toSetup.opts
  have eS : po.nS = o.nS := by rw [eo]
  have erep : po.irkRep = .differential := by rw [eo]; exact hd
  have S := h.spec hf
  have hown : ownEnd po = true := by simp [ownEnd, erep]
  obtain ⟨hl, hpos⟩ := h.toSetup.lastFE
  have RK := C17_runge_kutta h hf hdn
  obtain ⟨t, ht, RK⟩ := RK
  obtain ⟨d1, _⟩ := h.toSetup.dims
  -- the lifted point
  set X : Nat → Nat → Nat → Nat → ℝ := fun k e j i => (xVal po m.dims k e j env).getD i 0 with hX
  set V : Nat → Nat → Nat → Nat → ℝ := fun k e j i => env (.st1 .v k e j i) with hV
  set E : Nat → Nat → Nat → ℝ := fun k e i => env (.xEnd k e i) with hE
  set env' := reEnv env V X E with henv'
  have hend : ∀ k e, HasFE po k e → ∀ i < m.dims.nX,
      env' (endX (reOpts po .differentialLiftX po') k e i) = env (endX po k e i) := by
    intro k e hk i hi
    unfold endX
    rw [if_pos hown]
    by_cases hrb : po.rbe = true
    · have ho2 : ownEnd (reOpts po .differentialLiftX po') = false := by
        simp [ownEnd, reOpts, hrb]
      rw [if_neg (by simp [ho2])]
      show (xVal po m.dims k e (po.nS - 1) env).getD i 0 = _
      rw [eS, C16_last_stage_is_end h hf hrb hk, xEndVal_get hi, endX, if_pos hown]
    · have ho2 : ownEnd (reOpts po .differentialLiftX po') = true := by
        simp only [Bool.not_eq_true] at hrb
        simp [ownEnd, reOpts, hrb]
      rw [if_pos ho2]
      rfl
  have hstart : ∀ k e, HasFE po k e → ∀ i < m.dims.nX,
      env' (startX (reOpts po .differentialLiftX po') k e i) = env (startX po k e i) := by
    intro k e hk i hi
    unfold startX
    have hp : prevFe (reOpts po .differentialLiftX po') k e = prevFe po k e := rfl
    rw [hp]
    unfold prevFe
    by_cases he : 0 < e
    · rw [if_pos he]
      exact hend k (e - 1) ⟨hk.1, lt_of_le_of_lt (Nat.sub_le _ _) hk.2⟩ i hi
    · rw [if_neg he]
      by_cases hk0 : 0 < k
      · rw [if_pos hk0]
        have := hpos (k - 1) (lt_of_le_of_lt (Nat.sub_le _ _) hk.1)
        exact hend (k - 1) _ ⟨lt_of_le_of_lt (Nat.sub_le _ _) hk.1, by omega⟩ i hi
      · rw [if_neg hk0]; rfl
  have hxv : ∀ k e j, xVal (reOpts po .differentialLiftX po') m.dims k e j env'
      = xVal po m.dims k e j env := by
    intro k e j
    refine ext_getD (by rw [length_xVal, length_xVal]) fun i hi => ?_
    rw [length_xVal] at hi
    rw [xVal_get hi, if_neg (by simp [reOpts])]
    rfl
  have hev : ∀ k e, HasFE po k e → xEndVal (reOpts po .differentialLiftX po') m.dims k e env'
      = xEndVal po m.dims k e env := by
    intro k e hk
    refine ext_getD (by rw [length_xEndVal, length_xEndVal]) fun i hi => ?_
    rw [length_xEndVal] at hi
    rw [xEndVal_get hi, xEndVal_get hi, hend k e hk i hi]
  have hspec : FeasibleSpec (reOpts po .differentialLiftX po') m.dims um
      (uo.getD UserOcp.trivial) env' := by
    refine S.transfer (by rw [eS]; exact h.nS) (fun k e _ j _ => hxv k e j) hev hl hpos
      (fun _ k e hk j hj i hi => hx k e hk j hj i hi) ?_ ?_ ?_ ?_
    · intro _ k e hk i hi
      have := S.bounds (.xEnd k e i) ⟨hown, hk, hi⟩
      exact this
    · intro k e hk j hj i hi
      unfold RkEq
      rw [if_neg (by simp [reOpts]), reEnv_sotVal, reEnv_rhs (hxv k e j)]
      have := S.rk k e hk j hj i hi
      unfold RkEq at this
      rw [if_neg (by rw [erep]; decide)] at this
      exact this
    · intro _ k e hk j hj i hi
      unfold LiftEq
      rw [← henv', hstart k e hk i hi, henv', reEnv_hVal]
      show (xVal po m.dims k e j env).getD i 0 = _
      rw [xVal_get hi, if_pos erep]
      congr 1
      refine Finset.sum_congr rfl fun r _ => ?_
      rw [eA]; rfl
    · intro _ k e hk i hi
      unfold EndEq
      rw [if_neg (by simp [reOpts]), ← henv', hstart k e hk i hi, henv', reEnv_hVal]
      have := S.cont hown k e hk i hi
      unfold EndEq at this
      rw [if_neg (by rw [erep]; decide), eB] at this
      exact this
  rw [← e1] at hspec hev
  refine ⟨env', (h'.iff hb).2 (by rw [e2]; exact hspec), ⟨fun s hs => reEnv_other s hs, ?_, hev⟩,
    fun _ _ _ _ _ _ _ => rfl⟩
  intro k e _ j _
  have := hxv k e j
  rwa [← e1] at this

/-- C18: every feasible point of the DIFFERENTIAL_LIFT_X problem is, up to the choice of variables, a
feasible point of the DIFFERENTIAL problem with the same trajectory and stage derivatives. -/
theorem C18_lift_to_differential (h : SetupEx colloc o um uo po m oc P)
    (h' : SetupEx colloc { o with irkRep := .differential } um uo po' m' oc' P')
    (hd : o.irkRep = .differentialLiftX) (hb : o.mpcc ≠ .boolean) (hf : P.form.Feasible env) :
    StageBounds po m.dims (uo.getD UserOcp.trivial) env ∧
    ∃ env', P'.form.Feasible env' ∧ SameTraj m.dims po env po' env' ∧
      ∀ k e, HasFE po k e → ∀ j < o.nS, ∀ i < um.nX,
        env' (.st1 .v k e j i) = env (.st1 .v k e j i) := by
  have ho := h.toSetup.built.opts
  have ho' := h'.toSetup.built.opts
  have hdn : o.irkRep ≠ .integral := by rw [hd]; decide
  obtain ⟨eA, eB, eR⟩ := Setup.reTables ho ho' hdn (by simp) rfl rfl
  obtain ⟨e1, e2, e3⟩ := h.toSetup.reRep h'.toSetup eR.symm
  have eo := h.toSetup.opts
  have eS : po.nS = o.nS := by rw [eo]
  have erep : po.irkRep = .differentialLiftX := by rw [eo]; exact hd
  have S := h.spec hf
  obtain ⟨hl, hpos⟩ := h.toSetup.lastFE
  obtain ⟨t, ht, RK⟩ := C17_runge_kutta h hf hdn
  obtain ⟨d1, _⟩ := h.toSetup.dims
  obtain ⟨t', ht', hA, hB, _⟩ := ho.diff hdn
  rw [ht] at ht'
  cases ht'
  have hsb : StageBounds po m.dims (uo.getD UserOcp.trivial) env := by
    intro k e hk j hj i hi
    rw [xVal_get hi, if_neg (by rw [erep]; decide)]
    exact S.bounds (.st1 .x k e j i) ⟨by rw [erep]; decide, hk, hj, hi⟩
  refine ⟨hsb, ?_⟩
  set X : Nat → Nat → Nat → Nat → ℝ := fun k e j i => env (.st1 .x k e j i) with hX
  set V : Nat → Nat → Nat → Nat → ℝ := fun k e j i => env (.st1 .v k e j i) with hV
  set E : Nat → Nat → Nat → ℝ := fun k e i => env (endX po k e i) with hE
  set env' := reEnv env V X E with henv'
  have ho2 : ownEnd (reOpts po .differential po') = true := by simp [ownEnd, reOpts]
  have hend : ∀ k e i, env' (endX (reOpts po .differential po') k e i) = env (endX po k e i) := by
    intro k e i
    conv_lhs => unfold endX
    rw [if_pos ho2]
    rfl
  have hstart : ∀ k e i,
      env' (startX (reOpts po .differential po') k e i) = env (startX po k e i) := by
    intro k e i
    unfold startX
    have hp : prevFe (reOpts po .differential po') k e = prevFe po k e := rfl
    rw [hp]
    cases prevFe po k e with
    | none => rfl
    | some q => exact hend q.1 q.2 i
  have hxv : ∀ k e, HasFE po k e → ∀ j < po.nS,
      xVal (reOpts po .differential po') m.dims k e j env' = xVal po m.dims k e j env := by
    intro k e hk j hj
    refine ext_getD (by rw [length_xVal, length_xVal]) fun i hi => ?_
    rw [length_xVal] at hi
    rw [xVal_get hi, if_pos (by simp [reOpts]), hstart, reEnv_hVal, xVal_get hi,
      if_neg (by rw [erep]; decide), S.lift erep k e hk j hj i hi]
    congr 1
    refine Finset.sum_congr rfl fun r _ => ?_
    rw [eA]; rfl
  have hev : ∀ k e, HasFE po k e → xEndVal (reOpts po .differential po') m.dims k e env'
      = xEndVal po m.dims k e env := by
    intro k e hk
    refine ext_getD (by rw [length_xEndVal, length_xEndVal]) fun i hi => ?_
    rw [length_xEndVal] at hi
    rw [xEndVal_get hi, xEndVal_get hi, hend]
  have hspec : FeasibleSpec (reOpts po .differential po') m.dims um
      (uo.getD UserOcp.trivial) env' := by
    refine S.transfer (by rw [eS]; exact h.nS) hxv hev hl hpos
      (fun hne => absurd rfl hne) ?_ ?_ (fun hne => by cases hne) ?_
    · intro _ k e hk i hi
      by_cases hown : ownEnd po = true
      · have := S.bounds (.xEnd k e i) ⟨hown, hk, hi⟩
        simp only [hE, endX, if_pos hown]
        exact this
      · have := S.bounds (.st1 .x k e (po.nS - 1) i) ⟨by rw [erep]; decide, hk, by
          have := h.nS; omega, hi⟩
        simp only [hE, endX, if_neg hown]
        exact this
    · intro k e hk j hj i hi
      unfold RkEq
      rw [if_neg (by simp [reOpts]), reEnv_sotVal, reEnv_rhs (hxv k e hk j hj)]
      have := S.rk k e hk j hj i hi
      unfold RkEq at this
      rw [if_neg (by rw [erep]; decide)] at this
      exact this
    · intro _ k e hk i hi
      unfold EndEq
      rw [if_neg (by simp [reOpts]), ← henv', hstart, henv', reEnv_hVal]
      have := (RK k e hk).finish i (by rw [← d1]; exact hi)
      rw [xEndVal_get hi, startVal_get hi, Finset.mul_sum] at this
      show env (endX po k e i) = _
      rw [this, ← eS]
      congr 1
      refine Finset.sum_congr rfl fun r _ => ?_
      show _ = hVal po k e env * po'.bIrk r * _
      rw [← eB, hB, vecFun_eq, mul_assoc]
      rfl
  rw [← e1] at hspec hev hxv
  exact ⟨env', (h'.iff hb).2 (by rw [e2]; exact hspec),
    ⟨fun s hs => reEnv_other s hs, hxv, hev⟩, fun _ _ _ _ _ _ _ => rfl⟩

/-- The end state of a collocation step with stage derivatives `K`. -/
theorem colloc_end {points : List ℝ} (hc : CollocOk points po.nS) (hpos : 0 < po.nS)
    (hD : po.DIrk = (generateButcherIntegral points).D)
    (hrb : po.rbe = true → points.getLast? = some 1) (x0 h : ℝ) (x K : Nat → ℝ) (E : ℝ)
    (H : ∀ j < po.nS, x j = x0 + ∑ r ∈ Finset.range po.nS, h * collocA points j r * K r) :
    (if po.rbe then E = x (po.nS - 1) else
      E = po.DIrk 0 * x0 + ∑ j ∈ Finset.range po.nS, po.DIrk (j + 1) * x j)
    ↔ E = x0 + ∑ r ∈ Finset.range po.nS, h * collocB points r * K r := by
  have hl := hc.length
  have he := C19_end_state hc.nodup h x0 x K (by rw [hl]; exact H)
  rw [hl] at he
  rw [← he]
  cases hb : po.rbe with
  | false => rw [if_neg (by simp), hD]
  | true =>
    have h1 := hrb hb
    rw [if_pos rfl, C16_D_selects_last hc.nodup h1 (by omega), if_neg (by omega), zero_mul, zero_add,
      Finset.sum_eq_single (po.nS - 1)]
    · rw [C16_D_selects_last hc.nodup h1 (by omega), if_pos (by omega), one_mul]
    · intro b hb hb'
      have := Finset.mem_range.1 hb
      rw [C16_D_selects_last hc.nodup h1 (by omega), if_neg (by omega), zero_mul]
    · intro hn; exact absurd (Finset.mem_range.2 (by omega)) hn

/-- With the INTEGRAL representation, an explicit end point means that the last collocation point
is 1. -/
theorem OptsPre.last_one (h : OptsPre colloc o po) (hr : o.irkRep = .integral)
    (hc : CollocOk (colloc o.scheme o.nS) o.nS) (hn : 0 < o.nS) (hb : po.rbe = true) :
    (colloc o.scheme o.nS).getLast? = some 1 := by
  obtain ⟨_, _, _, htp⟩ := h.integral hr
  obtain ⟨c, hcl, hb'⟩ := h.rbe
  rw [htp] at hcl
  have hlen := hc.length
  have hne : colloc o.scheme o.nS ≠ [] := by intro h0; rw [h0] at hlen; simp at hlen; omega
  have hcl' : (colloc o.scheme o.nS).getLast? = some c := by
    rw [List.getLast?_cons] at hcl
    obtain ⟨c', hc'⟩ := List.getLast?_isSome.2 hne |> Option.isSome_iff_exists.1
    rw [hc'] at hcl ⊢
    simpa using hcl
  rw [hb, eq_comm, decide_eq_true_iff] at hb'
  rw [hcl', hc.last c hcl' hb']

/-- C19: every feasible point of the INTEGRAL problem is, up to the choice of variables, feasible for
the DIFFERENTIAL problem with the collocation tableau of the same points, with the same trajectory;
the stage derivatives are the right-hand sides. -/
theorem C19_integral_to_differential (h : SetupEx colloc o um uo po m oc P)
    (hi : o.irkRep = .integral) (hc : CollocOk (colloc o.scheme o.nS) o.nS)
    (hf : P.form.Feasible env) :
    StageBounds po m.dims (uo.getD UserOcp.trivial) env ∧
    ∃ env', FeasibleSpec (diffForm po (colloc o.scheme o.nS)) m.dims um
        (uo.getD UserOcp.trivial) env' ∧
      SameTraj m.dims po env (diffForm po (colloc o.scheme o.nS)) env' ∧
      ∀ k e, HasFE po k e → ∀ j < o.nS, ∀ i < um.nX,
        env' (.st1 .v k e j i) = sotVal po k env * um.stageRhs po m.dims k e j i env := by
  have ho := h.toSetup.built.opts
  have eo := h.toSetup.opts
  have eS : po.nS = o.nS := by rw [eo]
  have erep : po.irkRep = .integral := by rw [eo]; exact hi
  have S := h.spec hf
  obtain ⟨hl, hpos⟩ := h.toSetup.lastFE
  obtain ⟨d1, _⟩ := h.toSetup.dims
  obtain ⟨_, hC, hD, _⟩ := ho.integral hi
  have hnS := h.nS
  have hrb := fun hb => ho.last_one hi hc h.nS hb
  generalize hpts : colloc o.scheme o.nS = points at *
  have hsb : StageBounds po m.dims (uo.getD UserOcp.trivial) env := by
    intro k e hk j hj i hi
    rw [xVal_get hi, if_neg (by rw [erep]; decide)]
    exact S.bounds (.st1 .x k e j i) ⟨by rw [erep]; decide, hk, hj, hi⟩
  refine ⟨hsb, ?_⟩
  set c : PreOpts := { po with aIrk := collocA points, bIrk := collocB points } with hcdef
  have hre : diffForm po points = reOpts po .differential c := rfl
  set X : Nat → Nat → Nat → Nat → ℝ := fun k e j i => env (.st1 .x k e j i) with hX
  set V : Nat → Nat → Nat → Nat → ℝ :=
    fun k e j i => sotVal po k env * um.stageRhs po m.dims k e j i env with hV
  set E : Nat → Nat → Nat → ℝ := fun k e i => env (endX po k e i) with hE
  set env' := reEnv env V X E with henv'
  have ho2 : ownEnd (reOpts po .differential c) = true := by simp [ownEnd, reOpts]
  have hend : ∀ k e i, env' (endX (reOpts po .differential c) k e i) = env (endX po k e i) := by
    intro k e i
    conv_lhs => unfold endX
    rw [if_pos ho2]
    rfl
  have hstart : ∀ k e i,
      env' (startX (reOpts po .differential c) k e i) = env (startX po k e i) := by
    intro k e i
    unfold startX
    have hp : prevFe (reOpts po .differential c) k e = prevFe po k e := rfl
    rw [hp]
    cases prevFe po k e with
    | none => rfl
    | some q => exact hend q.1 q.2 i
  have hstage : ∀ k e, HasFE po k e → ∀ i < m.dims.nX, ∀ j < po.nS,
      env (.st1 .x k e j i) = env (startX po k e i)
        + ∑ r ∈ Finset.range po.nS, hVal po k e env * collocA points j r * V k e r i := by
    intro k e hk i hi
    have := (C19_stage_equations hc.nodup (hVal po k e env) (env (startX po k e i))
      (fun j => env (.st1 .x k e j i)) (fun j => V k e j i)).1 (by
        intro j hj
        rw [hc.length] at hj ⊢
        have := S.rk k e hk j (by rw [eS]; exact hj) i hi
        unfold RkEq at this
        rw [if_pos erep, hC, eS] at this
        exact this)
    rw [hc.length, ← eS] at this
    exact this
  have hxv : ∀ k e, HasFE po k e → ∀ j < po.nS,
      xVal (reOpts po .differential c) m.dims k e j env' = xVal po m.dims k e j env := by
    intro k e hk j hj
    refine ext_getD (by rw [length_xVal, length_xVal]) fun i hi => ?_
    rw [length_xVal] at hi
    rw [xVal_get hi, if_pos (by simp [reOpts]), hstart, reEnv_hVal, xVal_get hi,
      if_neg (by rw [erep]; decide), hstage k e hk i hi j hj]
    rfl
  have hev : ∀ k e, HasFE po k e → xEndVal (reOpts po .differential c) m.dims k e env'
      = xEndVal po m.dims k e env := by
    intro k e hk
    refine ext_getD (by rw [length_xEndVal, length_xEndVal]) fun i hi => ?_
    rw [length_xEndVal] at hi
    rw [xEndVal_get hi, xEndVal_get hi, hend]
  refine ⟨env', ?_, ⟨fun s hs => reEnv_other s hs, hxv, hev⟩, fun _ _ _ _ _ _ _ => rfl⟩
  rw [hre]
  refine S.transfer (by rw [eS]; exact h.nS) hxv hev hl hpos
      (fun hne => absurd rfl hne) ?_ ?_ (fun hne => by cases hne) ?_
  · intro _ k e hk i hi
    by_cases hown : ownEnd po = true
    · have := S.bounds (.xEnd k e i) ⟨hown, hk, hi⟩
      simp only [hE, endX, if_pos hown]
      exact this
    · have := S.bounds (.st1 .x k e (po.nS - 1) i) ⟨by rw [erep]; decide, hk, by omega, hi⟩
      simp only [hE, endX, if_neg hown]
      exact this
  · intro k e hk j hj i hi
    unfold RkEq
    rw [if_neg (by simp [reOpts]), reEnv_sotVal, reEnv_rhs (hxv k e hk j hj)]
    rfl
  · intro _ k e hk i hi
    unfold EndEq
    rw [if_neg (by simp [reOpts]), ← henv', hstart, henv', reEnv_hVal]
    refine (colloc_end (by rw [eS]; exact hc) (by omega) hD hrb _ _
      (fun j => env (.st1 .x k e j i)) (fun r => V k e r i) _ (hstage k e hk i hi)).1 ?_
    show if po.rbe = true then env (endX po k e i) = _ else env (endX po k e i) = _
    by_cases hb : po.rbe = true
    · rw [if_pos hb, endX, if_neg (by simp [ownEnd, hb, erep])]
    · have hown : ownEnd po = true := by
        simp only [Bool.not_eq_true] at hb
        simp [ownEnd, hb]
      rw [if_neg hb, endX, if_pos hown]
      have := S.cont hown k e hk i hi
      unfold EndEq at this
      rw [if_pos erep] at this
      exact this

/-- C19: conversely, every solution of the DIFFERENTIAL problem with the collocation tableau whose
stage states satisfy the state bounds yields a feasible point of the INTEGRAL problem with the same
trajectory. -/
theorem C19_differential_to_integral (h : SetupEx colloc o um uo po m oc P)
    (hi : o.irkRep = .integral) (hb : o.mpcc ≠ .boolean)
    (hc : CollocOk (colloc o.scheme o.nS) o.nS)
    (S : FeasibleSpec (diffForm po (colloc o.scheme o.nS)) m.dims um
      (uo.getD UserOcp.trivial) env)
    (hsb : StageBounds (diffForm po (colloc o.scheme o.nS)) m.dims (uo.getD UserOcp.trivial) env) :
    ∃ env', P.form.Feasible env' ∧
      SameTraj m.dims (diffForm po (colloc o.scheme o.nS)) env po env' := by
  have ho := h.toSetup.built.opts
  have eo := h.toSetup.opts
  have eS : po.nS = o.nS := by rw [eo]
  have erep : po.irkRep = .integral := by rw [eo]; exact hi
  obtain ⟨hl, hpos⟩ := h.toSetup.lastFE
  obtain ⟨d1, _⟩ := h.toSetup.dims
  obtain ⟨_, hC, hD, _⟩ := ho.integral hi
  have hnS := h.nS
  have hrb := fun hb => ho.last_one hi hc h.nS hb
  generalize hpts : colloc o.scheme o.nS = points at *
  set dpo := diffForm po points with hdpo
  have hre : po = reOpts dpo .integral po := by rw [← erep]; rfl
  set X : Nat → Nat → Nat → Nat → ℝ := fun k e j i => (xVal dpo m.dims k e j env).getD i 0 with hX
  set V : Nat → Nat → Nat → Nat → ℝ := fun _ _ _ _ => 0 with hV
  set E : Nat → Nat → Nat → ℝ := fun k e i => env (.xEnd k e i) with hE
  set env' := reEnv env V X E with henv'
  have hrd : dpo.irkRep = .differential := rfl
  have ho1 : ownEnd dpo = true := by simp [ownEnd, hrd]
  have hstage : ∀ k e i, i < m.dims.nX → ∀ j < po.nS, X k e j i = env (startX dpo k e i)
        + ∑ r ∈ Finset.range po.nS, hVal dpo k e env * collocA points j r
          * env (.st1 .v k e r i) := by
    intro k e i hi j _
    simp only [hX]
    rw [xVal_get hi, if_pos hrd]
    rfl
  have hend' : ∀ k e, HasFE po k e → ∀ i < m.dims.nX,
      if po.rbe then env (.xEnd k e i) = X k e (po.nS - 1) i else
      env (.xEnd k e i) = po.DIrk 0 * env (startX dpo k e i)
        + ∑ j ∈ Finset.range po.nS, po.DIrk (j + 1) * X k e j i := by
    intro k e hk i hi
    refine (colloc_end (by rw [eS]; exact hc) (by omega) hD hrb _ (hVal dpo k e env)
      (fun j => X k e j i) (fun r => env (.st1 .v k e r i)) _ (hstage k e i hi)).2 ?_
    have := S.cont ho1 k e hk i hi
    unfold EndEq at this
    rw [if_neg (by rw [hrd]; decide)] at this
    exact this
  have hend : ∀ k e, HasFE po k e → ∀ i < m.dims.nX, env' (endX po k e i) = env (endX dpo k e i) := by
    intro k e hk i hi
    unfold endX
    rw [if_pos ho1]
    have := hend' k e hk i hi
    by_cases hb : po.rbe = true
    · rw [if_neg (by simp [ownEnd, hb, erep])]
      rw [if_pos hb] at this
      exact this.symm
    · rw [if_pos (by simp only [Bool.not_eq_true] at hb; simp [ownEnd, hb])]
      rfl
  have hstart : ∀ k e, HasFE po k e → ∀ i < m.dims.nX,
      env' (startX po k e i) = env (startX dpo k e i) := by
    intro k e hk i hi
    unfold startX
    have hp : prevFe dpo k e = prevFe po k e := rfl
    rw [hp]
    unfold prevFe
    by_cases he : 0 < e
    · rw [if_pos he]
      exact hend k (e - 1) ⟨hk.1, lt_of_le_of_lt (Nat.sub_le _ _) hk.2⟩ i hi
    · rw [if_neg he]
      by_cases hk0 : 0 < k
      · rw [if_pos hk0]
        have := hpos (k - 1) (lt_of_le_of_lt (Nat.sub_le _ _) hk.1)
        exact hend (k - 1) _ ⟨lt_of_le_of_lt (Nat.sub_le _ _) hk.1, by omega⟩ i hi
      · rw [if_neg hk0]; rfl
  have hxv : ∀ k e j, xVal po m.dims k e j env' = xVal dpo m.dims k e j env := by
    intro k e j
    refine ext_getD (by rw [length_xVal, length_xVal]) fun i hi => ?_
    rw [length_xVal] at hi
    rw [xVal_get hi, if_neg (by rw [erep]; decide)]
    rfl
  have hev : ∀ k e, HasFE po k e → xEndVal po m.dims k e env' = xEndVal dpo m.dims k e env := by
    intro k e hk
    refine ext_getD (by rw [length_xEndVal, length_xEndVal]) fun i hi => ?_
    rw [length_xEndVal] at hi
    rw [xEndVal_get hi, xEndVal_get hi, hend k e hk i hi]
  refine ⟨env', (h.iff hb).2 ?_, ⟨fun s hs => reEnv_other s hs, fun k e _ j _ => hxv k e j, hev⟩⟩
  have hT := S.transfer (r := .integral) (c := po) (V := V) (X := X) (E := E)
    (show 0 < po.nS by omega)
  rw [← hre] at hT
  refine hT (fun k e _ j _ => hxv k e j) hev hl hpos
    (fun _ k e hk j hj i hi => hsb k e hk j hj i hi) ?_ ?_ (fun hne => by cases hne) ?_
  · intro _ k e hk i hi
    exact S.bounds (.xEnd k e i) ⟨ho1, hk, hi⟩
  · intro k e hk j hj i hi
    unfold RkEq
    have e1 : um.stageRhs po m.dims k e j i (reEnv env V X E) = um.stageRhs dpo m.dims k e j i env := by
      have := reEnv_rhs (um := um) (o := dpo) (r := .integral) (c := po) (d := m.dims) (env := env)
        (V := V) (X := X) (E := E) (k := k) (e := e) (j := j) (i := i) (by rw [← hre]; exact hxv k e j)
      rwa [← hre] at this
    have e2 : hVal po k e (reEnv env V X E) = hVal dpo k e env := by
      have := reEnv_hVal (o := dpo) (r := .integral) (c := po) (env := env)
        (V := V) (X := X) (E := E) k e
      rwa [← hre] at this
    have e3 : sotVal po k (reEnv env V X E) = sotVal dpo k env := by
      have := reEnv_sotVal (o := dpo) (r := .integral) (c := po) (env := env)
        (V := V) (X := X) (E := E) k
      rwa [← hre] at this
    rw [if_pos erep, e1, e2, e3, ← henv', hstart k e hk i hi]
    have hv := S.rk k e hk j hj i hi
    unfold RkEq at hv
    rw [if_neg (by rw [hrd]; decide)] at hv
    rw [← hv]
    have := (C19_stage_equations hc.nodup (hVal dpo k e env) (env (startX dpo k e i))
      (fun j => X k e j i) (fun j => env (.st1 .v k e j i))).2 (by
        rw [hc.length, ← eS]; exact hstage k e i hi) j (by rw [hc.length, ← eS]; exact hj)
    rw [hc.length, ← eS, ← hC] at this
    exact this
  · intro hown k e hk i hi
    unfold EndEq
    rw [if_pos erep, ← henv', hstart k e hk i hi]
    have hnb : po.rbe = false := by
      cases hb : po.rbe
      · rfl
      · simp [ownEnd, hb, erep] at hown
    have := hend' k e hk i hi
    rw [if_neg (by simp [hnb])] at this
    exact this

end

/-! ### The state bounds hypothesis -/

/-- Options of the witness: two standard elements of length 1/2, Radau with two stages. -/
noncomputable def boundOpts (r : IrkRep) : Opts :=
  { Opts.default with useFesd := false, irkRep := r }

/-- State bound `x ≤ 1/10`. -/
noncomputable def boundOcp : UserOcp := { UserOcp.trivial with ubx := some [((1 / 10 : ℝ) : EReal)] }

theorem bound_demo (r : IrkRep) : DemoOpts (boundOpts r) := by
  constructor <;> simp [boundOpts, Opts.default, Opts.nfeAfter]

theorem bound_setup (r : IrkRep) : ∃ po m oc P,
    SetupEx demoColloc (boundOpts r) freeModel (some boundOcp) po m oc P ∧
      m.dims = dimsOf freeModel [1] [2] ∧
      po.toOpts = { boundOpts r with maxIterHomotopy := po.maxIterHomotopy,
                                     nfeList := (boundOpts r).nfeAfter } := by
  refine free_setup (bound_demo r) rfl rfl rfl fun m hm => ?_
  unfold UserOcp.preprocess
  rw [hm]
  exact ⟨_, rfl⟩

/-- C18: the state bounds hypothesis is needed.  The bounds `lbx`, `ubx` apply to the stage states in
DIFFERENTIAL_LIFT_X but not in DIFFERENTIAL: a trajectory that satisfies `x ≤ 1/10` at the ends of
the elements and exceeds it in between is feasible for DIFFERENTIAL only. -/
theorem C18_state_bounds_violated : ∃ po m oc P po' m' oc' P' env,
    SetupEx demoColloc (boundOpts .differential) freeModel (some boundOcp) po m oc P ∧
    SetupEx demoColloc (boundOpts .differentialLiftX) freeModel (some boundOcp) po' m' oc' P' ∧
    P.form.Feasible env ∧
    ¬ ∃ env', P'.form.Feasible env' ∧ SameTraj m.dims po env po' env' := by
  obtain ⟨po, m, oc, P, h, hd, e⟩ := bound_setup .differential
  obtain ⟨po', m', oc', P', h', hd', e'⟩ := bound_setup .differentialLiftX
  have ho := h.toSetup.built.opts
  obtain ⟨t, ht, hA, hB, _⟩ := ho.diff (by simp [boundOpts])
  have htt : t = radau2 := by
    have h2 : generateButcher (boundOpts .differential).nS (boundOpts .differential).scheme
      = .ok radau2 := rfl
    rw [h2] at ht; cases ht; rfl
  subst htt
  have e1 : po.irkRep = .differential := by rw [e]; rfl
  have e2 : po.nStages = 1 := by rw [e]; rfl
  have e3 : po.useFesd = false := by rw [e]; rfl
  have e4 : po.pss = .stewart := by rw [e]; rfl
  have e5 : po.nfeList = [2] := by rw [e]; rfl
  have e6 : po.nS = 2 := by rw [e]; rfl
  have e7 : po.terminalTime = 1 := by rw [e]; rfl
  have e8 : po.sot = .none := by rw [e]; rfl
  have e9 : po.mpcc = .scholtesIneq := by rw [e]; rfl
  have e10 : po.gPathAtStg = false := by rw [e]; rfl
  have e11 : po.timeFreezing = false := by rw [e]; rfl
  have hown : ownEnd po = true := by simp [ownEnd, e1]
  set V : Nat → Nat → Nat → ℝ := fun _ _ j => if j = 0 then 1 / 3 else -1 with hV
  set env := freeEnv 0 V (fun _ _ _ => 0) (fun _ _ => 0) (fun _ _ => 0) with henv
  have hh : ∀ k e, HasFE po k e → hVal po k e env = 1 / 2 := by
    intro k e hk
    have : k = 0 := by have := hk.1; omega
    subst this
    simp [hVal, e3, const, nominalH, e2, nfe, e5, e7]
  have hs : ∀ k, sotVal po k env = 1 := by intro k; simp [sotVal, e8, const]
  have hstart : ∀ k e i, env (startX po k e i) = 0 := by
    intro k e i
    unfold startX endX
    simp only [hown, if_true]
    cases prevFe po k e <;> rfl
  have hf : P.form.Feasible env := by
    rw [h.iff (by simp [boundOpts, Opts.default]), hd]
    show FeasibleSpec po _ freeModel boundOcp env
    constructor
    · intro s hs
      have hdual : dualLb po.mpcc = 0 := by simp [dualLb, e9]
      have h01 : (0 : EReal) ≤ ((1 : ℝ) : EReal) := by rw [← EReal.coe_zero]; exact EReal.coe_le_coe_iff.2 (by norm_num)
      cases s with
      | xEnd k e i =>
        have hi : i = 0 := by have := hs.2.2; simpa [dimsOf, freeModel] using this
        subst hi
        simp only [varDoc, henv, freeEnv, getOr, boundOcp, UserOcp.trivial, List.getD_cons_zero,
          bot_le, true_and]
        exact EReal.coe_le_coe_iff.2 (by norm_num)
      | st1 f k e j i =>
        cases f with
        | v => exact ⟨bot_le, le_top⟩
        | x => exact absurd e1 hs.1
        | z => exact ⟨bot_le, le_top⟩
      | st2 f k e j s i =>
        cases f <;> simp only [varDoc, hdual, henv, freeEnv, le_top, bot_le, and_true, true_and]
        · split <;> simp
        · simp
        · exact absurd (e4.symm.trans hs.1) (by decide)
        · simp
        · simp
      | h k e => exact absurd (e3.symm.trans hs.1) (by decide)
      | u k i => have := hs.2; simp [dimsOf, freeModel] at this
      | vGlob i => simp [IsVar, dimsOf, freeModel] at hs
      | sot k => exact absurd (e8.symm.trans hs.1) (by decide)
      | sElastic => simp [IsVar, e9] at hs
      | _ => exact hs.elim
    · intro k e _ j _
      exact free_algebraic e4 k e j _
    · intro k e hk j hj i hi
      unfold RkEq
      rw [if_neg (by rw [e1]; decide), hs, free_rhs e4, one_mul]
      rfl
    · intro hc; exact absurd (e1.symm.trans hc) (by decide)
    · intro _ k e hk i hi
      unfold EndEq
      rw [if_neg (by rw [e1]; decide), hstart, hh k e hk, e6, hB]
      simp [Finset.sum_range_succ, henv, freeEnv, hV, vecFun, radau2]
      norm_num
    · intro _ hc; exact absurd (e3.symm.trans hc) (by decide)
    · intro k e _ _ i hi
      simp [boundOcp, UserOcp.trivial] at hi
    · intro hc; exact absurd (e10.symm.trans hc) (by decide)
    · intro k e _ j _ r hr; simp [stageComps, boundOcp, UserOcp.trivial] at hr
    · intro k e _ _ r hr; simp [ctrlComps, boundOcp, UserOcp.trivial] at hr
    · intro r hr; simp [globComps, boundOcp, UserOcp.trivial] at hr
    · intro _ k e _ j _ q _
      unfold Compl CompSat
      rw [e9]
      have : lamAt k e j env q = 0 := by cases q <;> rfl
      have hσ : env .sigma = 0 := rfl
      simp [this, hσ]
    · intro hc; exact absurd (e3.symm.trans hc) (by decide)
    · intro hc; exact absurd (e3.symm.trans hc) (by decide)
    · intro hc; exact absurd (e3.symm.trans hc) (by decide)
    · intro hc; exact absurd (e3.symm.trans hc) (by decide)
    · intro hc; exact absurd (e3.symm.trans hc) (by decide)
    · intro hc; exact absurd (e3.symm.trans hc) (by decide)
    · intro hc; omega
    · intro _ _ hc; exact absurd (e11.symm.trans hc) (by decide)
    · intro i hi; simp [boundOcp, UserOcp.trivial] at hi
  refine ⟨po, m, oc, P, po', m', oc', P', env, h, h', hf, ?_⟩
  rintro ⟨env', hf', T⟩
  have S' := h'.spec hf'
  have r1 : po'.irkRep = .differentialLiftX := by rw [e']; rfl
  have hk : HasFE po 0 0 := ⟨by omega, by simp [nfe, e5]⟩
  have hk' : HasFE po' 0 0 := by
    have a : po'.nStages = 1 := by rw [e']; rfl
    have b : po'.nfeList = [2] := by rw [e']; rfl
    exact ⟨by omega, by simp [nfe, b]⟩
  have a : po'.nS = 2 := by rw [e']; rfl
  have hdx : m'.dims.nX = 1 := by rw [hd']; rfl
  have b := S'.bounds (.st1 .x 0 0 0 0) ⟨by rw [r1]; decide, hk', by omega, by omega⟩
  have c := T.stage 0 0 hk 0 (by omega)
  have c' := congrArg (fun l => l.getD 0 0) c
  beta_reduce at c'
  rw [xVal_get (by rw [hd]; simp [dimsOf, freeModel]), xVal_get (by rw [hd]; simp [dimsOf, freeModel]),
    if_neg (by rw [r1]; decide), if_pos e1, hstart, hh 0 0 hk, e6, hA] at c'
  have b2 := b.2
  simp only [varDoc, Option.getD_some, boundOcp, UserOcp.trivial, getOr, List.getD_cons_zero,
    EReal.coe_le_coe_iff] at b2
  rw [c'] at b2
  simp [Finset.sum_range_succ, henv, freeEnv, hV, matFun, radau2] at b2
  norm_num at b2

/-- The hypotheses of C18 and C19 are met by the demo problem. -/
example : ∃ po m oc P po' m' oc' P',
    SetupEx demoColloc gaussOpts demoModel (some demoOcp) po m oc P ∧
    SetupEx demoColloc { gaussOpts with irkRep := .differentialLiftX } demoModel (some demoOcp)
      po' m' oc' P' ∧
    P.form.Feasible (demoEnv po) ∧ P'.form.Feasible (demoEnv po') ∧
    StageBounds po m.dims demoOcp (demoEnv po) := by
  obtain ⟨po, m, oc, P, h, hf, _⟩ := demo_setup demo_gauss
  obtain ⟨po', m', oc', P', h', hf', _⟩ := demo_setup
    (o := { gaussOpts with irkRep := .differentialLiftX })
    (by constructor <;> simp [gaussOpts, Opts.default, Opts.nfeAfter])
  refine ⟨po, m, oc, P, po', m', oc', P', h, h', hf, hf', ?_⟩
  intro k e _ j _ i _
  simp [getOr, demoOcp]

example : ∃ po m oc P, SetupEx demoColloc Opts.default demoModel (some demoOcp) po m oc P ∧
    Opts.default.irkRep = .integral ∧
    CollocOk (demoColloc Opts.default.scheme Opts.default.nS) Opts.default.nS ∧
    P.form.Feasible (demoEnv po) := by
  obtain ⟨po, m, oc, P, h, hf, _⟩ := demo_setup demo_default
  exact ⟨po, m, oc, P, h, rfl, demoColloc_ok _, hf⟩

end Nosnoc
