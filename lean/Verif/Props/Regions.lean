import Verif.Spec.Regions
import Verif.Props.StepStewart
import Verif.Props.Complete
import Verif.Props.ActiveSet
import Verif.Props.Accept
import Verif.Props.WellPosed
/-
C103: exact solutions depend on the regions only, not on the switching functions that describe them.
-/
namespace Nosnoc

section
variable {colloc : IrkScheme → Nat → List ℝ} {o : Opts} {um um' : UserModel} {uo : Option UserOcp}
  {po : PreOpts} {m : PreModel} {oc : PreOcp} {P : Problem} {env : Env}
  {po' : PreOpts} {m' : PreModel} {oc' : PreOcp} {P' : Problem} {x0 z0 p0 : List ℝ}

theorem lam00St_eq_zero (um : UserModel) {x z p : List ℝ} {s i : Nat} (hi : i < (um.Fmat s).nCols) :
    um.lam00St x z p s i = 0 ↔ um.Minimal s i x z p := by
  haveI : Nonempty (Fin (um.Fmat s).nCols) := ⟨⟨i, hi⟩⟩
  have hbd := (Set.finite_range fun j : Fin (um.Fmat s).nCols => um.gVal s j x z p).bddBelow
  unfold UserModel.lam00St
  constructor
  · intro h j hj
    have := ciInf_le hbd ⟨j, hj⟩
    simp only at this
    linarith
  · intro h
    have h1 := ciInf_le hbd ⟨i, hi⟩
    have h2 : um.gVal s i x z p ≤ ⨅ j : Fin (um.Fmat s).nCols, um.gVal s j x z p :=
      le_ciInf fun j => h j j.2
    simp only at h1
    linarith

/-- The point with the multipliers of the other model. -/
noncomputable def reMult (um' : UserModel) (o : PreOpts) (d : Dims) (env : Env) (x z p : List ℝ) : Env :=
  multEnv env
    (fun f k e j s i => match f with
      | .lam => um'.lam00St (xVal o d k e j env) (zVal d k e j env) (pVal d k env) s i
      | .mu => -⨅ n : Fin (um'.Fmat s).nCols,
          um'.gVal s n (xVal o d k e j env) (zVal d k e j env) (pVal d k env)
      | .lamN => um'.lam00Neg (xVal o d k e j env) (zVal d k e j env) (pVal d k env) s i
      | .lamP => um'.lam00Pos (xVal o d k e j env) (zVal d k e j env) (pVal d k env) s i
      | f => env (.st2 f k e j s i))
    (fun f s i => match f with
      | .lam => um'.lam00St x z p s i
      | .lamN => um'.lam00Neg x z p s i
      | .lamP => um'.lam00Pos x z p s i
      | f => env (.lam00 f s i))

theorem reMult_theta (k e j : Nat) (q : Pair) {d : Dims} :
    thetaAt k e j (reMult um' po d env x0 z0 p0) q = thetaAt k e j env q := by cases q <;> rfl

theorem reMult_lam (k e j : Nat) (q : Pair) {d : Dims} :
    lamAt k e j (reMult um' po d env x0 z0 p0) q
      = um'.lam00Val (xVal po d k e j env) (zVal d k e j env) (pVal d k env) q := by cases q <;> rfl

theorem reMult_lam00 (q : Pair) {d : Dims} :
    lam00At (reMult um' po d env x0 z0 p0) q = um'.lam00Val x0 z0 p0 q := by cases q <;> rfl

/-- Same options, and same dimensions up to the numbers of multipliers. -/
theorem SetupEx.reSwitch (h : SetupEx colloc o um uo po m oc P) (h' : SetupEx colloc o um' uo po' m' oc' P')
    (hR : um' = { um with c := um'.c, S := um'.S, gStewart := um'.gStewart }) :
    po' = po ∧ m'.dims = pssDims m.dims m'.dims.nC m'.dims.nF := by
  have eN : um'.nSys = um.nSys := by
    have eF : um'.F = um.F := by rw [hR]
    have efx : um'.fx = um.fx := by rw [hR]
    unfold UserModel.nSys; rw [eF, efx]
  have hc := h.ok
  have hc' := h'.ok
  unfold construct at hc hc'
  simp only [bind_eq_ok] at hc hc'
  obtain ⟨_, _, a, ha, b, hb, c, hcc, d, hd, hh⟩ := hc
  cases hh
  obtain ⟨_, _, a', ha', b', hb', c', hcc', d', hd', hh'⟩ := hc'
  cases hh'
  obtain rfl : po' = po := (Except.ok.injEq _ _).mp (ha'.symm.trans ha)
  refine ⟨rfl, ?_⟩
  obtain ⟨nC, nF, _, _, _, _, H⟩ := preprocess_pre hb
  obtain ⟨nC', nF', _, _, _, _, H'⟩ := preprocess_pre hb'
  rw [H.dims, H'.dims]
  unfold dimsOf pssDims
  have e1 : um'.nX = um.nX := by rw [hR]
  have e2 : um'.nU = um.nU := by rw [hR]
  have e3 : um'.nZ = um.nZ := by rw [hR]
  have e4 : um'.nPtv = um.nPtv := by rw [hR]
  have e5 : um'.nPgl = um.nPgl := by rw [hR]
  have e6 : um'.nV = um.nV := by rw [hR]
  rw [e1, e2, e3, e4, e5, e6, eN]

/-- C103: exact solutions carry over to every model with the same vector fields and the same regions, with
the same trajectory and the same convex coefficients.  The initial multipliers are those the solver
computes from some `x0, z0, p0`, in both problems. -/
theorem C103_regions_only (h : SetupEx colloc o um uo po m oc P)
    (h' : SetupEx colloc o um' uo po' m' oc' P') (hR : SameRegions o.pss um um')
    (hb : po.rbe = true ∨ o.useFesd = false) (ha : o.mpcc ≠ .fischerBurmeisterIpAug)
    (hst : o.stepEq ≠ .direct ∧ o.stepEq ≠ .directComplementarity)
    (D : ExactSolution o po m P env)
    (hl : ∀ q, IsPair po m.dims q → lam00At env q = um.lam00Val x0 z0 p0 q) :
    ∃ env', ExactSolution o po' m' P' env' ∧ SamePath env env' ∧
      (∀ k e j s i, env' (.st2 .theta k e j s i) = env (.st2 .theta k e j s i) ∧
        env' (.st2 .alpha k e j s i) = env (.st2 .alpha k e j s i)) ∧
      ∀ q, IsPair po' m'.dims q → lam00At env' q = um'.lam00Val x0 z0 p0 q := by
  have eF : um'.F = um.F := by rw [hR.rest]
  have eFm : ∀ s, um'.Fmat s = um.Fmat s := fun s => by unfold UserModel.Fmat; rw [eF]
  have efx : um'.fx = um.fx := by rw [hR.rest]
  have eN : um'.nSys = um.nSys := by unfold UserModel.nSys; rw [eF, efx]
  have eS : po.nS = o.nS := h.e_nS
  -- same options, dimensions up to the numbers of multipliers
  obtain ⟨eo, ed⟩ := h.reSwitch h' hR.rest
  subst eo
  obtain ⟨-, -, -, -, -, -, dS, dF, dC⟩ := h.toSetup.dims
  obtain ⟨-, -, -, -, -, -, dS', dF', dC'⟩ := h'.toSetup.dims
  have eP : po'.pss = o.pss := h.e_pss
  -- the pairs are the same
  have cc : ∀ {s}, po'.pss = .step → s < m.dims.nSys → m'.dims.nC s = m.dims.nC s := by
    intro s hp hs
    rw [dS] at hs
    rw [dC' hp s (by rw [eN]; exact hs), dC hp s hs, ((hR.step (eP ▸ hp)).2 s hs).1]
  have pairs : ∀ q, IsPair po' m'.dims q ↔ IsPair po' m.dims q := by
    intro q
    have e1 : m'.dims.nSys = m.dims.nSys := by rw [dS', dS, eN]
    cases q with
    | region s i =>
      show (_ ∧ _ ∧ _) ↔ (_ ∧ _ ∧ _)
      rw [e1]
      refine and_congr_right fun hp => and_congr_right fun hs => ?_
      rw [dS] at hs
      rw [dF' hp s (by rw [eN]; exact hs), dF hp s hs, eFm]
    | neg s i =>
      show (_ ∧ _ ∧ _) ↔ (_ ∧ _ ∧ _)
      rw [e1]
      exact and_congr_right fun hp => and_congr_right fun hs => by rw [cc hp hs]
    | pos s i =>
      show (_ ∧ _ ∧ _) ↔ (_ ∧ _ ∧ _)
      rw [e1]
      exact and_congr_right fun hp => and_congr_right fun hs => by rw [cc hp hs]
  have M := D.multOk h
  -- the new multipliers are nonnegative
  have nonneg : ∀ x z p q, IsPair po' m.dims q → 0 ≤ um'.lam00Val x z p q := by
    intro x z p q hq
    cases q with
    | region s i =>
      obtain ⟨hp, hs, hi⟩ := hq
      rw [dS] at hs
      rw [dF hp s hs] at hi
      exact lam00St_nonneg _ _ _ s (by rw [eFm]; exact hi)
    | neg s i => exact le_max_right _ _
    | pos s i => exact le_max_right _ _
  -- what it means for a multiplier to vanish
  let A (w : UserModel) (x z p : List ℝ) : Pair → Prop
    | .region s i => w.Minimal s i x z p
    | .neg s i => 0 ≤ (w.cVec s).entry i x z p
    | .pos s i => (w.cVec s).entry i x z p ≤ 0
  have trans : ∀ x z p q, IsPair po' m.dims q → A um x z p q → um'.lam00Val x z p q = 0 := by
    intro x z p q hq hA
    cases q with
    | region s i =>
      obtain ⟨hp, hs, hi⟩ := hq
      rw [dS] at hs
      rw [dF hp s hs] at hi
      exact (lam00St_eq_zero um' (by rw [eFm]; exact hi)).2
        ((hR.stewart (eP ▸ hp) s hs i hi x z p).1 hA)
    | neg s i =>
      obtain ⟨hp, hs, hi⟩ := hq
      rw [dS] at hs
      rw [dC hp s hs] at hi
      have := (((hR.step (eP ▸ hp)).2 s hs).2 i hi x z p).1.1 hA
      exact max_eq_right (by linarith)
    | pos s i =>
      obtain ⟨hp, hs, hi⟩ := hq
      rw [dS] at hs
      rw [dC hp s hs] at hi
      exact max_eq_right ((((hR.step (eP ▸ hp)).2 s hs).2 i hi x z p).2.1 hA)
  have stage : ∀ {k e j q}, HasFE po' k e → j < po'.nS → IsPair po' m.dims q → lamAt k e j env q = 0 →
      A um (xVal po' m.dims k e j env) (zVal m.dims k e j env) (pVal m.dims k env) q := by
    intro k e j q hk hj hq h0
    have hsw := ((h.spec D.feas).alg k e hk j hj).1
    have hj' : j < nLamPts po' k e := lt_of_lt_of_le hj (Nat.le_add_right _ _)
    unfold UserModel.Switching at hsw
    cases q with
    | region s i =>
      obtain ⟨hp, hs, hi⟩ := hq
      rw [hp] at hsw
      have hs' := hs
      rw [dS] at hs'
      have hi' := hi
      rw [dF hp s hs'] at hi'
      intro n hn
      have hn0 : 0 ≤ env (.st2 .lam k e j s n) :=
        M.lam k e hk j hj' (.region s n) ⟨hp, hs, by rw [dF hp s hs']; exact hn⟩
      rw [hsw s hs' i hi', hsw s hs' n hn]
      have : env (.st2 .lam k e j s i) = 0 := h0
      linarith
    | neg s i =>
      obtain ⟨hp, hs, hi⟩ := hq
      rw [hp] at hsw
      have hs' := hs
      rw [dS] at hs'
      have hn0 : 0 ≤ env (.st2 .lamP k e j s i) := M.lam k e hk j hj' (.pos s i) ⟨hp, hs, hi⟩
      have : env (.st2 .lamN k e j s i) = 0 := h0
      show 0 ≤ (um.cVec s).entry i _ _ _
      rw [hsw s hs' i (by rw [← dC hp s hs']; exact hi), this]
      linarith
    | pos s i =>
      obtain ⟨hp, hs, hi⟩ := hq
      rw [hp] at hsw
      have hs' := hs
      rw [dS] at hs'
      have hn0 : 0 ≤ env (.st2 .lamN k e j s i) := M.lam k e hk j hj' (.neg s i) ⟨hp, hs, hi⟩
      have : env (.st2 .lamP k e j s i) = 0 := h0
      show (um.cVec s).entry i _ _ _ ≤ 0
      rw [hsw s hs' i (by rw [← dC hp s hs']; exact hi), this]
      linarith
  have init : ∀ q, IsPair po' m.dims q → lam00At env q = 0 → A um x0 z0 p0 q := by
    intro q hq h0
    rw [hl q hq] at h0
    cases q with
    | region s i =>
      obtain ⟨hp, hs, hi⟩ := hq
      rw [dS] at hs
      rw [dF hp s hs] at hi
      exact (lam00St_eq_zero um hi).1 h0
    | neg s i =>
      have : max (-(um.cVec s).entry i x0 z0 p0) 0 = 0 := h0
      have := max_eq_right_iff.1 this
      show 0 ≤ (um.cVec s).entry i x0 z0 p0
      linarith
    | pos s i =>
      have : max ((um.cVec s).entry i x0 z0 p0) 0 = 0 := h0
      exact max_eq_right_iff.1 this
  have pts : ∀ k e, nLamPts po' k e = po'.nS := by
    intro k e
    unfold nLamPts extraPt
    rcases hb with hb | hb
    · simp [hb]
    · have : po'.useFesd = false := h.e_useFesd.trans hb
      simp [this]
  have hpos := h.toSetup.nfe_pos
  have hn : 0 < po'.nS := by rw [eS]; exact h.nS
  let env' := reMult um' po' m.dims env x0 z0 p0
  -- complementarity of one pair
  have key : ∀ {k e j j' q}, HasFE po' k e → j' < po'.nS → IsPair po' m.dims q →
      thetaAt k e j env q * lamAt k e j' env q = 0 → ∀ {k1 e1 j1},
      thetaAt k1 e1 j1 env q = thetaAt k e j env q →
      thetaAt k1 e1 j1 env q * um'.lam00Val (xVal po' m.dims k e j' env) (zVal m.dims k e j' env)
        (pVal m.dims k env) q = 0 := by
    intro k e j j' q hk hj' hq h0 k1 e1 j1 e1'
    rcases mul_eq_zero.1 h0 with h0 | h0
    · rw [e1', h0, zero_mul]
    · rw [trans _ _ _ q hq (stage hk hj' hq h0), mul_zero]
  have start : ∀ {k e q}, HasFE po' k e → IsPair po' m.dims q → lamStart po' k e env q = 0 →
      lamStart po' k e env' q = 0 := by
    intro k e q hk hq h0
    unfold lamStart at h0 ⊢
    have hlast : ∀ k e, lastLam po' k e < po'.nS := fun k e => by
      rw [← pts k e]; exact nLamPts_last hn k e
    have fe : ∀ q, prevFe po' k e = some q → HasFE po' q.1 q.2 := by
      intro q hq
      unfold prevFe at hq
      by_cases he : 0 < e
      · simp only [he, if_true, Option.some.injEq] at hq
        subst hq
        exact ⟨hk.1, by have := hk.2; show e - 1 < nfe po' k; omega⟩
      · by_cases hk0 : 0 < k
        · simp only [he, hk0, if_true, if_false, Option.some.injEq] at hq
          subst hq
          have := hk.1
          exact ⟨by show k - 1 < _; omega, by have := hpos (k - 1) (by omega); show _ - 1 < nfe po' (k - 1); omega⟩
        · simp [he, hk0] at hq
    cases hpv : prevFe po' k e with
    | none =>
      rw [hpv] at h0
      show lam00At env' q = 0
      rw [reMult_lam00]
      exact trans _ _ _ q hq (init q hq h0)
    | some r =>
      rw [hpv] at h0
      show lamAt r.1 r.2 (lastLam po' r.1 r.2) env' q = 0
      rw [reMult_lam]
      exact trans _ _ _ q hq (stage (fe r hpv) (hlast _ _) hq h0)
  have mult : MultOk po' m'.dims env' := by
    constructor
    · intro k e hk j hj q hq
      rw [reMult_theta]
      exact M.theta k e hk j hj q ((pairs q).1 hq)
    · intro k e hk j hj q hq
      rw [reMult_lam]
      exact nonneg _ _ _ q ((pairs q).1 hq)
    · intro q hq
      rw [reMult_lam00]
      exact nonneg _ _ _ q ((pairs q).1 hq)
    · intro k e hk j hj q hq
      have hq := (pairs q).1 hq
      rw [reMult_theta, reMult_lam]
      exact key hk hj hq (M.own k e hk j hj q hq) rfl
    · intro hu k e hk j hj j' hj' q hq
      have hq := (pairs q).1 hq
      rw [reMult_theta, reMult_lam]
      exact key hk hj' hq (M.cross hu k e hk j hj j' hj' q hq) rfl
    · intro hu hc k e hk j hj j' hj' q hq
      have hq := (pairs q).1 hq
      rw [reMult_theta, reMult_lam]
      exact key hk (by rw [pts] at hj'; exact hj') hq (M.crossEnd hu hc k e hk j hj j' hj' q hq) rfl
    · intro hu k e hk j hj q hq
      have hq := (pairs q).1 hq
      rw [reMult_theta]
      rcases mul_eq_zero.1 (M.crossStart hu k e hk j hj q hq) with h0 | h0
      · rw [h0, zero_mul]
      · rw [start hk hq h0, mul_zero]
  have spec : FeasibleSpec po' m'.dims um' (uo.getD UserOcp.trivial) env' := by
    rw [ed] at mult ⊢
    rw [hR.rest]
    refine (h.spec D.feas).mult (p := po'.pss) hn hpos (by rw [h.e_stepEq]; exact hst)
      (compl_exact h D.mode.ne_boolean ha D.sigma D.slack) mult ?_ ?_ ?_ ?_
    · intro k e hk j hj
      rw [← hR.rest]
      show um'.Switching po' k e j _ _ _ env'
      unfold UserModel.Switching
      cases hp : po'.pss with
      | stewart =>
        intro s hs i hi
        show _ = um'.lam00St _ _ _ s i - -_
        unfold UserModel.lam00St
        ring
      | step =>
        intro s hs i hi
        exact (max_sub_max_neg _).symm
    · intro h1 h2
      rcases hb with hb | hb
      · rw [hb] at h1; cases h1
      · rw [h.e_useFesd, hb] at h2; cases h2
    · intro hp k e hk j hj s hs
      exact ((h.spec D.feas).alg k e hk j hj).2.1 hp s hs
    · intro k e hk j hj i hi
      rw [← hR.rest]
      show um'.stageRhs po' (pssDims m.dims m'.dims.nC m'.dims.nF) k e j i env' = _
      have hx := multEnv_xVal (o := po') (p := po'.pss) (d := m.dims) (nC := m'.dims.nC) (nF := m'.dims.nF)
        (env := env) (M := fun f k e j s i => env' (.st2 f k e j s i)) (L := fun f s i => env' (.lam00 f s i)) k e j
      have he : multEnv env (fun f k e j s i => env' (.st2 f k e j s i)) (fun f s i => env' (.lam00 f s i))
          = env' := by
        funext t
        cases t <;> rfl
      rw [he] at hx
      have hx : xVal po' (pssDims m.dims m'.dims.nC m'.dims.nF) k e j env' = xVal po' m.dims k e j env := hx
      unfold UserModel.stageRhs
      rw [hx]
      cases hp : po'.pss with
      | stewart =>
        show um'.rhsStewart _ _ _ _ _ _ _ = um.rhsStewart _ _ _ _ _ _ _
        unfold UserModel.rhsStewart
        rw [eN]
        simp only [eFm]
        rfl
      | step =>
        obtain ⟨e1, e2⟩ := hR.step (eP ▸ hp)
        have eSm : ∀ s, um'.Smat s = um.Smat s := fun s => by unfold UserModel.Smat; rw [e1]
        have hal : alphaVal po' (pssDims m.dims m'.dims.nC m'.dims.nF) k e j env'
            = alphaVal po' m.dims k e j env := by
          unfold alphaVal rowSyms
          simp only [List.map_flatMap, hp, Dims.famLen]
          refine List.flatMap_congr fun s hs => ?_
          rw [show (pssDims m.dims m'.dims.nC m'.dims.nF).nC s = m.dims.nC s from
            cc hp (List.mem_range.1 hs)]
          unfold blk
          rw [List.map_map, List.map_map]
          rfl
        rw [eF, efx, hal]
        cases um.F with
        | some l =>
          show um'.rhsStep _ _ _ _ _ _ _ = um.rhsStep _ _ _ _ _ _ _
          unfold UserModel.rhsStep UserModel.rhsStewart
          rw [eN]
          simp only [eFm, eSm]
          rfl
        | none => cases um.fx <;> rfl
  exact ⟨env', ⟨D.mode, (h'.iff D.mode.ne_boolean).2 spec, D.sigma, D.slack, mult.lam00⟩,
    fun s hs => multEnv_other s hs, fun _ _ _ _ _ => ⟨rfl, rfl⟩, fun q _ => reMult_lam00 q⟩

/-- C103: the relation is symmetric, so the exact solutions of the two problems correspond. -/
theorem C103_symmetric {pss : PssMode} (hR : SameRegions pss um um') : SameRegions pss um' um := by
  have e := hR.rest
  have eF : um'.F = um.F := by rw [e]
  have eFm : ∀ s, um'.Fmat s = um.Fmat s := fun s => by unfold UserModel.Fmat; rw [eF]
  have efx : um'.fx = um.fx := by rw [e]
  have eN : um'.nSys = um.nSys := by unfold UserModel.nSys; rw [eF, efx]
  refine ⟨?_, fun hp s hs i hi x z p => ?_, fun hp => ?_⟩
  · generalize um'.c = c, um'.S = S, um'.gStewart = g at e
    subst e
    rfl
  · rw [eN] at hs
    rw [eFm] at hi
    exact (hR.stewart hp s hs i hi x z p).symm
  · obtain ⟨h1, h2⟩ := hR.step hp
    refine ⟨h1.symm, fun s hs => ?_⟩
    rw [eN] at hs
    obtain ⟨h3, h4⟩ := h2 s hs
    exact ⟨h3.symm, fun i hi x z p => ⟨(h4 i (h3 ▸ hi) x z p).1.symm, (h4 i (h3 ▸ hi) x z p).2.symm⟩⟩

/-! ### Rescaled switching functions -/

variable {ψ : Nat → Nat → (x z p : List ℝ) → ℝ}

theorem rescale_cVec (s : Nat) : ((um.rescale ψ).cVec s).len = (um.cVec s).len ∧ ∀ i x z p,
    ((um.rescale ψ).cVec s).entry i x z p = ψ s i x z p * (um.cVec s).entry i x z p := by
  unfold UserModel.cVec UserModel.rescale
  cases um.c with
  | none => simp
  | some l =>
    simp only [Option.map_some, Option.getD_some, List.getD_eq_getElem?_getD, List.getElem?_mapIdx]
    cases l[s]? <;> simp

/-- With a full sign matrix the regions with minimal indicator are those whose closure contains the
point. -/
theorem minimal_iff {s i : Nat} {x z p : List ℝ} (hg : um.gStewartTruthy = false)
    (hD : (um.Smat s).IsDense) (hP : (um.Smat s).Partition)
    (hrows : (um.Smat s).rows = (um.Fmat s).nCols) (hi : i < (um.Fmat s).nCols) :
    um.Minimal s i x z p ↔ ∀ n < (um.Smat s).cols, 0 ≤ (um.Smat s).entry i n * (um.cVec s).entry n x z p := by
  have hgv : ∀ i, um.gVal s i x z p
      = -∑ k ∈ Finset.range (um.Smat s).cols, (um.Smat s).entry i k * (um.cVec s).entry k x z p := by
    intro i; unfold UserModel.gVal; rw [hg]; simp
  have abs : ∀ i < (um.Fmat s).nCols, ∀ n ∈ Finset.range (um.Smat s).cols,
      (um.Smat s).entry i n * (um.cVec s).entry n x z p ≤ |(um.cVec s).entry n x z p| := by
    intro i hi n hn
    rcases hD.1 i (hrows ▸ hi) n (Finset.mem_range.1 hn) with h | h <;> rw [h]
    · rw [neg_one_mul]; exact neg_le_abs _
    · rw [one_mul]; exact le_abs_self _
  constructor
  · intro hm
    obtain ⟨j, hj, -⟩ := hP fun n => decide (0 ≤ (um.cVec s).entry n x z p)
    have hj' : ∀ n ∈ Finset.range (um.Smat s).cols,
        (um.Smat s).entry j n * (um.cVec s).entry n x z p = |(um.cVec s).entry n x z p| := by
      intro n hn
      have hn := Finset.mem_range.1 hn
      have hne : (um.Smat s).entry j n ≠ 0 := by
        rcases hD.1 j j.2 n hn with h | h <;> rw [h] <;> norm_num
      rw [hj n hn hne]
      by_cases h0 : 0 ≤ (um.cVec s).entry n x z p
      · simp [h0, abs_of_nonneg h0]
      · simp [h0, abs_of_neg (not_le.1 h0)]
    have h1 := hm j (hrows ▸ j.2)
    rw [hgv, hgv, Finset.sum_congr rfl hj'] at h1
    have h2 : ∑ n ∈ Finset.range (um.Smat s).cols, (um.Smat s).entry i n * (um.cVec s).entry n x z p
        = ∑ n ∈ Finset.range (um.Smat s).cols, |(um.cVec s).entry n x z p| :=
      le_antisymm (Finset.sum_le_sum (abs i hi)) (by linarith)
    intro n hn
    rw [(Finset.sum_eq_sum_iff_of_le (abs i hi)).1 h2 n (Finset.mem_range.2 hn)]
    exact abs_nonneg _
  · intro hc j hj
    rw [hgv, hgv]
    refine neg_le_neg (Finset.sum_le_sum fun n hn => (abs j hj n hn).trans ?_)
    have h0 := hc n (Finset.mem_range.1 hn)
    rcases hD.1 i (hrows ▸ hi) n (Finset.mem_range.1 hn) with h | h <;> rw [h] at h0 ⊢
    · rw [neg_one_mul] at h0 ⊢; rw [abs_of_nonpos (by linarith)]
    · rw [one_mul] at h0 ⊢; rw [abs_of_nonneg h0]

theorem rescale_sameRegions {pss : PssMode} (hψ : ∀ s i x z p, 0 < ψ s i x z p)
    (hS : pss = .stewart → um.gStewartTruthy = false ∧ ∀ s < um.nSys, (um.Smat s).IsDense ∧
      (um.Smat s).Partition ∧ (um.Smat s).rows = (um.Fmat s).nCols) :
    SameRegions pss um (um.rescale ψ) where
  rest := rfl
  stewart := by
    intro hp s hs i hi x z p
    obtain ⟨hg, hS⟩ := hS hp
    obtain ⟨h1, h2, h3⟩ := hS s hs
    rw [minimal_iff hg h1 h2 h3 hi, minimal_iff (um := um.rescale ψ) hg h1 h2 h3 hi]
    refine forall_congr' fun n => imp_congr_right fun _ => ?_
    rw [(rescale_cVec s).2]
    show 0 ≤ (um.Smat s).entry i n * _ ↔ 0 ≤ (um.Smat s).entry i n * _
    rw [mul_left_comm, mul_nonneg_iff_of_pos_left (hψ s n x z p)]
  step := by
    intro _
    refine ⟨rfl, fun s _ => ⟨(rescale_cVec s).1, fun i _ x z p => ?_⟩⟩
    rw [(rescale_cVec s).2]
    refine ⟨(mul_nonneg_iff_of_pos_left (hψ s i x z p)).symm, ?_⟩
    constructor
    · intro h; exact mul_nonpos_of_nonneg_of_nonpos (hψ s i x z p).le h
    · intro h; by_contra h0
      exact absurd h (not_le.2 (mul_pos (hψ s i x z p) (not_le.1 h0)))

theorem rescale_preprocess (hi : um.initCheck = .ok ())
    (ha : um.F ≠ none → um.alpha = none) (hm : um.preprocess po = .ok m) :
    ∃ m', (um.rescale ψ).preprocess po = .ok m' ∧ m'.dims = m.dims ∧ m'.zAll = m.zAll := by
  have hi' : (um.rescale ψ).initCheck = .ok () := by
    rw [← hi]; unfold UserModel.initCheck UserModel.rescale; simp
  have hlen : ∀ l : List UVec, (l.mapIdx fun s c => (⟨c.len, fun i x z p => ψ s i x z p * c.entry i x z p⟩ : UVec)).map
      UVec.len = l.map UVec.len := by
    intro l
    refine List.ext_getElem (by simp) fun i _ _ => ?_
    simp
  obtain ⟨m', hm'⟩ : ∃ m', (um.rescale ψ).preprocess po = .ok m' := by
    refine (C70_preprocess_iff hi' ha).2 ?_
    obtain ⟨hc, hk⟩ := (C70_preprocess_iff hi ha).1 ⟨m, hm⟩
    refine ⟨⟨hc.z0, hc.lbz, hc.ubz, hc.pGlobal, hc.pTimeVar, hc.time⟩, ?_⟩
    rcases hk with ⟨Fs, cs, Ss, H⟩ | ⟨Fs, gs, H⟩ | ⟨f, cs, al, H⟩
    · refine .inl ⟨Fs, cs.mapIdx fun s c => ⟨c.len, fun i x z p => ψ s i x z p * c.entry i x z p⟩, Ss, H.F, ?_, H.S, H.g, H.switching, ?_, ?_, H.rows, ?_, ?_, H.equal⟩
      · unfold UserModel.rescale; rw [H.c]; rfl
      · rw [List.length_mapIdx]; exact H.lenCS
      · rw [List.length_mapIdx]; exact H.lenFC
      · intro hp s hs
        rw [(rescale_cVec s).1]; exact H.cols hp s hs
      · intro hp s hs i hi k hk hne
        rw [(rescale_cVec s).1]; exact H.used hp s hs i hi k hk hne
    · refine .inr (.inl ⟨Fs, gs, H.F, H.g, H.nonempty, ?_, H.stewart, H.switching, H.len, H.cols⟩)
      rcases H.cS with h0 | h0
      · left; unfold UserModel.rescale; rw [h0]; rfl
      · exact .inr h0
    · refine .inr (.inr ⟨f, cs.mapIdx fun s c => ⟨c.len, fun i x z p => ψ s i x z p * c.entry i x z p⟩, al, H.F, H.fx, ?_, H.alpha, H.step, ?_, H.lenA, ?_, ?_, H.noG⟩)
      · unfold UserModel.rescale; rw [H.c]; rfl
      · rw [hlen]; exact H.total
      · rw [List.length_mapIdx]; exact H.lenC
      · intro hg
        rw [List.map_take, hlen, ← List.map_take]; exact H.first hg
  obtain ⟨nC, nF, _, _, _, _, H⟩ := preprocess_pre hm
  obtain ⟨nC', nF', _, _, _, _, H'⟩ := preprocess_pre hm'
  have h1 : nC' = nC := by
    have h1 := H'.hnC
    have h2 := H.hnC
    unfold UserModel.nCsys at h1 h2
    have e0 : (um.rescale ψ).gStewartTruthy = um.gStewartTruthy := rfl
    have e1 : (um.rescale ψ).nSys = um.nSys := rfl
    rw [e0, e1] at h1
    have e2 : ∀ i, (UVec.len <$> optGet (um.rescale ψ).c i : Except PyErr Nat) = UVec.len <$> optGet um.c i := by
      intro i
      unfold UserModel.rescale optGet
      cases um.c with
      | none => rfl
      | some l =>
        simp only [Option.map_some, List.getElem?_mapIdx]
        cases l[i]? <;> rfl
    simp only [e2] at h1
    exact (Except.ok.injEq _ _).mp (h1.symm.trans h2)
  have h2 : nF' = nF := by
    have h1 := H'.hnF
    have h2 := H.hnF
    unfold UserModel.nFsys at h1 h2
    have e0 : (um.rescale ψ).gStewartTruthy = um.gStewartTruthy := rfl
    have eF : (um.rescale ψ).F = um.F := rfl
    have eS : (um.rescale ψ).S = um.S := rfl
    have eg : (um.rescale ψ).gStewart = um.gStewart := rfl
    have ea : (um.rescale ψ).alpha = um.alpha := rfl
    rw [e0, eF, eS, eg, ea] at h1
    have ec : (um.rescale ψ).c = um.c.map fun l => l.mapIdx fun s c =>
      ⟨c.len, fun i x z p => ψ s i x z p * c.entry i x z p⟩ := rfl
    rw [ec] at h1
    cases hc : um.c with
    | none => rw [hc] at h1 h2; exact (Except.ok.injEq _ _).mp (h1.symm.trans h2)
    | some l =>
      rw [hc] at h1 h2
      cases hF : um.F <;> cases hS : um.S <;> cases hA : um.alpha <;>
        simp only [hF, hS, hA, Option.map_some, List.length_mapIdx, hlen] at h1 h2 <;>
        exact (Except.ok.injEq _ _).mp (h1.symm.trans h2)
  have hd : m'.dims = m.dims := by
    rw [H'.dims, H.dims, h1, h2]
    rfl
  refine ⟨m', hm', hd, ?_⟩
  rw [H'.zAll, H.zAll, hd]
  rfl

/-- The model with rescaled switching functions yields a problem as well. -/
theorem SetupEx.rescale (h : SetupEx colloc o um uo po m oc P)
    (ψ : Nat → Nat → (x z p : List ℝ) → ℝ) :
    ∃ m' P', SetupEx colloc o (um.rescale ψ) uo po m' oc P' := by
  have hc := h.ok
  unfold construct at hc
  simp only [bind_eq_ok] at hc
  obtain ⟨_, hi, a, ha, b, hb, c, hcc, d, hd, hh⟩ := hc
  cases hh
  have hal : um.F ≠ none → um.alpha = none := fun hF =>
    h.alpha (Option.isSome_iff_ne_none.2 hF)
  obtain ⟨m', hm', e1, e2⟩ := rescale_preprocess (ψ := ψ) hi hal hb
  have hi' : (um.rescale ψ).initCheck = .ok () := by
    rw [← hi]; unfold UserModel.initCheck UserModel.rescale; simp
  have hoc : (uo.getD UserOcp.trivial).preprocess m' = .ok oc := by
    rw [← hcc]
    unfold UserOcp.preprocess
    rw [e1, e2]
  obtain ⟨P', hP'⟩ := (C06_construct_iff hi' ha hm' hoc h.nS h.alpha h.exact).2
    ((C06_construct_iff hi ha hb hcc h.nS h.alpha h.exact).1 ⟨P, h.ok⟩)
  exact ⟨m', P', ⟨⟨hP', h.nS, h.alpha⟩, h.exact, by rw [e1]; exact h.sound⟩⟩

/-- C103: in the two problems, points with the same trajectory have the same objective value, unless the step
equilibration penalises with the multipliers. -/
theorem C103_objective {env env' : Env} (h : SetupEx colloc o um uo po m oc P)
    (h' : SetupEx colloc o um' uo po' m' oc' P') (hR : SameRegions o.pss um um')
    (hs : o.useFesd = false ∨ (o.stepEq ≠ .l2RelaxedScaled ∧ o.stepEq ≠ .l2Relaxed))
    (hp : SamePath env env') : P'.form.cost env' = P.form.cost env := by
  rw [h.toSetup.built.cost h.exact', h'.toSetup.built.cost h'.exact']
  obtain ⟨rfl, ed⟩ := h.reSwitch h' hR.rest
  rw [ed]
  exact objective_samePath (p := po'.pss) hp (by rw [h.e_useFesd, h.e_stepEq]; exact hs)

/-- C103: multiplying switching functions by positive factors (constants, or functions of the state) changes
neither the exact trajectories nor the convex coefficients.  In Stewart's representation for sign
matrices without zeros whose regions cover the space. -/
theorem C103_rescaling (h : SetupEx colloc o um uo po m oc P) (hψ : ∀ s i x z p, 0 < ψ s i x z p)
    (hS : o.pss = .stewart → FullSigns um)
    (hb : po.rbe = true ∨ o.useFesd = false) (ha : o.mpcc ≠ .fischerBurmeisterIpAug)
    (hst : o.stepEq ≠ .direct ∧ o.stepEq ≠ .directComplementarity) :
    ∃ m' P', SetupEx colloc o (um.rescale ψ) uo po m' oc P' ∧
      (∀ env x0 z0 p0, ExactSolution o po m P env →
        (∀ q, IsPair po m.dims q → lam00At env q = um.lam00Val x0 z0 p0 q) →
        ∃ env', ExactSolution o po m' P' env' ∧ SamePath env env' ∧
          (∀ k e j s i, env' (.st2 .theta k e j s i) = env (.st2 .theta k e j s i) ∧
            env' (.st2 .alpha k e j s i) = env (.st2 .alpha k e j s i)) ∧
          ∀ q, IsPair po m'.dims q → lam00At env' q = (um.rescale ψ).lam00Val x0 z0 p0 q) ∧
      (∀ env x0 z0 p0, ExactSolution o po m' P' env →
        (∀ q, IsPair po m'.dims q → lam00At env q = (um.rescale ψ).lam00Val x0 z0 p0 q) →
        ∃ env', ExactSolution o po m P env' ∧ SamePath env env' ∧
          (∀ k e j s i, env' (.st2 .theta k e j s i) = env (.st2 .theta k e j s i) ∧
            env' (.st2 .alpha k e j s i) = env (.st2 .alpha k e j s i)) ∧
          ∀ q, IsPair po m.dims q → lam00At env' q = um.lam00Val x0 z0 p0 q) := by
  obtain ⟨m', P', h'⟩ := h.rescale ψ
  have hR : SameRegions o.pss um (um.rescale ψ) := by
    refine rescale_sameRegions hψ fun hp => ?_
    obtain ⟨-, hg, hs⟩ := hS hp
    exact ⟨hg, fun s h1 => ⟨(hs s h1).1, (hs s h1).2,
      (h.toSetup.shapes_stewart (h.e_pss.trans hp) hg h1).1⟩⟩
  exact ⟨m', P', h', fun env x0 z0 p0 D hl => C103_regions_only h h' hR hb ha hst D hl,
    fun env x0 z0 p0 D hl => C103_regions_only h' h (C103_symmetric hR) hb ha hst D hl⟩

end

/-- C103 is not vacuous: `ẋ = -sign x` with its switching function multiplied by `2 + x²`. -/
example (N nf : Nat) (hN : 0 < N) (hn : 2 ≤ nf) (x0 : ℝ) : ∃ po m oc P m' P' env env',
    SetupEx demoColloc (slideOpts N nf) slideModel (some UserOcp.trivial) po m oc P ∧
    SetupEx demoColloc (slideOpts N nf) (slideModel.rescale fun _ _ x _ _ => 2 + x.getD 0 0 ^ 2)
      (some UserOcp.trivial) po m' oc P' ∧
    ExactSolution (slideOpts N nf) po m P env ∧ ExactSolution (slideOpts N nf) po m' P' env' ∧
    SamePath env env' ∧ env' (.x0 0) = x0 := by
  obtain ⟨po, m, oc, P, h, hr⟩ := slide_setup_pos .stewart hN (by omega : 0 < nf)
  obtain ⟨env, D, -, i, -, -, -, hl⟩ := C98_simulation h rfl rfl hr
    (.inl (by simp [SignedMode, slideOpts, Opts.default])) rfl (slide_oneSwitch hN hn h) (slide_plain N nf)
    (fun _ => slide_colloc N nf) (slide_weights N nf) (fun _ => x0) (fun _ _ => 0) (fun _ => 0)
    (fun _ _ => 0) (fun _ _ _ => rfl) (fun k _ i hi => absurd hi (by simp [slideModel]))
    fun i hi => absurd hi (by simp [slideModel])
  have E : ExactSolution (slideOpts N nf) po m P env := ⟨D.mode, D.feas, D.sigma, D.slack, D.lam00⟩
  obtain ⟨m', P', h', f, -⟩ := C103_rescaling (ψ := fun _ _ x _ _ => 2 + x.getD 0 0 ^ 2) h
    (fun _ _ _ _ _ => by positivity) (fun _ => ⟨rfl, rfl, fun s hs => by obtain rfl := slide_sys hs; exact ⟨signMat_dense, signMat_partition⟩⟩)
    (.inl hr)
    (by simp [slideOpts, Opts.default]) (by simp [slideOpts, Opts.default])
  obtain ⟨env', E', sp, -⟩ := f env _ _ _ E (by
    intro q hq
    cases q with
    | region s i => exact hl s i
    | neg s i => exact absurd (h.e_pss.symm.trans hq.1) (by simp [slideOpts, Opts.default])
    | pos s i => exact absurd (h.e_pss.symm.trans hq.1) (by simp [slideOpts, Opts.default]))
  exact ⟨po, m, oc, P, m', P', env, env', h, h', E, E', sp, (sp (.x0 0) (by simp [Sym.IsMult])).trans (i 0)⟩

end Nosnoc
